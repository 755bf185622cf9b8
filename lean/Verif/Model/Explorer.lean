import Verif.Model.PyStr
import Verif.Model.PyDict
import Verif.Model.Names

/-!
Model of `seyfert/utils/dir_explorer.py`.
-/

namespace Seyfert.Explorer

/-- The named groups of a match. For `seyfert/utils/dir_explorer.py` L17 (see `regex1`). -/
abbrev Groups := Dict Str Str

/-- The names of the scenarios (`dir_explorer.py` L17-19). -/
def scenarios : List Str := ["optimistic".toList, "pessimistic".toList]

/-- `run_(?P<scenario>optimistic|pessimistic)` (L17), matched at the start. -/
def regex1 (s : Str) : Option Groups :=
  (stripPrefix "run_".toList s).bind fun r => matchAlt scenarios r fun w _ => some [("scenario".toList, w)]

/-- What follows `[0-9]+`; it is greedy, and nothing that may follow starts with a digit.
For `seyfert/utils/dir_explorer.py` L18 (see `regex2`). -/
def digits (s : Str) : Option (Str × Str) :=
  match Names.spanChars isDigit s with
  | ([], _) => none
  | (c :: d, r) => some (c :: d, r)

/-- `^(?P<scenario>optimistic|pessimistic)_(?P<nbins>[0-9]+)_sp_bins_` (L18). -/
def regex2 (s : Str) : Option Groups :=
  matchAlt scenarios s fun w r => (stripPrefix "_".toList r).bind fun r => (digits r).bind fun q =>
    (stripPrefix "_sp_bins_".toList q.2).map fun _ => [("scenario".toList, w), ("nbins".toList, q.1)]

/-- `^scenario_(?P<scenario>optimistic|pessimistic)__n_sp_bins_(?P<nbins>[0-9]+)` (L19). -/
def regex3 (s : Str) : Option Groups :=
  (stripPrefix "scenario_".toList s).bind fun r => matchAlt scenarios r fun w r =>
    (stripPrefix "__n_sp_bins_".toList r).bind fun r => (digits r).map fun q =>
      [("scenario".toList, w), ("nbins".toList, q.1)]

/-- `getMandatoryDirectoryMatches` (L22-34): at most one match, of the first expression that matches. -/
def mandatory (name : Str) : List (Option Groups) :=
  match (regex1 name).or ((regex2 name).or (regex3 name)) with
  | some g => [some g]
  | none => []

/-- The optional arguments; additional patterns are functions from names to the groups of a match (`re.search`).
For `seyfert/utils/dir_explorer.py` L36-41 (see `dirMatches`). -/
structure Args where
  patterns : Option (List (Str → Option Groups)) := none
  filters : Option (List (Str → Bool)) := none
  containing : Option (List Str) := none
  notContaining : Option (List Str) := none

/-- `getDirMatches` (L36-41). -/
def dirMatches (a : Args) (name : Str) : List (Option Groups) :=
  mandatory name ++ (a.patterns.getD []).map fun p => p name

/-- `part in s` for strings. For `seyfert/utils/dir_explorer.py` L44-58 (see `directoryFilter`). -/
def contains (part : Str) : Str → Bool
  | [] => (stripPrefix part []).isSome
  | c :: s => (stripPrefix part (c :: s)).isSome || contains part s

/-- `directoryFilter` (L44-58). -/
def directoryFilter (a : Args) (name : Str) (ms : List (Option Groups)) : Bool :=
  if ms = [] then false
  else ms.all (·.isSome) && (a.filters.getD []).all (fun f => f name) && (a.containing.getD []).all (fun c => contains c name) &&
    (a.notContaining.getD []).all (fun c => !contains c name)

/-- `getMatchesGroupsDictionary` (L61-64), for matches that are all there. -/
def groupsOf (ms : List (Option Groups)) : Groups := PyDict.ofItems (ms.flatMap fun m => m.getD [])

/-- An entry of a directory: its path, its name, and the name after `resolve()`, which differs for symbolic links.
For `seyfert/utils/dir_explorer.py` L79-84 (see `selectFlat`). -/
structure Entry where
  path : Str
  name : Str
  resolved : Str
  isDir : Bool

/-- The loop over the entries when not recursive (L79-84): the patterns are matched with the resolved name, the filters
with the name itself. -/
def selectFlat (a : Args) (es : List Entry) : Dict Str Groups :=
  PyDict.ofItems ((es.filter (·.isDir)).filterMap fun e =>
    if directoryFilter a e.name (dirMatches a e.resolved) then some (e.path, groupsOf (dirMatches a e.resolved)) else none)

/-- The loop when recursive (L70-77) over the directories found by `os.walk`; only the parent is resolved. -/
def selectRecursive (a : Args) (es : List Entry) : Dict Str Groups :=
  PyDict.ofItems (es.filterMap fun e =>
    if directoryFilter a e.name (dirMatches a e.name) then some (e.path, groupsOf (dirMatches a e.name)) else none)

end Seyfert.Explorer
