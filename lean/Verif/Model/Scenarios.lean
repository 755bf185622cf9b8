import Verif.Model.FisherStore
import Verif.Model.Compare
import Verif.Model.PyDict

/-!
Model of `notebook_helpers/load_helpers.py`: the runs of a scenario, and the replacement of the matrices with the
three-dimensional spectrum by those of four bins.
-/

namespace Seyfert.Scen

/-! ### The runs of a scenario -/

/-- An entry of a directory: its name and `is_dir()`. For `notebook_helpers/load_helpers.py` L42-46 (see `select`). -/
structure Entry where
  name : Str
  dir : Bool

/-- The exceptions of the functions modelled here, by their kinds (`load_helpers.py` L25-68). -/
inductive Err
  | keyError
  | notFound
deriving DecidableEq

/-- `generic_regex.match(name)` and `int(match.group('nbins'))` (L35, L52-53): `^(optm|pess)_([0-9]+)_sp_bins_`. A digit is
no `_`, so the longest group of digits is the only one. -/
def matchRun (s : Str) : Option Nat :=
  matchAlt ["optm".toList, "pess".toList] s fun _ r => (stripPrefix "_".toList r).bind fun r =>
    if r.takeWhile isDigit = [] then none
    else (stripPrefix "_sp_bins_".toList (r.dropWhile isDigit)).map fun _ => decVal (r.takeWhile isDigit)

/-- The text searched for in the names of runs without galaxies of the other survey (L36). -/
def minus : Str := "gcph_minus_gcsp".toList

/-- `selection_func` (L42-46), and the number of bins. -/
def select (flag : Bool) (e : Entry) : Option Nat :=
  if e.dir && (Compare.contains minus e.name == flag) then matchRun e.name else none

/-- The loop of L50-54: the names of the directories by number of bins. -/
def loop (flag : Bool) : Dict Nat Str → List Entry → Dict Nat Str
  | d, [] => d
  | d, e :: es => match select flag e with
    | some n => loop flag (PyDict.set d n e.name) es
    | none => loop flag d es

/-- The names of the default directories (L40); `none` is the `KeyError`. -/
def homeName (scenario : Str) : Option Str :=
  if scenario = "optm".toList then some "optimistic".toList
  else if scenario = "pess".toList then some "pessimistic".toList
  else none

/-- `load_workspaces_for_scenario(scenario, gcph_sub_flag, base_dir)` (L32-56). A directory is the list of its entries in the
order of `iterdir`, or `none` if there is none; `home` gives the directories below the default one (L39). A workspace
(L54) is given by the name of its directory. -/
def load (home : Str → Option (List Entry)) (base : Option (Option (List Entry))) (scenario : Str) (flag : Bool) :
    Except Err (Dict Nat Str) :=
  match base with
  | some none => .error .notFound
  | some (some es) => .ok (loop flag [] es)
  | none => match homeName scenario with
    | none => .error .keyError
    | some n => match home n with
      | none => .error .notFound
      | some es => .ok (loop flag [] es)

/-- The loop of `load_fisher_analyses_for_scenario` (L64-66): the first run that cannot be loaded ends it. -/
def analyses {A E : Type} (from_ : Str → Except E A) : List (Nat × Str) → Except E (Dict Nat A)
  | [] => .ok []
  | (n, s) :: rest => match from_ s with
    | .error e => .error e
    | .ok a => match analyses from_ rest with
      | .error e => .error e
      | .ok d => .ok ((n, a) :: d)

/-! ### Matrices of four bins -/

/-- Whether a matrix is replaced (L25). -/
def hybrid (name : Str) : Bool := Compare.contains "GCsp(Pk)".toList name

/-- The matrices of the analyses, as references to objects. For `notebook_helpers/load_helpers.py` L24-29 (see `inner`). -/
abbrev State := Dict Nat (Dict Str Fisher.Ref)

/-- `analyses[n].fisher_matrices[name]`. For `notebook_helpers/load_helpers.py` L24-29 (see `inner`). -/
def State.ref (s : State) (n : Nat) (name : Str) : Option Fisher.Ref := (s.lookup n).bind fun d => d.lookup name

/-- The inner loop (L24-29); the assignment changes the dictionary of `analyses[n]` in place. -/
def inner (n : Nat) : State → List Str → State × Option Err
  | s, [] => (s, none)
  | s, name :: rest =>
    if hybrid name then match s.ref 4 name with
      | none => (s, some .keyError)
      | some r => inner n (PyDict.modify s n fun d => PyDict.set d name r) rest
    else inner n s rest

/-- The loop over the analyses (L21-29). -/
def outer : State → List Nat → State × Option Err
  | s, [] => (s, none)
  | s, n :: rest => match s.lookup 4, s.lookup n with
    | some _, some d => match inner n s (d.map (·.1)) with
      | (s', some e) => (s', some e)
      | (s', none) => outer s' rest
    | _, _ => (s, some .keyError)

/-- `replace_hybrid_fishers_with_4_bins_equivalents(analyses)` (L20-29): the analyses afterwards, and the exception. -/
def replaceHybrid (s : State) : State × Option Err := outer s (s.map (·.1))

variable {N K : Type} [LinearOrder N] [Field K] [DecidableEq K]

/-- A method called on every matrix of every analysis, in turn (L15-17 with L9-12, whose other steps only read the
matrices). -/
def forAll (f : Fisher.FM N K → Fisher.Res N K Unit) : Fisher.Heap N K → State → Fisher.Heap N K × Except Fisher.Err Unit
  | h, [] => (h, .ok ())
  | h, (_, d) :: rest => match Fisher.forRefs f h (d.map (·.2)) with
    | (h', .error e) => (h', .error e)
    | (h', .ok _) => forAll f h' rest

/-- `invert_fishers_in_all_analyses(analyses)` (L15-17), for the matrices. -/
noncomputable def invertAll (en : Finset N → List N) (sq : K → K) (h : Fisher.Heap N K) (s : State) :
    Fisher.Heap N K × Except Fisher.Err Unit := forAll (Fisher.prepareOne en sq) h s

end Seyfert.Scen
