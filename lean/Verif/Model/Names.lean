import Verif.Model.PyNum
import Verif.Model.Parameter
import Mathlib.Data.List.Sort
import Mathlib.Data.Rat.Floor

/-!
Names of job directories and run directories: `seyfert/utils/filesystem_utils.py`,
`seyfert/utils/general_utils.py`, `seyfert/utils/formatters.py`.  ASCII only: Python's `\d` and `int` also
accept other digits, which are not modelled.
-/

namespace Seyfert.Names

/-- `[a-zA-Z0-9]`. For `filesystem_utils.py` L92 (see `matchJobDir`). -/
def isAlnum (c : Char) : Bool := isLower c || isUpper c || isDigit c

/-- The longest prefix of characters in a class, and the rest: `[...]+` or `[...]*` followed by something that
starts with a character outside the class. For `filesystem_utils.py` L92 (see `matchJobDir`). -/
def spanChars (p : Char → Bool) : Str → Str × Str
  | [] => ([], [])
  | c :: s => if p c then (c :: (spanChars p s).1, (spanChars p s).2) else ([], c :: s)

/-! ### Power spectrum and angular job directories -/

/-- `get_cosmology_jobdir_name` (`filesystem_utils.py` L108-115). -/
def stepStr (step : Int) : Str :=
  if step = 0 then "0".toList
  else if step < 0 then "m_".toList ++ decStr step.natAbs
  else "p_".toList ++ decStr step.natAbs

/-- The name of the directory of a job (`filesystem_utils.py` L108-115). -/
def jobDir (dvar : Str) (step : Int) : Str := "dvar_".toList ++ dvar ++ "_step_".toList ++ stepStr step

/-- `(?P<sign>_[pm])*` (`filesystem_utils.py` L92): the last sign matched, and the rest. The repetition cannot give back a match,
because what follows must be `_` and a digit. -/
def signs (last : Option Char) : Str → Option Char × Str
  | '_' :: c :: s => if c = 'p' ∨ c = 'm' then signs (some c) s else (last, '_' :: c :: s)
  | s => (last, s)

/-- `_(?P<step>[0-9])` and the sign rule (`filesystem_utils.py` L92-102). -/
def stepAfter (dvar : Str) (sign : Option Char) : Str → Option (Str × Int)
  | '_' :: d :: _ =>
    if isDigit d then
      some (dvar, if sign = some 'm' then -(digitVal d : Int) else (digitVal d : Int))
    else none
  | _ => none

/-- The regular expression (`filesystem_utils.py` L92) matched at the start of `s`. -/
def matchJobDir (s : Str) : Option (Str × Int) :=
  (stripPrefix "dvar_".toList s).bind fun r =>
    if (spanChars isAlnum r).1 = [] then none
    else (stripPrefix "_step".toList (spanChars isAlnum r).2).bind fun t =>
      stepAfter (spanChars isAlnum r).1 (signs none t).1 (signs none t).2

/-- `get_dvar_step_from_cosmology_jobdir_name` (`filesystem_utils.py` L91-105): the first position where the regular expression
matches; `none` is the exception. -/
def parseJobDir : Str → Option (Str × Int)
  | [] => matchJobDir []
  | c :: s => (matchJobDir (c :: s)).or (parseJobDir s)

/-! ### Fisher job directories -/

/-- `get_fisher_jobdir_name_from_dvar1_dvar2` (`filesystem_utils.py` L136-137). -/
def fisherDir (a b : Str) : Str := a ++ "__".toList ++ b

/-- `get_dvar1_dvar2_from_fisher_jobdir_name` (`filesystem_utils.py` L125-133). -/
def parseFisherDir (s : Str) : Option (Str × Str) :=
  if (spanChars isAlnum s).1 = [] then none
  else (stripPrefix "__".toList (spanChars isAlnum s).2).bind fun t =>
    if (spanChars isAlnum t).1 = [] then none
    else some ((spanChars isAlnum s).1, (spanChars isAlnum t).1)

/-! ### Jobs of the tasks, `seyfert/main/task_runners.py` -/

section
variable {K : Type} [Field K] [LinearOrder K] [IsStrictOrderedRing K]

/-- The method with displaced values (`task_runners.py` L190, L226). -/
def stem : Str := "SteM".toList
/-- The name of the undisplaced cosmology (`parameter.py` L258, `workspace.py` L188). -/
def central : Str := "central".toList

/-- The variations of the parameters `pars` over all steps. For `task_runners.py` L186-194 (see `powerJobs`). -/
def variations (pars : List (Str × Param.Par K)) (steps : List Int) : List (Str × Int) :=
  (pars.filter (fun q => decide (q.2.method = stem))).flatMap (fun q => steps.map (fun s => (q.1, s)))

/-- `PowerSpectrumTaskRunner.createJobDirStructure` (`task_runners.py` L186-194): the directories made, in order; `none` is the
`TypeError` of iterating over steps that were not loaded. -/
def powerJobs (c : Param.Coll K) : Option (List (Str × Int)) :=
  match c.steps with
  | some st => some ((central, 0) :: variations (Param.freeCosmo c) st)
  | none =>
    if (Param.freeCosmo c).any (fun q => decide (q.2.method = stem)) then none else some [(central, 0)]

/-- `AngularTaskRunner.createJobDirStructure` (`task_runners.py` L222-235). -/
def angularJobs (c : Param.Coll K) : Option (List (Str × Int)) :=
  match c.steps with
  | some st => some ((central, 0) :: variations (Param.freePars c) st)
  | none =>
    if (Param.freePars c).any (fun q => decide (q.2.method = stem)) then none else some [(central, 0)]

/-- `DerivativeTaskRunner.createJobDirStructure` (`task_runners.py` L261-264). -/
def derivativeJobs (c : Param.Coll K) : List Str := (Param.freePars c).map (·.1)

end

/-- `collectClVariationsFiles` (`seyfert/derivatives/differentiator.py` L146-160): the job directories of one
parameter, in whatever order the file system lists them, and the central one, sorted by the step in their
names; `none` is the exception for a name that cannot be parsed. -/
def collectVariations (listing : List Str) (par : Str) : Option (List Str) :=
  let dirs := listing.filter (fun d => (stripPrefix ("dvar_".toList ++ par ++ "_".toList) d).isSome)
    ++ [jobDir central 0]
  if dirs.all (fun d => (parseJobDir d).isSome) then
    some ((dirs.map (fun d => (((parseJobDir d).map (·.2)).getD 0, d))).insertionSort
      (fun a b => a.1 ≤ b.1)|>.map (·.2))
  else none

/-! ### Run identifiers -/

/-- A date with time to the second (`formatters.py` L37-42). -/
structure DateTime where
  year : Nat
  month : Nat
  day : Nat
  hour : Nat
  minute : Nat
  second : Nat
  deriving DecidableEq, Repr

/-- The calendar of `datetime`, which `datetime.datetime.strptime` in `seyfert/utils/formatters.py` uses.
For `formatters.py` L41-42 (see `daysIn`). -/
def isLeap (y : Nat) : Bool := decide (y % 4 = 0 ∧ (y % 100 ≠ 0 ∨ y % 400 = 0))

/-- Length of a month in `datetime`. For `formatters.py` L41-42 (see `DateTime.valid`). -/
def daysIn (y m : Nat) : Nat :=
  if m = 2 then (if isLeap y then 29 else 28)
  else if m = 4 ∨ m = 6 ∨ m = 9 ∨ m = 11 then 30 else 31

/-- The ranges that `datetime.datetime` accepts. For `formatters.py` L41-42 (see `parseStamp`). -/
def DateTime.valid (t : DateTime) : Bool :=
  decide (1 ≤ t.year ∧ t.year ≤ 9999 ∧ 1 ≤ t.month ∧ t.month ≤ 12 ∧ 1 ≤ t.day ∧
    t.day ≤ daysIn t.year t.month ∧ t.hour < 24 ∧ t.minute < 60 ∧ t.second < 60)

/-- `datetime_str_format` (`seyfert/utils/formatters.py` L37-38), for years from 1000 on (`%Y` is not padded on
Linux). -/
def stampStr (sep : Char) (t : DateTime) : Str :=
  padDec 4 t.year ++ '-' :: padDec 2 t.month ++ '-' :: padDec 2 t.day ++ 'T' :: padDec 2 t.hour ++
    sep :: padDec 2 t.minute ++ sep :: padDec 2 t.second

/-- A pattern of digits (`none`) and literal characters. For `general_utils.py` L188 (see `matchTail`). -/
def matchPat : List (Option Char) → Str → Bool
  | [], [] => true
  | none :: p, c :: s => isDigit c && matchPat p s
  | some d :: p, c :: s => decide (c = d) && matchPat p s
  | _, _ => false

/-- `\d{n}` (`formatters.py` L37-42). -/
def dig (n : Nat) : List (Option Char) := List.replicate n none

/-- `\d{4}-\d{2}-\d{2}T\d{2}-\d{2}-\d{2}`. For `general_utils.py` L188 (see `matchRunId`). -/
def stampPat (sep : Char) : List (Option Char) :=
  dig 4 ++ some '-' :: dig 2 ++ some '-' :: dig 2 ++ some 'T' :: dig 2 ++ some sep :: dig 2 ++
    some sep :: dig 2

/-- `date_from_str` (`formatters.py` L41-42) on strings of this shape: `strptime` raises `ValueError` (`none`) for impossible
dates.  (`strptime` also accepts fields with one digit; not modelled.) -/
def parseStamp (s : Str) : Option DateTime :=
  let t : DateTime := ⟨decVal (s.take 4), decVal ((s.drop 5).take 2), decVal ((s.drop 8).take 2),
    decVal ((s.drop 11).take 2), decVal ((s.drop 14).take 2), decVal ((s.drop 17).take 2)⟩
  if t.valid then some t else none

/-- `\d\.\d\.\d(?:dev)?`. For `general_utils.py` L188 (see `versionDevPat`). -/
def versionPat : List (Option Char) := [none, some '.', none, some '.', none]
/-- `\d\.\d\.\ddev`, the longer form of the version (`general_utils.py` L188). -/
def versionDevPat : List (Option Char) := versionPat ++ [some 'd', some 'e', some 'v']

/-- `s` as `a`, an underscore, and `k` more characters. For `general_utils.py` L188 (see `matchTail`). -/
def splitTail (k : Nat) (s : Str) : Option (Str × Str) :=
  if k + 1 ≤ s.length ∧ s[s.length - (k + 1)]? = some '_' then
    some (s.take (s.length - (k + 1)), s.drop (s.length - k))
  else none

/-- A tail of `k` characters that follows a pattern. For `general_utils.py` L188 (see `matchRunId`). -/
def matchTail (p : List (Option Char)) (s : Str) : Option (Str × Str) :=
  (splitTail p.length s).bind fun q => if matchPat p q.2 then some q else none

/-- The regular expression of `split_run_id` (`general_utils.py` L188): `(.*)` is greedy, so the short version is tried
first.  Strings with newlines, which `.` does not match, are not modelled. -/
def matchRunId (s : Str) : Option (Str × Str × Str) :=
  (matchTail (stampPat '-') s).bind fun q =>
    ((matchTail versionPat q.1).or (matchTail versionDevPat q.1)).map fun r => (r.1, r.2, q.2)

/-- `split_run_id` (`general_utils.py` L187-198); `none` is the `ValueError` of an impossible date. -/
def splitRunId (s : Str) : Option (Str × Option (Str × DateTime)) :=
  match matchRunId s with
  | none => some (s, none)
  | some (name, v, st) => (parseStamp st).map fun t => (name, some (v, t))

/-- The name of a run directory: `setRunID` and `createRundir`
(`seyfert/main/task_runners.py` L449-457, L474-489). -/
def runDirName (ident version : Str) (t : DateTime) : Str :=
  ident ++ '_' :: version ++ '_' :: stampStr '-' t

/-! ### Durations -/

/-- `time_format` (`seyfert/utils/formatters.py` L18-27): `round3` is Python's `round(·, 3)`; `int(dt)` is the
integer part of a nonnegative duration. -/
def timeFormat (round3 : ℚ → ℚ) (dt : ℚ) : Int × Int × Int × ℚ :=
  (⌊dt⌋ / 3600, ⌊dt⌋ % 3600 / 60, ⌊dt⌋ % 3600 % 60, round3 (1000 * (dt - ⌊dt⌋)))

end Seyfert.Names
