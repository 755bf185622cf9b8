import Verif.Model.Batch
import Verif.Model.Compare

/-!
Submission of batch jobs and what is read from their logs: `seyfert/main/bsub_utils.py`.
-/

namespace Seyfert.Submit

open Names (spanChars DateTime stampStr daysIn)
open Batch (isSpace)

/-! ### The command -/

/-- `self.bsub_opts.update({...})`: a known key keeps its place. For `seyfert/main/bsub_utils.py` L62-67 (see `setOptions`). -/
def setOpt : Dict Str Str → Str → Str → Dict Str Str
  | [], k, v => [(k, v)]
  | (a, b) :: d, k, v => if a = k then (a, v) :: d else (a, b) :: setOpt d k v

/-- The options of a new interface (`bsub_utils.py` L42-46); the number is written as text. -/
def defaultOpts : Dict Str Str :=
  [("-P".toList, "c7".toList), ("-q".toList, "medium".toList), ("-M".toList, "2048".toList)]

/-- `setOptions` (L62-67). -/
def setOptions (d : Dict Str Str) (queue : Str) (nCores memory : Nat) : Dict Str Str :=
  setOpt (setOpt (setOpt d "-q".toList queue) "-n".toList (decStr nCores)) "-M".toList (decStr memory)

/-- `buildResourceSpecString` (L59-60). -/
def resourceSpec (mem : Str) : Str :=
  "-R\"select[avx && mem>".toList ++ mem ++ "] rusage[mem=".toList ++ mem ++ "]\"".toList

/-- `buildBsubOptsString` (L81-89); `none` is the `KeyError` of missing options. -/
def optsString (d : Dict Str Str) (err out : Str) : Option Str :=
  (d.lookup "-M".toList).map fun mem =>
    joinStr " ".toList
      ((setOpt (setOpt d "-e".toList err) "-o".toList out).map fun q => q.1 ++ " ".toList ++ q.2) ++
      " ".toList ++ resourceSpec mem

/-- `buildBsubCommand` (L91-94). -/
def bsubCommand (d : Dict Str Str) (cmd err out : Str) : Option Str :=
  (optsString d err out).map fun o => "bsub ".toList ++ o ++ " ".toList ++ cmd

/-! ### The logs -/

/-- Names of the two logs (L98-103): standard output and standard error. -/
def logNames (addTime : Bool) (now : DateTime) (start : Str) : Str × Str :=
  let out := "out_".toList ++ start
  let err := "err_".toList ++ start
  if addTime then
    (out ++ "_".toList ++ stampStr '-' now ++ ".out".toList, err ++ "_".toList ++ stampStr '-' now ++ ".err".toList)
  else (out, err)

/-- Paths of the two logs (L105-110): `logs_path` is a list of components. -/
def logPaths (logs : List Str) (separate addTime : Bool) (now : DateTime) (start : Str) : List Str × List Str :=
  let n := logNames addTime now start
  if separate then (logs ++ ["out".toList, n.1], logs ++ ["err".toList, n.2]) else (logs ++ [n.1], logs ++ [n.2])

/-- Text of a path. For `seyfert/main/bsub_utils.py` L96-128 (see `submitJob`). -/
def pathStr (p : List Str) : Str := joinStr "/".toList p

/-- What `submitJob` does. For `seyfert/main/bsub_utils.py` L96-128 (see `submitJob`). -/
structure Submission where
  /-- Directories made (L112-113). -/
  made : List (List Str)
  /-- The command handed to the shell, if any (L120). -/
  ran : Option Str
  /-- The value returned; `none` is the exception of `getJobID` when the answer has no job number. -/
  result : Option (Option Str)

/-- `submitJob` (L96-128). `answer` is what `bsub` prints for a command. Logging is not modelled. -/
def submitJob (d : Dict Str Str) (answer : Str → Str) (cmd : Str) (addTime : Bool) (now : DateTime) (logs : List Str)
    (test : Bool) (start : Str) (separate : Bool) : Option Submission :=
  let p := logPaths logs separate addTime now start
  (bsubCommand d cmd (pathStr p.2) (pathStr p.1)).map fun c =>
    if test then ⟨[p.1.dropLast, p.2.dropLast], none, some none⟩
    else ⟨[p.1.dropLast, p.2.dropLast], some c, (Batch.getJobID (answer c)).map some⟩

/-! ### Dates in logs -/

/-- `re.search` for an expression that is matched at one position by `m`.
For `seyfert/main/bsub_utils.py` L207-214 (see `extractDate`). -/
def search {α : Type} (m : Str → Option α) : Str → Option α
  | [] => m []
  | c :: s => (m (c :: s)).or (search m s)

/-- `[A-Za-z]`. For `seyfert/main/bsub_utils.py` L207-214 (see `matchDate`). -/
def isLetter (c : Char) : Bool := isLower c || isUpper c

/-- The abbreviations of `%b` in English. Other ways of writing capital letters, which `strptime` accepts, are not
modelled. For `report_maker.py` L111-116 (see `mkDate`). -/
def months : List Str :=
  ["Jan".toList, "Feb".toList, "Mar".toList, "Apr".toList, "May".toList, "Jun".toList, "Jul".toList, "Aug".toList,
    "Sep".toList, "Oct".toList, "Nov".toList, "Dec".toList]

/-- A field of one or two digits in `strptime`. For `report_maker.py` L111-116 (see `mkDate`). -/
def field2 (s : Str) : Option Nat :=
  if s.length ≤ 2 then parseNat s else none

/-- `datetime.datetime.strptime` with the format `%Y %b %d %H:%M:%S`, on its parts (L214; `report_maker.py`
L111-116). The day has been read as an integer before, so that only its value matters. -/
def mkDate (year month : Str) (day : Nat) (time : Str) : Option DateTime :=
  match splitChar ':' time with
  | [h, m, s] =>
    if year.length = 4 ∧ month ∈ months then
      (parseNat year).bind fun y => (field2 h).bind fun h => (field2 m).bind fun m => (field2 s).bind fun s =>
        let t : DateTime := ⟨y, months.idxOf month + 1, day, h, m, s⟩
        if t.valid then some t else none
    else none
  | _ => none

/-- `date.toordinal` without the constant: days before a date of the proleptic Gregorian calendar.
For `bsub_utils.py` L201 (see `ordinal`). -/
def daysBeforeMonth (y m : Nat) : Nat := ((List.range (m - 1)).map fun k => daysIn y (k + 1)).sum

/-- Number of the day of a date (`datetime`, used by `bsub_utils.py` L201). -/
def ordinal (t : DateTime) : Nat :=
  365 * (t.year - 1) + (t.year - 1) / 4 - (t.year - 1) / 100 + (t.year - 1) / 400 + daysBeforeMonth t.year t.month + t.day

/-- Seconds on the time line of `datetime`. For `seyfert/main/bsub_utils.py` L201 (see `durationField`). -/
def seconds (t : DateTime) : Int := 86400 * (ordinal t : Int) + 3600 * t.hour + 60 * t.minute + t.second

/-- `(end_time - start_time).seconds` (L201): a `timedelta` has whole days and a rest, of which this is the rest. -/
def durationField (start stop : DateTime) : Int := (seconds stop - seconds start) % 86400

/-- The expression for a date after a literal prefix (L207-214), at one position: prefix, a space, letters, a space, three
letters, white space, digits, white space, a time with two digits each, white space, four digits. -/
def matchDate (pre : Str) (s : Str) : Option (Str × Str × Str × Str) :=
  (stripPrefix (pre ++ " ".toList) s).bind fun r =>
    let w := spanChars isLetter r
    if w.1 = [] then none else
    (stripPrefix " ".toList w.2).bind fun r =>
      let m := spanChars isLetter r
      if m.1.length ≠ 3 then none else
      let a := spanChars isSpace m.2
      let d := spanChars isDigit a.2
      let b := spanChars isSpace d.2
      if a.1 = [] ∨ d.1 = [] ∨ b.1 = [] then none else
      let t := b.2.take 8
      if ¬ Names.matchPat (Names.dig 2 ++ some ':' :: Names.dig 2 ++ some ':' :: Names.dig 2) t then none else
      let c := spanChars isSpace (b.2.drop 8)
      if c.1 = [] then none else
      if ¬ Names.matchPat (Names.dig 4) (c.2.take 4) then none else
      some (m.1, d.1, t, c.2.take 4)

/-- `extractDateTimeFromOut` (L207-214); `none` is an exception. -/
def extractDate (text pre : Str) : Option DateTime :=
  (search (matchDate pre) text).bind fun g => mkDate g.2.2.2 g.1 (decVal g.2.1) g.2.2.1

/-! ### The table of resources -/

/-- `^out_(.*)_202[0-1]` (L186) matched against the stem of a file name, at the last place where it fits. -/
def lastYear : Str → Option Str
  | [] => none
  | c :: s =>
    match lastYear s with
    | some r => some (c :: r)
    | none =>
      if (stripPrefix "_2020".toList (c :: s)).isSome ∨ (stripPrefix "_2021".toList (c :: s)).isSome then some [] else none

/-- The group of `^out_(.*)_202[0-1]` (`bsub_utils.py` L186). -/
def nameOfLog (stem : Str) : Option Str := (stripPrefix "out_".toList stem).bind lastYear

/-- `Label\s*:\s+([0-9\.]+)` (L187-193). -/
def isNum (c : Char) : Bool := isDigit c || c == '.'

/-- A number after its label, at one position (`bsub_utils.py` L187-193). -/
def matchNum (label : Str) (s : Str) : Option Str :=
  (stripPrefix label s).bind fun r =>
    (stripPrefix ":".toList (spanChars isSpace r).2).bind fun r =>
      let a := spanChars isSpace r
      let d := spanChars isNum a.2
      if a.1 = [] ∨ d.1 = [] then none else some d.1

/-- The labels of the numbers (`bsub_utils.py` L188-193). -/
def labels : List Str :=
  ["CPU time".toList, "Max Memory".toList, "Average Memory".toList, "Total Requested Memory".toList,
    "Delta Memory".toList]

/-- A row of the table of resources (`bsub_utils.py` L196-205). -/
structure Usage where
  fisher : Str
  start : DateTime
  stop : DateTime
  duration : Int
  numbers : List ℚ

/-- A row of the table (L196-205); `float` is Python's conversion, `none` its exception. -/
def usageRow (float : Str → Option ℚ) (file : Str × Str) : Option Usage :=
  (nameOfLog file.1).bind fun name =>
    (extractDate file.2 "Started at".toList).bind fun a =>
      (extractDate file.2 "Results reported on".toList).bind fun b =>
        (labels.mapM fun l => (search (matchNum l) file.2).bind float).map fun ns => ⟨name, a, b, durationField a b, ns⟩

/-- `getResourceUsageTable` (L185-205): the files are given by stem and text, in the order of `glob("*.out")`. The last column
repeats the duration in words. -/
def usageTable (float : Str → Option ℚ) (files : List (Str × Str)) : Option (List Usage) :=
  files.mapM (usageRow float)

end Seyfert.Submit
