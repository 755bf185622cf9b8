import Verif.Model.Submit
import Mathlib.Data.List.Sort
import Mathlib.Data.List.Dedup

/-!
Report on the batch jobs of a run: `seyfert/main/report_maker.py`.
-/

namespace Seyfert.Report

open Names (spanChars DateTime)
open Batch (isSpace)
open Submit (search mkDate durationField isLetter)

/-- The words for a state (L10-14). -/
inductive Status
  | success
  | failure
  | undefined
  | notExecuted
  | notCompleted
  deriving DecidableEq, Repr

/-- The exceptions of the functions modelled here, by their kinds (`report_maker.py` L40-228). -/
inductive Err
  /-- `ValueError`: a date that cannot be read. -/
  | valueError
  /-- `ZeroDivisionError`: a task without job directories. -/
  | zeroDivision
  /-- `AttributeError`: the text of a log that does not exist. -/
  | attributeError
  deriving DecidableEq, Repr

/-- A file of a job directory: name, text, size in bytes. For `seyfert/main/report_maker.py` L129-132 (see `findFile`). -/
structure File where
  name : Str
  text : Str
  size : Nat
  deriving DecidableEq, Repr

/-- `getFilePathFromJobdirWithPattern` (L129-132) with the pattern `pre*suf`: the first file that `glob` gives. The files
are listed in the order of the file system. -/
def findFile (files : List File) (pre suf : Str) : Option File :=
  files.find? fun f => Compare.globMatch pre suf f.name

/-! ### Times -/

/-- `str.split()`: the longest parts without white space. For `seyfert/main/report_maker.py` L109-116 (see `readDate`). -/
def words : Str → List Str
  | [] => []
  | c :: s =>
    if isSpace c then words s
    else match s with
      | [] => [[c]]
      | d :: _ =>
        if isSpace d then [c] :: words s
        else match words s with
          | [] => [[c]]
          | w :: ws => (c :: w) :: ws

/-- `[a-zA-Z0-9\s:]`. For `seyfert/main/report_maker.py` L101-102 (see `matchAfter`). -/
def isDateChar (c : Char) : Bool := isLetter c || isDigit c || isSpace c || c == ':'

/-- The expressions for the two times (L101-102): a literal and as many characters of dates as follow, at least one. -/
def matchAfter (pre : Str) (s : Str) : Option Str :=
  (stripPrefix pre s).bind fun r => if (spanChars isDateChar r).1 = [] then none else some (spanChars isDateChar r).1

/-- `convertDateTimeString` and `strptime` (L109-116, L124-127); `none` is `ValueError`. -/
def readDate (s : Str) : Option DateTime :=
  match (words s).drop 1 with
  | [month, day, time, year] => (parseNat day).bind fun d => mkDate year month d time
  | _ => none

/-- The loop of `getExecutionTimeFromOutfile` (L104-116): start and end found so far. -/
def scanLines : List Str → Option DateTime × Option DateTime → Except Err (Option DateTime × Option DateTime)
  | [], st => .ok st
  | line :: rest, st =>
    match search (matchAfter "Started at ".toList) line with
    | some w => match readDate w with
      | none => .error .valueError
      | some t => scanLines rest (some t, st.2)
    | none => match search (matchAfter "Results reported on ".toList) line with
      | some w => match readDate w with
        | none => .error .valueError
        | some t => scanLines rest (st.1, some t)
      | none => scanLines rest st

/-- `getExecutionTimeFromOutfile` (L100-122). Lines end with a newline; the other line separators of `splitlines` are not
modelled. -/
def executionTime (text : Str) : Except Err Int :=
  match scanLines (splitChar '\n' text) (none, none) with
  | .error e => .error e
  | .ok (some ti, some tf) => .ok (durationField ti tf)
  | .ok _ => .ok 0

/-- `Job\s+([0-9]+)` (L34). -/
def matchJob (s : Str) : Option Str :=
  (stripPrefix "Job".toList s).bind fun r =>
    let a := spanChars isSpace r
    let d := spanChars isDigit a.2
    if a.1 = [] ∨ d.1 = [] then none else some d.1

/-- `<([a-z0-9*]+)\.ge\.infn\.it>` (L35). -/
def isHostChar (c : Char) : Bool := isLower c || isDigit c || c == '*'

/-- The name of a host at a position (`report_maker.py` L35). -/
def matchHost (s : Str) : Option Str :=
  (stripPrefix "<".toList s).bind fun r =>
    let h := spanChars isHostChar r
    if h.1 = [] then none else (stripPrefix ".ge.infn.it>".toList h.2).map fun _ => h.1

/-- `findall` (L96): a match has its only `<` at its start, so matches cannot overlap. -/
def findHosts : Str → List Str
  | [] => []
  | c :: s => match matchHost (c :: s) with
    | some h => h :: findHosts s
    | none => findHosts s

/-- The hosts of a job without those of the interactive machines (`report_maker.py` L96-101). -/
def hostsOf (text : Str) : List Str := (findHosts text).filter fun h => !(stripPrefix "farmui".toList h).isSome

/-! ### Core dumps -/

/-- `[cC]ore\s+[dD]ump` (L37). -/
def matchCore (s : Str) : Option Unit :=
  ((stripPrefix "core".toList s).or (stripPrefix "Core".toList s)).bind fun r =>
    let a := spanChars isSpace r
    if a.1 = [] then none
    else ((stripPrefix "dump".toList a.2).or (stripPrefix "Dump".toList a.2)).map fun _ => ()

/-- `core\.[0-9]+` at the start of a name (L38, L81). -/
def isCoreFile (name : Str) : Bool :=
  match stripPrefix "core.".toList name with
  | some (c :: _) => isDigit c
  | _ => false

/-! ### One job -/

/-- `JobReport` (`report_maker.py` L17-133). -/
structure Job where
  name : Str
  status : Status
  coreDumped : Bool
  /-- Size of the output, in bytes. -/
  size : Nat
  seconds : Int
  jobId : Option Str
  hosts : List Str
  /-- Text of the log of errors, if there is one. -/
  errText : Option Str
  deriving DecidableEq, Repr

/-- `evaluateJobStatus` (L70-88): status, core dump and size of the output. -/
def jobStatus (files : List File) (err out output : Option File) : Status × Bool × Nat :=
  match err with
  | none => if out.isNone then (.notExecuted, false, 0) else (.undefined, false, 0)
  | some e =>
    if 0 < e.text.length then
      (.failure, (search matchCore e.text).isSome || files.any (fun f => isCoreFile f.name), 0)
    else match output with
      | some o => (.success, false, o.size)
      | none => (.undefined, false, 0)

/-- `setUp` (L42-46, L64-98) for the job directory `name` and the output pattern `*suf`. -/
def jobReport (suf : Str) (name : Str) (files : List File) : Except Err Job :=
  let err := findFile files "job".toList ".err".toList
  let out := findFile files "job".toList ".out".toList
  let st := jobStatus files err out (findFile files [] suf)
  match out with
  | none => .ok ⟨name, st.1, st.2.1, st.2.2, 0, none, [], err.map (·.text)⟩
  | some o => match executionTime o.text with
    | .error e => .error e
    | .ok s => .ok ⟨name, st.1, st.2.1, st.2.2, s, search matchJob o.text, hostsOf o.text, err.map (·.text)⟩

/-! ### One task -/

/-- A work directory: its name, whether it is a link, its job directories in the order of the file system.
For `seyfert/main/report_maker.py` L160-220 (see `taskReport`). -/
structure WorkDir where
  name : Str
  link : Bool
  jobs : List (Str × List File)
  deriving DecidableEq, Repr

/-- `TaskReportMaker` (`report_maker.py` L135-227). -/
structure Task where
  name : Str
  jobs : List Job
  nFailed : Nat
  nSucceeded : Nat
  nNotExecuted : Nat
  nUndefined : Nat
  nCore : Nat
  meanTime : ℚ
  totalMB : ℚ
  good : List Str
  bad : List Str
  status : Status

/-- The output pattern of a task (L153): what follows the star. -/
def outputSuffix (task : Str) : Str := if task = "Fisher".toList then ".csv".toList else ".h5".toList

/-- `sorted` by the text of the job numbers, when every job has one (L177-178). -/
def sortJobs (js : List Job) : List Job :=
  if js.all (fun j => j.jobId.isSome) then
    js.insertionSort fun a b => (a.jobId.getD []).map Char.toNat ≤ (b.jobId.getD []).map Char.toNat
  else js

/-- The number of jobs with a status (`report_maker.py` L180-208). -/
def countJobs (st : Status) (js : List Job) : Nat := (js.filter fun j => decide (j.status = st)).length

/-- The status of a task from its jobs (L209-220). -/
def taskStatus (js : List Job) : Status :=
  if 0 < countJobs .failure js then .failure
  else if countJobs .success js = js.length then .success
  else if countJobs .notExecuted js = js.length then .notExecuted
  else if js.all (fun j => decide (j.status = .success ∨ j.status = .notExecuted)) then .notCompleted
  else .undefined

/-- The hosts of the jobs with a given status; the order of a set is left open, here that of the jobs (L187-199). -/
def hostsWith (st : Status) (js : List Job) : List Str :=
  ((js.filter fun j => decide (j.status = st)).flatMap (·.hosts)).dedup

/-- `buildJobsReports` and `evaluateStatus` (L160-220). -/
def taskReport (w : WorkDir) : Except Err Task :=
  match w.jobs.mapM fun q => jobReport (outputSuffix w.name) q.1 q.2 with
  | .error e => .error e
  | .ok js =>
    if js = [] then .error .zeroDivision
    else
      let s := sortJobs js
      .ok ⟨w.name, s, countJobs .failure s, countJobs .success s, countJobs .notExecuted s, countJobs .undefined s,
        (s.filter (·.coreDumped)).length, ((js.map fun j => (j.seconds : ℚ)).sum) / js.length,
        (js.map fun j => (j.size : ℚ) / 1000000).sum, hostsWith .success s, hostsWith .failure s, taskStatus s⟩

/-! ### The run -/

/-- `buildTaskReportMakers` (L277-285): `dirs` are the four work directories, `none` if one does not exist. -/
def taskReports (dirs : List (Option WorkDir)) : Except Err (List Task) :=
  (dirs.filterMap fun w => w.filter fun w => !w.link).mapM taskReport

/-- The status of a run (L257-265). -/
def runStatus (ts : List Status) : Status :=
  if ts.all (fun s => decide (s = .success)) then .success
  else if ts.any (fun s => decide (s = .failure)) then .failure
  else if ts.all (fun s => decide (s = .success ∨ s = .notExecuted)) then .notCompleted
  else .undefined

/-- `getReport` (L48-63): the text needs the log of errors unless the job succeeded or was not executed. -/
def reportable (j : Job) : Bool :=
  decide (j.status = .success) || decide (j.status = .notExecuted) || j.errText.isSome

/-- `do_jobs_report`: the status of the run and the tasks that are written to the report. The layout of the text is not
modelled. For `seyfert/main/report_maker.py` L48-63 (see `reportable`). -/
def runReport (dirs : List (Option WorkDir)) : Except Err (Status × List Task) :=
  match taskReports dirs with
  | .error e => .error e
  | .ok ts =>
    if ts.all (fun t => t.jobs.all reportable) then .ok (runStatus (ts.map (·.status)), ts)
    else .error .attributeError

end Seyfert.Report
