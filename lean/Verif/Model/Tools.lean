import Verif.Model.PyStr

/-!
Small programs around the runs: `bin/kill_job_submitter`, `bin/report_batch_jobs`, and the part of `bin/run_integ_test`
which changes the version that is installed.
-/

namespace Seyfert.Tools

/-- `\s` (ASCII). For L7 (see `mentions`). -/
def isSpace (c : Char) : Bool := c = ' ' || c = '\t' || c = '\n' || c = '\r' || c.toNat = 11 || c.toNat = 12

/-- `[a-zA-Z]`. For L7 (see `matchPid`). -/
def isLetter (c : Char) : Bool := isLower c || isUpper c

/-- `str.strip()` (ASCII). For L5-15 (see `kills`). -/
def strip (s : Str) : Str := ((s.dropWhile isSpace).reverse.dropWhile isSpace).reverse

/-! ### Stopping runs (`bin/kill_job_submitter`) -/

/-- The words of the expression (L7). -/
def runWords : List Str := ["job_submitter".toList, "orchestrate_run".toList]

/-- `.*(\s|/)(job_submitter|orchestrate_run)` at the start of a text without line breaks (L7). -/
def mentions : Str → Bool
  | [] => false
  | c :: s => ((isSpace c || c = '/') && runWords.any (fun w => w.isPrefixOf s)) || mentions s

/-- `job_submitter_regex.match(line)` and the group `pid` (L7, L10, L13). The three classes at the beginning have no character
in common, and digits are no separators, so the longest match of each is the only one. -/
def matchPid (line : Str) : Option Str :=
  let r1 := line.dropWhile isLetter
  let r2 := r1.dropWhile isSpace
  let pid := r2.takeWhile isDigit
  if line.takeWhile isLetter = [] then none
  else if r1.takeWhile isSpace = [] then none
  else if pid = [] then none
  else if mentions (r2.dropWhile isDigit) then some pid
  else none

/-- The numbers `kill -9` is called with, in order (L5-15). -/
def kills (out : Str) : List Str := ((splitChar '\n' out).tail.map strip).filterMap matchPid

/-- Whether the program says that it has found nothing (L17-18): `pid` is set by each match. -/
def saysNone (out : Str) : Bool := kills out = []

/-! ### The report on batch jobs (`bin/report_batch_jobs`) -/

/-- `re.search(r"^word$", text, re.MULTILINE)` for a word without line breaks; `start`: at the beginning of a line.
For `bin/report_batch_jobs` L38 (see `jobDone`). -/
def searchLine (word : Str) : Bool → Str → Bool
  | start, [] => start && word = []
  | start, c :: s =>
    (start && (match stripPrefix word (c :: s) with
      | some r => r = [] || r.head? = some '\n'
      | none => false)) || searchLine word (c = '\n') s

/-- The expression of L38. -/
def completed : Str := "Successfully completed.".toList

/-- Whether the log says that the job completed (`bin/report_batch_jobs` L38). -/
def jobDone (text : Str) : Bool := searchLine completed true text

/-- A text with one star as a pattern of `glob` for one name. For L17 (see `outFiles`). -/
def glob (pre suf : Str) (name : Str) : Bool :=
  pre.isPrefixOf name && suf.isSuffixOf name && pre.length + suf.length ≤ name.length

/-- A directory of a run: its name, and the files in `batch_logs/out`, if there is such a directory. For L17 (see `outFiles`). -/
structure RunDir where
  name : Str
  outs : List (Str × Str)

/-- The files matched by the default pattern `run_*/batch_logs/out/out*.out` (L17, L34). -/
def outFiles (dirs : List RunDir) : List (Str × Str) :=
  (dirs.filter (fun d => glob "run_".toList [] d.name)).flatMap
    (fun d => d.outs.filter (fun f => glob "out".toList ".out".toList f.1))

/-- The number of files found, the names of those reported as failed, and whether success is reported (L34-49). -/
def report (dirs : List RunDir) : Nat × List Str × Bool :=
  let fs := outFiles dirs
  (fs.length, (fs.filter (fun f => !jobDone f.2)).map (·.1), fs.all (fun f => jobDone f.2))

/-! ### Versions in the integration test (`bin/run_integ_test`) -/

/-- What is checked out. For L32-61 (see `integRun`). -/
inductive Head
  | branch (b : Str)
  | detached (r : Str)

/-- A repository: its branches and other names of versions, as tags. For L32-61 (see `integRun`). -/
structure Repo where
  branches : List Str
  tags : List Str
  head : Head

/-- A line of the output of `git branch`. For L32-61 (see `gitBranch`). -/
def branchLine (r : Repo) (b : Str) : Str :=
  match r.head with
  | .branch c => if b = c then "* ".toList ++ b else "  ".toList ++ b
  | .detached _ => "  ".toList ++ b

/-- The output of `git branch` (of git): a detached head comes first. For L32-61 (see `integRun`). -/
def gitBranch (r : Repo) : Str :=
  let ls := (r.branches.map (branchLine r)).flatMap (· ++ "\n".toList)
  match r.head with
  | .branch _ => ls
  | .detached v => "* (HEAD detached at ".toList ++ v ++ ")\n".toList ++ ls

/-- `git checkout` (of git): an unknown name changes nothing. For L32-61 (see `integRun`). -/
def checkout (r : Repo) (v : Str) : Repo :=
  if v ∈ r.branches then { r with head := .branch v }
  else if v ∈ r.tags then { r with head := .detached v }
  else r

/-- `re.search(r'\* ([a-z]+)', out).groups()[0]` (L40). -/
def currentBranch : Str → Option Str
  | [] => none
  | c :: s => match stripPrefix "* ".toList (c :: s) with
    | some t => if t.takeWhile isLower = [] then currentBranch s else some (t.takeWhile isLower)
    | none => currentBranch s

/-- `do_integration_run` (L32-61) for the repository: without a match there is an `AttributeError` before any change. The
version which the run is made with is that of the repository after the first checkout. -/
def integRun (r : Repo) (v : Str) : Option (Head × Repo) :=
  match currentBranch (gitBranch r) with
  | none => none
  | some b => some ((checkout r v).head, checkout (checkout r v) b)

/-- The two runs of `main` (L78-79): the versions used, and the repository afterwards; the flag says whether both were made. -/
def integTest (r : Repo) (v1 v2 : Str) : List Head × Repo × Bool :=
  match integRun r v1 with
  | none => ([], r, false)
  | some (h1, r1) => match integRun r1 v2 with
    | none => ([h1], r1, false)
    | some (h2, r2) => ([h1, h2], r2, true)

end Seyfert.Tools
