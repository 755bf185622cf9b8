import Verif.Model.Names
import Verif.Model.Parameter
import Verif.Model.PyDict
import Verif.Model.Workspace

/-!
Running a forecast: order of the tasks, execution of their jobs, what is removed afterwards, options
(`main/task_runners.py`, `main/seyfert_core.py`, `main/cl_core.py`, `bin/job_submitter`).
-/

namespace Seyfert.Runner

/-! ### Order of the computations -/

/-- The tasks of a forecast, in the order of `buildTasks` (task_runners.py L459-463). -/
inductive Task where
  | powerSpectrum | angular | derivative | fisher
deriving DecidableEq

/-- Which tasks are requested (`Task.is_present`, task_runners.py L491-498). -/
structure Req where
  powerSpectrum : Bool
  angular : Bool
  derivative : Bool
  fisher : Bool
deriving DecidableEq

/-- `is_present` of a task (`task_runners.py` L491-498). -/
def Req.has (r : Req) : Task → Bool
  | .powerSpectrum => r.powerSpectrum
  | .angular => r.angular
  | .derivative => r.derivative
  | .fisher => r.fisher

/-- The values of `--execution` (bin/job_submitter L66-67). -/
inductive Mode where
  | no | interactive | batch
deriving DecidableEq

/-- The computations of a forecast.  `densities true` takes the redshift grid from the configuration of
the power spectrum, `densities false` from the stored central power spectrum. For `task_runners.py` L459-463 (see `Task`). -/
inductive Comp where
  | densities (fromConfig : Bool)
  | task (t : Task)
  | deltaCls
  | results
deriving DecidableEq

/-- The computations started so far, and whether none of them has raised.
For `task_runners.py` L537-552 (see `computeDensities`). -/
abbrev State := List Comp × Bool

/-- Which computations raise, depending on what was done before. For `task_runners.py` L537-552 (see `computeDensities`). -/
abbrev Env := List Comp → Comp → Bool

/-- Starts a computation unless an exception is on its way up. For `task_runners.py` L537-552 (see `computeDensities`). -/
def act (env : Env) (c : Comp) (s : State) : State :=
  if s.2 then (s.1 ++ [c], !env s.1 c) else s

/-- `computeDensities`, task_runners.py L537-552. -/
def computeDensities (r : Req) (m : Mode) (env : Env) (s : State) : State :=
  if r.powerSpectrum ∧ r.angular then
    if m ≠ .no then act env (.densities true) s else s
  else act env (.densities false) s

/-- `computeDeltaCls`, task_runners.py L554-560. -/
def computeDeltaCls (m : Mode) (env : Env) (s : State) : State :=
  if m ≠ .no then act env .deltaCls s else s

/-- `TaskRunner.run`, task_runners.py L131-145. -/
def runTask (m : Mode) (env : Env) (t : Task) (s : State) : State :=
  if m ≠ .no then act env (.task t) s else s

/-- One round of the loop in `ForecastRunner.run`, task_runners.py L567-572. -/
def runOne (r : Req) (m : Mode) (env : Env) (s : State) (t : Task) : State :=
  if r.has t then
    if t = .angular then computeDeltaCls m env (runTask m env t s) else runTask m env t s
  else s

/-- `ForecastRunner.run`, task_runners.py L562-577, without the time stamps and with every task as one
computation.  `evaluateFinalResults` (L579-595) ends with a command whose exit code is ignored. -/
def run (r : Req) (m : Mode) (env : Env) : State :=
  let s := if r.angular then computeDensities r m env ([], true) else ([], true)
  let s := [Task.powerSpectrum, .angular, .derivative, .fisher].foldl (runOne r m env) s
  if m ≠ .no ∧ r.fisher then act env .results s else s

/-- Whether the report on the batch jobs is written, bin/job_submitter L99-105. -/
def writesReport (r : Req) (m : Mode) : Bool :=
  decide (m = .batch) && r.fisher &&
    !([Task.powerSpectrum, .angular, .derivative, .fisher].any r.has)

/-! ### Jobs run one after the other -/

/-- How a command ended: exit code and whether it wrote to the error stream. For `task_runners.py` L155-172 (see `execJobs`). -/
structure Ended where
  code : Int
  stderr : Bool
deriving DecidableEq

/-- `executeJobsInteractively` with `executeCommand`, task_runners.py L155-172: `check=False`, and
`JobFailError` when there was output on the error stream.  Returns the scripts executed and whether the
exception was raised. -/
def execJobs {J : Type} (ends : J → Ended) : List J → List J × Bool
  | [] => ([], false)
  | j :: rest =>
    if (ends j).stderr then ([j], true)
    else let r := execJobs ends rest; (j :: r.1, r.2)

/-! ### Removing the spectra of the variations -/

/-- `collectClVariationDirectories`, workspace.py L184-191, on the names in the directory in the order in
which they are listed; `none` is the exception for a name that cannot be read. -/
def variationDirs : List Str → Option (List ((Str × Int) × Str))
  | names => go [] names
where
  go (d : List ((Str × Int) × Str)) : List Str → Option (List ((Str × Int) × Str))
    | [] => some d
    | x :: rest =>
      if (stripPrefix "dvar_".toList x).isSome then
        match Names.parseJobDir x with
        | none => none
        | some (v, s) => go (if v ≠ "central".toList then PyDict.set d (v, s) x else d) rest
      else go d rest

/-- The end of the main program, bin/job_submitter L107-110, in every execution mode, also when
nothing was executed: what is left in the directory of the angular spectra, `none` when an exception
is raised before anything is removed. -/
def cleanUp (angular keep : Bool) (names : List Str) : Option (List Str) :=
  if angular ∧ ¬ keep then
    (variationDirs names).map fun d => names.filter fun x => !(d.map (·.2)).contains x
  else some names

/-! ### Run directory and record of a run -/

/-- `createRundir`, task_runners.py L474-487, on the directories of the working directory and their
contents; `none` is the `FileExistsError` of `mkdir`. -/
def createRundir {V : Type} (test : Bool) (ident version : Str) (now : Names.DateTime) (empty : V)
    (fs : Str → Option V) : Option ((Str → Option V) × Str) :=
  let put (f : Str → Option V) (n : Str) : Str → Option V := fun x => if x = n then some empty else f x
  if test then some (put fs (ident ++ '_' :: version), ident ++ '_' :: version)
  else
    let n := Names.runDirName ident version now
    if (fs n).isSome then none else some (put fs n, n)

/-- The duration in the record of a run, task_runners.py L605-612: `timedelta.seconds` is what remains
of the whole seconds after the days.  Times in microseconds. -/
def duration (round3 : ℚ → ℚ) (start stop : Int) : Int × Int × Int × ℚ :=
  Names.timeFormat round3 (((stop - start) % 86400000000 / 1000000 : Int) : ℚ)

/-- The directory a forecast of a list runs in, seyfert_core.py L194-205
(`execute_interactively`). -/
def forecastDir (workdir : Work.Path) (batchJob : Bool) (version : Str) (stem : Str)
    (now : Names.DateTime) : Work.Path :=
  if batchJob then workdir
  else workdir ++ [Names.runDirName ("run_".toList ++ stem) version now]

/-- Memory of the job of a forecast, seyfert_core.py L238-250. -/
def jobMemory (memory : Int) (spBins : Nat) : Int :=
  if 24 < spBins ∧ memory < 10000 then 10000 else memory

/-- Memory of the jobs of the Fisher task, task_runners.py L282, L314-320: the memory asked for is not
used. -/
def fisherMemory (_memory : Int) (spBins : Nat) : Int := if 24 < spBins then 10000 else 4000

/-! ### Configuration used by the jobs -/

/-- Where the configuration of a task is given and the run directory asked for (bin/job_submitter
L91-97).  In a new run (`rundir` not given) the configurations are copied, task_runners.py L465-472 and
L500-507; in an existing one nothing is.  In both cases the jobs of a task get the file of the command
line (`json_input=task.input_file`, L515-517). -/
def prepareRun {V : Type} (given : Bool) (run : Work.Path) (srcs : List (Str × Work.Path)) (params : V)
    (dataDir : Work.Path) (d : Work.Disk V) : Work.Disk V × Option Work.Err :=
  if given then (d, none) else Work.createInputs run srcs params dataDir d

/-- The configuration written into the job directories of a task (`task_runners.py` L97). -/
def jobConfig {V : Type} (srcs : List (Str × Work.Path)) (d : Work.Disk V) (task : Str) : Option V :=
  (srcs.lookup task).bind d.file

/-! ### Options -/

/-- Values of options. For `general_utils.py` L47-58 (see `convert`). -/
inductive Val where
  | none
  | bool (b : Bool)
  | int (n : Int)
  | str (s : Str)
deriving DecidableEq

/-- Truth value of an option. For `task_runners.py` L491-498 (see `requested`). -/
def Val.truthy : Val → Bool
  | .none => false
  | .bool b => b
  | .int n => decide (n ≠ 0)
  | .str s => decide (s ≠ [])

/-- `convert_keyval_params_type`, general_utils.py L47-58, on one value (strings ending in a newline are
not modelled). -/
def convert : Val → Val
  | .str s =>
    if s = "True".toList ∨ s = "true".toList then .bool true
    else if s = "False".toList ∨ s = "false".toList then .bool false
    else match parseNat s with
      | some n => .int n
      | none => .str s
  | v => v

/-- Exceptions for bad options. For `bin/job_submitter` L121-135 (see `options`). -/
inductive OptErr where
  | keyError | valueError | typeError
deriving DecidableEq

/-- The options of `job_submitter`: command line, and the section `config` of an ini file if one is
given (bin/job_submitter L121-135). -/
def options (cmd : List (Str × Val)) (ini : Option (List (Str × Str))) :
    Except OptErr (List (Str × Val)) :=
  let args := cmd.map fun p => (p.1, convert p.2)
  match ini with
  | none => .ok args
  | some kv =>
    if kv.all (fun p => (args.lookup p.1).isSome) then
      .ok (PyDict.update args (kv.map fun p => (p.1, Val.str p.2)))
    else .error .keyError

/-- `check_options`, bin/job_submitter L64-69; comparing a string with a number raises `TypeError`,
`True` counts as the integer one. -/
def checkOptions (args : List (Str × Val)) : Option OptErr :=
  if (args.lookup "execution".toList) ∈
      [some (Val.str "no".toList), some (.str "interactive".toList), some (.str "batch".toList)] then
    match args.lookup "n_cores_per_job".toList with
    | some (.int n) => if n ≤ 0 then some .valueError else none
    | some (.bool b) => if b then none else some .valueError
    | some _ => some .typeError
    | none => some .keyError
  else if (args.lookup "execution".toList).isSome then some .valueError else some .keyError

/-- `createSingleTask`, task_runners.py L491-498: whether a task is requested. -/
def requested (args : List (Str × Val)) (flag : Str) : Bool :=
  ((args.lookup flag).map Val.truthy).getD false

/-! ### Spectra of the displaced cosmologies in one process -/

variable {K : Type} [Field K] [LinearOrder K]

/-- The loop of `compute_cls_variations`, cl_core.py L82-105: the step numbers are written in the code.
A spectrum is represented by the parameters it is computed with; `fails` tells for which steps the
computation raises. -/
def variations (fails : Int → Bool) (dvar : Str) :
    Param.Coll K → List Int → Param.Coll K × Except (Option Param.Err) (List (Int × List (Str × Param.Par K)))
  | c, [] => (c, .ok [])
  | c, s :: rest =>
    match Param.update c dvar s with
    | (c', some e) => (c', .error (some e))
    | (c', none) =>
      if fails s then (c', .error none)
      else
        match variations fails dvar (Param.reset c') rest with
        | (c'', .ok l) => (c'', .ok ((s, c'.pars) :: l))
        | (c'', .error e) => (c'', .error e)

/-- `np.r_[-7:0, 1:8]`, cl_core.py L86. -/
def sevenSteps : List Int := Param.stepNumbers 7

end Seyfert.Runner
