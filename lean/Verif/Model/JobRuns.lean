import Verif.Model.Cli
import Verif.Model.ClDerivative

/-!
Model of the jobs of a run: the shell scripts written for them (`seyfert/main/task_runners.py` L90-117, L178-270) and the
programs `bin/compute_pmm`, `bin/compute_cls` and `bin/compute_derivatives` which the scripts call.

A program is a sequence of steps on the files, so that several of them can run at the same time. Between two steps of one
job any number of steps of other jobs can happen; within a step nothing else happens. Files are whole: a file of results
is there entirely or not at all. The computations themselves are parameters. Left out are log files and the ini file
which CAMB gets in the directory of the job; the forecast configuration, which all jobs read, is part of the world.
-/

namespace Seyfert.Job

open Orch (Pth pname)
open OrchIn (toPath)
open RunS (Val pathText shell resolve)
open Param (Coll Par central)
open ClDer (Cosmo Cls Spec Theory Store)

variable {K S C : Type} [Field K] [LinearOrder K]

/-! ### Scripts -/

/-- The programs of the tasks which have jobs of their own. For `task_runners.py` L181, L216, L252 (see `Prog.name`). -/
inductive Prog where
  | pmm
  | cls
  | der
  deriving DecidableEq

/-- `main_script_name` (`task_runners.py` L181, L216, L252). -/
def Prog.name : Prog → Str
  | .pmm => "compute_pmm".toList
  | .cls => "compute_cls".toList
  | .der => "compute_derivatives".toList

/-- The directory of the task in the run directory (`seyfert/utils/workspace.py` L22-24, `task_runners.py` L184, L220,
L256). -/
def Prog.dir : Prog → Str
  | .pmm => "PowerSpectrum".toList
  | .cls => "Angular".toList
  | .der => "Derivative".toList

/-- The name of the log (`task_runners.py` L104). -/
def Prog.log (p : Prog) : Str := "logfile_".toList ++ p.name ++ ".log".toList

/-- The parameters of the program, in the order of `main_script_parameters` (L103-106). -/
def scriptParams (p : Prog) (jobdir : Pth) (cfg : Str) (run : Pth) : List (Str × Str) :=
  [("workdir".toList, pathText jobdir), ("logfile".toList, p.log), ("main_config".toList, cfg),
   ("rundir".toList, pathText run)]

/-- The command (L112-114). -/
def command (p : Prog) (jobdir : Pth) (cfg : Str) (run : Pth) : Str :=
  p.name ++ (scriptParams p jobdir cfg run).flatMap fun q => " --".toList ++ q.1 ++ " ".toList ++ q.2

/-- The lines of the script written by `writeJobShellScript` (L99-117). -/
def script (venv : Option Pth) (p : Prog) (jobdir : Pth) (cfg : Str) (run : Pth) : List Str :=
  ["#!/bin/bash".toList, [], "cd ".toList ++ pathText jobdir] ++
  (match venv with
    | none => []
    | some v => ["source ".toList ++ pathText (v ++ ["bin".toList, "activate".toList])]) ++
  [command p jobdir cfg run]

/-- A call of a program: the directory it is called in and the words after its name.
For `bin/compute_pmm` L27-29 (see `argsOf`). -/
structure Call where
  prog : Prog
  cwd : Pth
  argv : List Str
  deriving DecidableEq

/-- The program called by a word of the script (`task_runners.py` L178-270). -/
def progOf (s : Str) : Option Prog :=
  if s = Prog.pmm.name then some .pmm
  else if s = Prog.cls.name then some .cls
  else if s = Prog.der.name then some .der
  else none

/-- What the shell makes of the lines of a script: the call of the program in it. A `cd` with several words fails and the
shell goes on; unknown commands are passed over; lines with special characters are taken for failing commands.
For `task_runners.py` L178-270 (see `progOf`). -/
def bash (cwd : Pth) : List Str → Option Call
  | [] => none
  | l :: ls =>
    if l.head? = some '#' then bash cwd ls
    else match shell l with
      | none => bash cwd ls
      | some [] => bash cwd ls
      | some (w :: ws) =>
        if w = "cd".toList then
          match ws with
          | [p] => bash (resolve cwd (toPath p)) ls
          | _ => bash cwd ls
        else match progOf w with
          | some p => some ⟨p, cwd, ws⟩
          | none => bash cwd ls

/-! ### Command lines of the programs -/

/-- An option without default (`cmd_line.py` L130-137). -/
def opt (names : List Str) (dest : Str) (kind : Cli.Kind) (required : Bool) : Cli.Opt :=
  ⟨names, dest, kind, .none, required⟩

/-- `main_program_options` (`seyfert/config/cmd_line.py` L130-137). -/
def mainOpts : List Cli.Opt :=
  [opt ["--rundir".toList, "-rd".toList] "rundir".toList .text false,
   opt ["--workdir".toList, "-wd".toList] "workdir".toList .text false,
   opt ["--logfile".toList, "-lg".toList] "logfile".toList .text false,
   opt ["--forecast_config".toList, "-fcfg".toList] "forecast_config".toList .text false,
   opt ["--input_data_dir".toList, "-i".toList] "input_data_dir".toList .text false,
   opt ["--main_config".toList, "-mcfg".toList] "main_config".toList .text true]

/-- The options of the programs (`bin/compute_pmm` L18-23, `bin/compute_cls` L21-34, `bin/compute_derivatives`
L17-26). -/
def Prog.opts : Prog → List Cli.Opt
  | .pmm => mainOpts
  | .cls => mainOpts ++
    [opt ["--power_spectrum_dir".toList, "-pmm_dir".toList] "power_spectrum_dir".toList .text false,
     opt ["--niz_file".toList, "-nf".toList] "niz_file".toList .text false,
     opt ["--dvar".toList, "-dvar".toList] "dvar".toList .text false,
     opt ["--step".toList, "-step".toList] "step".toList .int false]
  | .der => mainOpts ++
    [opt ["--angular_dir".toList, "-cl_dir".toList] "angular_dir".toList .text false,
     opt ["--dvar".toList, "-dvar".toList] "dvar".toList .text false]

/-- What the programs take from their arguments: the working directory and its name, the run directory and the
configuration file `workdir / main_config`. For `bin/compute_pmm` L27-29 (see `argsOf`). -/
structure Args where
  work : Pth
  name : Str
  run : Pth
  cfg : Pth
  deriving DecidableEq

/-- The arguments (`bin/compute_pmm` L27-29; `cmd_line.py` L85-89 and `bin/compute_cls` L39-42; `bin/compute_derivatives`
L30-31, L46-49). Without a working or run directory the programs raise. -/
def argsOf (c : Call) : Option Args :=
  match Cli.parse c.prog.opts c.argv with
  | none => none
  | some d =>
    match d.lookup "workdir".toList, d.lookup "rundir".toList, d.lookup "main_config".toList with
    | some (.text w), some (.text r), some (.text m) =>
      some ⟨resolve c.cwd (toPath w), pname (toPath w), resolve c.cwd (toPath r),
        resolve (resolve c.cwd (toPath w)) (toPath m)⟩
    | _, _, _ => none

/-! ### Files -/

/-- Contents of a file: the record of the input files of a run, parameters (as reading the file gives them), a
configuration, and results. For `task_runners.py` L90-117 (see `Disk`). -/
inductive File (K S C : Type) where
  | inputs (d : List (Str × Pth))
  | params (c : Coll K)
  | config (c : C)
  | cosmo (c : Cosmo K S)
  | cls (c : Cls K)
  | ders (l : List ((Str × Str) × (List K × List K)))
  | other (s : Str)

/-- The files of the run by path (`task_runners.py` L90-117). -/
abbrev Disk (K S C : Type) := Pth → Option (File K S C)

/-- A file is written whole (`bin/compute_pmm`, `bin/compute_cls`, `bin/compute_derivatives`).
For `bin/compute_cls` L47-52 (see `clsStart`). -/
def write (d : Disk K S C) (p : Pth) (f : File K S C) : Disk K S C := fun q => if q = p then some f else d q

/-- `PhysicalParametersCollection.fromJSON(get_params_file_from_rundir(rundir))` (`filesystem_utils.py` L83-85). -/
def paramsOf (d : Disk K S C) (run : Pth) : Option (Coll K) :=
  match d (run ++ ["input_files_dict.json".toList]) with
  | some (.inputs l) =>
    match l.lookup "params".toList with
    | some p => match d (resolve run p) with
      | some (.params c) => some c
      | _ => none
    | none => none
  | _ => none

/-- `getPowerSpectrumFile` (`workspace.py` L163-164). -/
def pmmFile (run : Pth) (v : Str × Int) : Pth := run ++ [Prog.pmm.dir, Names.jobDir v.1 v.2, "p_mm.h5".toList]

/-- The name of a file of spectra (`bin/compute_cls` L62). -/
def clName (probes : List Str) : Str := "cl_".toList ++ joinStr "_".toList probes ++ ".h5".toList

/-- The name of a file of derivatives (`bin/compute_derivatives` L54). -/
def derName (dvar : Str) (probes : List Str) : Str :=
  "cl_derivatives_".toList ++ dvar ++ "_".toList ++ joinStr "_".toList probes ++ ".h5".toList

/-! ### Programs -/

/-- What is the same for all jobs of a run. For `bin/compute_pmm` L33-44 (see `pmmStart`). -/
structure World (K S C : Type) where
  /-- The Boltzmann code: configuration and cosmological parameters. The reference ini file is part of the former. -/
  boltz : C → List (Str × Par K) → Option (Cosmo K S)
  /-- The computation of the spectra: configuration and file of densities, and then as in `ClDer.Theory`. -/
  th : C → File K S C → Theory K S
  /-- The analytic derivative. -/
  ana : Cosmo K S → Par K → Str × Str → Spec K → Except ClDer.Err (List K)
  /-- Probes and combinations of probes of the forecast. -/
  probes : List Str
  combos : List (Str × Str)
  /-- The directories in `Angular`, in the order in which they are listed. -/
  dirs : List Str

/-- Where a program is. For `bin/compute_pmm` L33-44 (see `pmmStart`). -/
inductive Phase (K S C : Type) where
  | start
  /-- `bin/compute_cls`, after the parameters are written. -/
  | spectra (c : Coll K) (dvar : Str) (step : Int) (cfg : C)
  /-- Everything is computed and one file is to be written, as a new file or in place of another one. -/
  | save (new : Bool) (p : Pth) (f : File K S C)
  | done
  | failed

/-- The power spectra files of some parameters and steps. For `bin/compute_cls` L54-60 (see `clsGo`). -/
def storeOf (d : Disk K S C) (run : Pth) (vs : List (Str × Int)) : Store K S :=
  vs.filterMap fun v => match d (pmmFile run v) with
    | some (.cosmo c) => some (v, c)
    | _ => none

/-- `bin/compute_pmm` L33-44: everything but saving. -/
def pmmStart (w : World K S C) (a : Args) (d : Disk K S C) : Phase K S C :=
  match paramsOf d a.run, d a.cfg, Names.parseJobDir a.name with
  | some c, some (.config cfg), some (dvar, step) =>
    match Param.update c dvar step with
    | (_, some _) => .failed
    | (c', none) =>
      match w.boltz cfg (c'.pars.filter fun q => decide (q.2.kind = .cosmo)) with
      | some cosmo => .save true (a.work ++ ["p_mm.h5".toList]) (.cosmo cosmo)
      | none => .failed
  | _, _, _ => .failed

/-- `bin/compute_cls` L47-52: the displaced parameters, which are written to the directory of the job. -/
def clsStart (a : Args) (d : Disk K S C) : Phase K S C × Disk K S C :=
  match d a.cfg, paramsOf d a.run, Names.parseJobDir a.name with
  | some (.config cfg), some c, some (dvar, step) =>
    match Param.update c dvar step with
    | (_, some _) => (.failed, d)
    | (c', none) => (.spectra c' dvar step cfg, write d (a.work ++ ["params.json".toList]) (.params c'))
  | _, _, _ => (.failed, d)

/-- `bin/compute_cls` L54-60: cosmologies, densities and spectra. -/
def clsGo (w : World K S C) (a : Args) (c : Coll K) (dvar : Str) (step : Int) (cfg : C) (d : Disk K S C) :
    Phase K S C :=
  let store := storeOf d a.run [(dvar, step), (central, 0)]
  match ClDer.loadCosmology store c.pars dvar step, ClDer.loadCosmology store c.pars central 0,
      d (a.run ++ ["norm_densities.hdf5".toList]) with
  | .ok cosmo, .ok fid, some dens =>
    match w.th cfg dens cosmo fid c.pars with
    | .ok cls => .save true (a.work ++ [clName w.probes]) (.cls cls)
    | .error _ => .failed
  | _, _, _ => .failed

/-- The directories in `Angular` which have a file of spectra, with the spectra in it (`differentiator.py` L148,
`workspace.py` L166-169). The name of the file is that of `bin/compute_cls`; other files that match `cl*.h5` are left
out. -/
def clsOf (w : World K S C) (d : Disk K S C) (run : Pth) : List (Str × Cls K) :=
  w.dirs.filterMap fun n => match d (run ++ [Prog.cls.dir, n, clName w.probes]) with
    | some (.cls c) => some (n, c)
    | _ => none

/-- `bin/compute_derivatives` L46-57: everything but writing the file, which replaces one of the same name
(`cl_derivative.py` L106). The configuration of the task is not read. -/
def derStart (w : World K S C) (a : Args) (d : Disk K S C) : Phase K S C :=
  match paramsOf d a.run with
  | some c =>
    match ClDer.fileDerivative w.ana (storeOf d a.run [(central, 0)]) (clsOf w d a.run) c w.combos a.name with
    | .ok l => .save false (a.work ++ [derName a.name w.probes]) (.ders l)
    | .error _ => .failed
  | none => .failed

/-- One step of a program. Saving to a file that is there already raises, as the datasets are there
(`file_io/hdf5_io.py` L120-124). -/
def next (w : World K S C) (p : Prog) (a : Args) : Phase K S C → Disk K S C → Phase K S C × Disk K S C
  | .start, d => match p with
    | .pmm => (pmmStart w a d, d)
    | .cls => clsStart a d
    | .der => (derStart w a d, d)
  | .spectra c dvar step cfg, d => (clsGo w a c dvar step cfg d, d)
  | .save true q f, d => if (d q).isSome then (.failed, d) else (.done, write d q f)
  | .save false q f, d => (.done, write d q f)
  | .done, d => (.done, d)
  | .failed, d => (.failed, d)

/-! ### Tasks -/

/-- The directory of a job (`task_runners.py` L198, L239, L268). -/
def jobPath (p : Prog) (run : Pth) (name : Str) : Pth := run ++ [p.dir, name]

/-- `fillJobDir` (L90-97) for the jobs of a task: the configuration of the task goes to every directory. -/
def fill (p : Prog) (run : Pth) (cfgName : Str) (cfg : C) (d : Disk K S C) : List Str → Disk K S C
  | [] => d
  | n :: ns => fill p run cfgName cfg (write d (jobPath p run n ++ [cfgName]) (.config cfg)) ns

/-- What the script of a job does: the call of its program with its arguments; `none` if there is none, or if the program
refuses them. For L131-145 (see `runTask`). -/
def jobOf (venv : Option Pth) (home : Pth) (p : Prog) (run : Pth) (cfgName : Str) (name : Str) : Option (Prog × Args) :=
  match bash home (script venv p (jobPath p run name) cfgName run) with
  | none => none
  | some c => (argsOf c).map fun a => (c.prog, a)

/-- Jobs that run at the same time: where each of them is, and the files. For `task_runners.py` L90-117 (see `Disk`). -/
structure State (K S C : Type) where
  at_ : Str → Phase K S C
  disk : Disk K S C

/-- One step of the job `n`. Without a program to run it has failed. For `file_io/hdf5_io.py` L120-124 (see `next`). -/
def turn (w : World K S C) (job : Str → Option (Prog × Args)) (st : State K S C) (n : Str) : State K S C :=
  match job n with
  | none => ⟨fun m => if m = n then .failed else st.at_ m, st.disk⟩
  | some (p, a) =>
    let r := next w p a (st.at_ n) st.disk
    ⟨fun m => if m = n then r.1 else st.at_ m, r.2⟩

/-- A schedule: the jobs in the order in which they make their steps. For L131-145 (see `runTask`). -/
def exec (w : World K S C) (job : Str → Option (Prog × Args)) (st : State K S C) (sched : List Str) : State K S C :=
  sched.foldl (turn w job) st

/-- The jobs of a task (`run`, L131-145) make steps in the order `sched`. The interactive mode is the schedule in which one
job ends before the next is begun. -/
def runTask (w : World K S C) (venv : Option Pth) (home : Pth) (p : Prog) (run : Pth) (cfgName : Str) (sched : List Str)
    (d : Disk K S C) : Disk K S C :=
  (exec w (jobOf venv home p run cfgName) ⟨fun _ => .start, d⟩ sched).disk

/-- The name and the content of the configuration of a task. For L509-520 (see `prepare`). -/
abbrev Cfg (C : Type) := Prog → Str × C

/-- The directories of all jobs of all tasks are made first (`buildTaskRunners`, L509-520). -/
def prepare (run : Pth) (cfgs : Cfg C) (jobs : Prog → List Str) (d : Disk K S C) : Disk K S C :=
  fill .der run (cfgs .der).1 (cfgs .der).2 (fill .cls run (cfgs .cls).1 (cfgs .cls).2
    (fill .pmm run (cfgs .pmm).1 (cfgs .pmm).2 d (jobs .pmm)) (jobs .cls)) (jobs .der)

/-- Then one task is run after the other (`ForecastRunner.run`, L562-573, up to the Fisher matrices). The file of the
densities is there already; that of the shot noise and the like, which no job reads, is left out. -/
def forecast (w : World K S C) (venv : Option Pth) (home : Pth) (run : Pth) (cfgs : Cfg C) (jobs : Prog → List Str)
    (sched : Prog → List Str) (d : Disk K S C) : Disk K S C :=
  runTask w venv home .der run (cfgs .der).1 (sched .der)
    (runTask w venv home .cls run (cfgs .cls).1 (sched .cls)
      (runTask w venv home .pmm run (cfgs .pmm).1 (sched .pmm) (prepare run cfgs jobs d)))

end Seyfert.Job
