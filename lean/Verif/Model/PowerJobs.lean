import Verif.Model.PowerEval

/-!
Model of computations of power spectra with CAMB which run at the same time on the same files, as the jobs of a run do
(`bin/compute_pmm` L26-47, `seyfert/cosmology/boltzmann_solver.py` L58-188): every access to a file is a step, and the ini
file is written line by line.

Simplified: what is in a file which is being written is what its last writer has written of it so far (the buffers of the
interpreter and the offsets of several writers are not modelled).
-/

namespace Seyfert.PowerJobs
open PowerEval
open Boltzmann (readIni writeIni)

/-- A job: its parameters, the settings and the name of the reference file, its directory and its redshifts
(`boltzmann_solver.py` L37-65, `bin/compute_pmm` L33-43). -/
structure Job (K : Type) where
  pars : Dict Str K
  s : CambSet K
  name : Str
  dir : List Str
  z : List K

variable {K : Type} [Field K] [LinearOrder K]

/-- The reference file (`boltzmann_solver.py` L64). -/
def Job.ref (lib : Lib K) (j : Job K) : Loc := ⟨lib.config, j.name⟩

/-- The ini file (`boltzmann_solver.py` L65). -/
def Job.ini (j : Job K) : Loc := ⟨j.dir, j.name⟩

/-- The solver it makes (`power_spectrum.py` L75-80). -/
def Job.solver (lib : Lib K) (j : Job K) : Solver K := { kind := .camb j.s (j.ref lib) j.ini, pars := 0, z := j.z }

/-- Where a job is: at its start; writing the ini file, with the lines written, those still to be written, and, in the loop, σ₈
asked for, σ₈ computed and the amplitude; before the reading back of the ini file (`boltzmann_solver.py` L128); at the head of the loop
(L130); before the final run (L73); at its end. -/
inductive Phase (K : Type) where
  | start
  | writing (done rest : Dict Str Str) (loop : Option (K × K × K))
  | tuning
  | check (s8 ev amp : K) (d : Dict Str Str)
  | running
  | done (v : Solver K)
  | failed (e : Err)

/-- The next step of a job (`boltzmann_solver.py` L67-76): `start` is L78-82 up to the opening of the file, which empties it,
`writing` L187-188 and L140-141, `tuning` L126-129, `check` L130-139, `running` L84-123. -/
def next (lib : Lib K) (j : Job K) (f : Files) : Phase K → Files × Phase K
  | .start => match basis lib j.pars with
    | .error e => (f, .failed e)
    | .ok b => match f (j.ref lib) with
      | none => (f, .failed .fileNotFound)
      | some t => (put f j.ini [], .writing [] (PyDict.update (readIni t) b) none)
  | .writing a (p :: r) l => (put f j.ini (writeIni (a ++ [p])), .writing (a ++ [p]) r l)
  | .writing _ [] none => (f, .tuning)
  | .writing a [] (some (s8, ev, amp)) => (f, .check s8 ev amp a)
  | .tuning => match par j.pars "sigma8".toList with
    | .error e => (f, .failed e)
    | .ok s8 => match f j.ini with
      | none => (f, .failed .fileNotFound)
      | some t => match (readIni t).lookup ampKey with
        | none => (f, .failed .keyError)
        | some a => match lib.num a with
          | none => (f, .failed .valueError)
          | some amp => (f, .check s8 10 amp (readIni t))
  | .check s8 ev amp d =>
    if s8 = 0 then (f, .failed .zeroDivision)
    else if tol < |(s8 - ev) / s8| then
      match f j.ini with
      | none => (f, .failed .fileNotFound)
      | some t => match lib.camb t with
        | none => (f, .failed .code)
        | some c =>
          if c.sigma8 = 0 then (f, .failed .zeroDivision)
          else
            let amp' := amp * (s8 / c.sigma8) ^ 2
            (put f j.ini [], .writing [] (PyDict.set d ampKey (lib.str amp')) (some (s8, c.sigma8, amp')))
    else (f, .running)
  | .running => match f j.ini with
    | none => (f, .failed .fileNotFound)
    | some t => match cambRun lib j.s t (j.solver lib) with
      | .error e => (f, .failed e)
      | .ok v => (f, .done v)
  | .done v => (f, .done v)
  | .failed e => (f, .failed e)

/-- A number of steps of one job (`boltzmann_solver.py` L67-76). -/
def alone (lib : Lib K) (j : Job K) : Nat → Files × Phase K → Files × Phase K
  | 0, x => x
  | n + 1, x => alone lib j n (next lib j x.1 x.2)

/-- Several jobs: the files and where each job is. For `bin/compute_pmm` L26-47 (see `Sys.step`). -/
structure Sys (K : Type) where
  files : Files
  at_ : Nat → Phase K

/-- The job `i` makes a step (`bin/compute_pmm` L26-47, one process per job). -/
def Sys.step (lib : Lib K) (jobs : Nat → Job K) (x : Sys K) (i : Nat) : Sys K :=
  let r := next lib (jobs i) x.files (x.at_ i)
  ⟨r.1, fun k => if k = i then r.2 else x.at_ k⟩

/-- Any schedule: the list of the jobs in the order in which they make steps. For `bin/compute_pmm` L26-47 (see `Sys.step`). -/
def Sys.run (lib : Lib K) (jobs : Nat → Job K) (x : Sys K) (sched : List Nat) : Sys K := sched.foldl (Sys.step lib jobs) x

end Seyfert.PowerJobs
