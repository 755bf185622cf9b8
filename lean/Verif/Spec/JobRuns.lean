import Verif.Model.JobRuns
import Verif.Spec.ClDerivative
import Verif.Props.Stem

/-!
Specification of the jobs of a run: what is in the run directory before, and what each job is to compute.
-/

namespace Seyfert.Job

open Orch (Pth)
open Param (Coll Par central)
open ClDer (Cosmo Cls Store)

variable {K S C : Type} [Field K] [LinearOrder K]

/-- The run directory records where the parameters are, and they are there. -/
def HasParams (d : Disk K S C) (run : Pth) (c : Coll K) : Prop :=
  ∃ l, d (run ++ ["input_files_dict.json".toList]) = some (.inputs l) ∧
    l.lookup "params".toList = some ["input_files_dir".toList, "params.json".toList] ∧
    d (run ++ ["input_files_dir".toList, "params.json".toList]) = some (.params c)

/-- The configuration of the task is in the directory of each job. -/
def HasConfig (d : Disk K S C) (p : Prog) (run : Pth) (cfgName : Str) (cfg : C) (jobs : List Str) : Prop :=
  ∀ n ∈ jobs, d (run ++ [p.dir, n, cfgName]) = some (.config cfg)

/-- The cosmology to be computed for a parameter and a step: for the cosmological parameters when it is displaced. -/
def powerOf (w : World K S C) (cfg : C) (c : Coll K) (v : Str × Int) : Option (Cosmo K S) :=
  match Param.update c v.1 v.2 with
  | (c', none) => w.boltz cfg (c'.pars.filter fun q => decide (q.2.kind = .cosmo))
  | (_, some _) => none

/-- A result, if there is one. -/
def got {A : Type} : Except ClDer.Err A → Option A
  | .ok a => some a
  | .error _ => none

/-- The cosmology in a file, if it holds one. -/
def cosmoIn : Option (File K S C) → Option (Cosmo K S)
  | some (.cosmo c) => some c
  | _ => none

/-- `store` is what the power spectra files of a run hold for some parameters and steps. -/
def Holds (d : Disk K S C) (run : Pth) (store : Store K S) (vs : List (Str × Int)) : Prop :=
  ∀ v ∈ vs, store.lookup v = cosmoIn (d (pmmFile run v))

/-- The files which a job is to leave. -/
def clFile (w : World K S C) (run : Pth) (v : Str × Int) : Pth :=
  run ++ ["Angular".toList, Names.jobDir v.1 v.2, clName w.probes]

def derFile (w : World K S C) (run : Pth) (dvar : Str) : Pth :=
  run ++ ["Derivative".toList, dvar, derName dvar w.probes]

/-- A schedule of some jobs in which each of them comes to its end: no program makes more than three steps. -/
def Complete (jobs sched : List Str) : Prop := (∀ n ∈ sched, n ∈ jobs) ∧ ∀ n ∈ jobs, 3 ≤ sched.count n

/-- One job after the other. -/
def inTurn (jobs : List Str) : List Str := jobs.flatMap fun n => List.replicate 3 n

/-- The names of the jobs of the tasks. -/
def jobNames (c : Coll K) [IsStrictOrderedRing K] : Prog → List Str
  | .pmm => ((Names.powerJobs c).getD []).map fun v => Names.jobDir v.1 v.2
  | .cls => ((Names.angularJobs c).getD []).map fun v => Names.jobDir v.1 v.2
  | .der => Names.derivativeJobs c

/-- All computations of power spectra and of spectra in a run succeed, with results `pw` and `sp`. -/
structure Computes [IsStrictOrderedRing K] (w : World K S C) (cfgs : Cfg C) (dens : File K S C) (c : Coll K)
    (pw : Str × Int → Cosmo K S) (sp : Str → Int → Cls K) : Prop where
  power : ∀ v ∈ (Names.powerJobs c).getD [], powerOf w (cfgs .pmm).2 c v = some (pw v)
  angular : ∀ v ∈ (Names.angularJobs c).getD [],
    ClDer.clJob (w.th (cfgs .cls).2 dens) (((Names.powerJobs c).getD []).map fun v => (v, pw v)) c
      (Names.jobDir v.1 v.2) = .ok (sp v.1 v.2)

instance (p : Par K) (key : Str × Str) : Decidable (ClDer.Relevant p key) := by
  unfold ClDer.Relevant; infer_instance

/-- The derivative of a spectrum: with the multipoles of the fiducial one, for every entry the slope of the fit through
the values of the parameter and the entries of the displaced spectra, or zero. -/
def slopes (base : List K) (p : Par K) (sp : Str → Int → Cls K) (dvar : Str) (m : Nat) (key : Str × Str) :
    List K × List K :=
  ((((sp central 0).lookup key).map (·.ells)).getD [],
   (List.range m).map fun e =>
     if ClDer.Relevant p key then Stem.colLoop (ClDer.points base p sp dvar key e) else 0)

end Seyfert.Job
