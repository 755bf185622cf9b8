import Verif.Model.DataVector
import Verif.Model.Boltzmann
import Verif.Model.Resume
import Mathlib.Logic.Relation

/-!
Model of the Fisher task: the jobs it starts, one after the other or in a batch system, and what they do to the
directory of Fisher matrices, step by step, so that jobs can be interleaved and killed at any point
(`seyfert/main/task_runners.py` L273-365, `bin/compute_fisher_matrix` L34-56, `seyfert/main/fisher_core.py` L37-98).

The values computed are parameters: every job reads the same covariances and derivatives. A file being written is
unreadable until it is complete, as in `Verif.Model.Resume`; opening the file of tables for writing while another process
writes it raises. Waiting for batch jobs is taken to be right here (`Verif.Model.Batch` is about that).
-/

namespace Seyfert.FTask

open Resume (File)

/-- What the jobs read and write: `auto_fisher_of_ells.h5`, a table per probe, and the files
`base_fishers/fisher_<name>.hdf5`, by name. For `fisher_core.py` L44-49 (see `start`). -/
structure Disk (V : Type) where
  autos : Option (File (Dict Str V))
  fishers : Dict Str (File V)

/-- The data vectors of the task, by their brief strings, and what is computed for them. `single` is the probe of a
data vector that is a single auto-correlation, `probes` are the involved auto-correlation probes.
For `fisher_core.py` L44-49 (see `start`). -/
structure Comp (V : Type) where
  autos : List Str
  cross : List Str
  single : Str → Option Str
  probes : Str → List Str
  table : Str → V
  autoFisher : Str → V
  fisher : Str → (Str → Option V) → V

variable {V : Type}

/-! ### One job -/

/-- Where a job is with the first data vector of its queue: not begun, the file of tables open with what will be in it,
computed, or its own file open. For `fisher_core.py` L44-49 (see `Job`). -/
inductive Stage (V : Type) where
  | idle
  | opened (t : Dict Str V)
  | computed (v : V)
  | saving (v : V)

/-- A process running `compute_fisher_matrix`: the data vectors still to do. A failed one is over: it raised or was
killed. For `fisher_core.py` L44-49 (see `start`). -/
structure Job (V : Type) where
  queue : List Str
  stage : Stage V
  failed : Bool

/-- The start of a data vector without a file: an auto-correlation opens the file of tables for adding its own
(`fisher_core.py` L44-49), any other data vector reads it and uses the tables of its probes (L51-62;
`fisher_evaluator.py` L277-290). -/
def start (C : Comp V) (d : Disk V) (name : Str) (rest : List Str) : Disk V × Job V :=
  match C.single name, d.autos with
  | some _, some .unreadable => (d, ⟨name :: rest, .idle, true⟩)
  | some k, none => ({ d with autos := some .unreadable }, ⟨name :: rest, .opened [(k, C.table k)], false⟩)
  | some k, some (.full t) =>
    ({ d with autos := some .unreadable }, ⟨name :: rest, .opened (PyDict.set t k (C.table k)), false⟩)
  | none, some (.full t) =>
    if t.length < 3 then (d, ⟨name :: rest, .idle, true⟩)
    else if (C.probes name).all (fun p => (t.lookup p).isSome) then
      (d, ⟨name :: rest, .computed (C.fisher name fun p => t.lookup p), false⟩)
    else (d, ⟨name :: rest, .idle, true⟩)
  | none, _ => (d, ⟨name :: rest, .idle, true⟩)

/-- The next step of a job, `none` when it is over (`compute_and_save_fishers`, `fisher_core.py` L73-98): a data vector
whose file exists is skipped; `writeToFile` raises when the file exists by then (`fisher_matrix.py` L333-341). -/
def step (C : Comp V) (d : Disk V) (j : Job V) : Option (Disk V × Job V) :=
  if j.failed then none
  else match j.queue with
    | [] => none
    | name :: rest => some (match j.stage with
      | .idle => if (d.fishers.lookup name).isSome then (d, ⟨rest, .idle, false⟩) else start C d name rest
      | .opened t => ({ d with autos := some (.full t) }, ⟨name :: rest, .computed (C.autoFisher name), false⟩)
      | .computed v =>
        if (d.fishers.lookup name).isSome then (d, ⟨name :: rest, .idle, true⟩)
        else ({ d with fishers := PyDict.set d.fishers name .unreadable }, ⟨name :: rest, .saving v, false⟩)
      | .saving v => ({ d with fishers := PyDict.set d.fishers name (.full v) }, ⟨rest, .idle, false⟩))

/-- A job at its start (`bin/compute_fisher_matrix` L34-52). -/
def fresh (queue : List Str) : Job V := ⟨queue, .idle, false⟩

/-! ### Many jobs -/

/-- The directory of the run and the jobs started so far (`task_runners.py` L273-365). -/
structure Sys (V : Type) where
  disk : Disk V
  jobs : List (Job V)

/-- One of the jobs makes a step. For `task_runners.py` L273-365 (see `Sys`). -/
inductive Run (C : Comp V) : Sys V → Sys V → Prop
  | run {s : Sys V} (i : Nat) (j j' : Job V) (d' : Disk V) (hj : s.jobs[i]? = some j)
      (h : step C s.disk j = some (d', j')) : Run C s ⟨d', s.jobs.set i j'⟩

/-- Everything that can happen in a run directory: a job makes a step, is killed, or another one is started.
For `task_runners.py` L273-365 (see `Sys`). -/
inductive Happens (C : Comp V) : Sys V → Sys V → Prop
  | run {s s' : Sys V} (h : Run C s s') : Happens C s s'
  | kill {s : Sys V} (i : Nat) (j : Job V) (hj : s.jobs[i]? = some j) :
      Happens C s ⟨s.disk, s.jobs.set i { j with failed := true }⟩
  | start {s : Sys V} (queue : List Str) : Happens C s ⟨s.disk, s.jobs ++ [fresh queue]⟩

/-- Jobs with these data vectors are run, in any order of their steps, until all are over; `ok`: none failed.
For L314-347 (see `Task`). -/
def Phase (C : Comp V) (d : Disk V) (queues : List (List Str)) (d' : Disk V) (ok : Bool) : Prop :=
  ∃ js, Relation.ReflTransGen (Run C) ⟨d, queues.map fresh⟩ ⟨d', js⟩ ∧ (∀ j ∈ js, step C d' j = none) ∧
    ok = js.all (fun j => !j.failed)

/-! ### The task -/

/-- How the jobs are run (`task_runners.py` L320-365). -/
inductive Mode where
  | interactive
  | batch
  deriving DecidableEq

/-- `clearOutput` (`task_runners.py` L306-312). -/
def clear (overwrite : Bool) (d : Disk V) : Disk V := if overwrite then ⟨none, []⟩ else d

/-- The jobs for the auto-correlations: one, which a batch run leaves out when the file of tables exists
(L326-336, L358-360). -/
def autoJobs (C : Comp V) (m : Mode) (d : Disk V) : List (List Str) :=
  if m = .batch ∧ d.autos.isSome then [] else [C.autos]

/-- The jobs for the other data vectors: one each in a batch run (L338-345), one for all otherwise (L362-365). -/
def crossJobs (C : Comp V) : Mode → List (List Str)
  | .batch => C.cross.map fun name => [name]
  | .interactive => [C.cross]

/-- The task from one state of the directory to another (L314-347, L355-365); `ok`: it does not raise. A failed first
job ends it (L161, L332). Simplified: in a batch run the task raises as soon as it sees that a job has failed, here when
all are over; with no other data vectors at all it raises, here it does not. -/
def Task (C : Comp V) (m : Mode) (overwrite : Bool) (d d' : Disk V) (ok : Bool) : Prop :=
  ∃ d1 ok1, Phase C (clear overwrite d) (autoJobs C m (clear overwrite d)) d1 ok1 ∧
    match ok1 with
    | true => Phase C d1 (crossJobs C m) d' ok
    | false => d' = d1 ∧ ok = false

/-! ### The selected data vectors -/

/-- `load_selected_data_vectors` (`fisher_utils.py` L84-94) on the lines of the file (`splitlines` is left out). -/
def loadSelected (lines : List Str) : Except Keys.Err (List DataVector.DV) :=
  ((lines.map Boltzmann.strip).filter
    (fun l => (stripPrefix ['#'] l).isNone && decide (0 < l.length))).mapM DataVector.fromString

/-- `loadFisherDatavectorBriefStrings` (`task_runners.py` L295-301). -/
def briefStrings (dvs : List DataVector.DV) : Except Keys.Err (List Str × List Str) :=
  match (dvs.take 3).mapM DataVector.toBriefString, (dvs.drop 3).mapM DataVector.toBriefString with
  | .ok a, .ok c => .ok (a, c)
  | .error e, _ => .error e
  | _, .error e => .error e

/-- `is_single_autocorrelation` (`datavector.py` L46-48) and the probe of the data vector with a brief string, if it is
one (`fisher_core.py` L44-47, L82). -/
def singleOf (name : Str) : Option Str :=
  match DataVector.fromBriefString name with
  | .ok ⟨[_], _, [p]⟩ => some p
  | _ => none

/-- `getInvolvedAutoCorrelationProbes` of the data vector with a brief string (`datavector.py` L98-105). -/
def probesOf (name : Str) : List Str :=
  match DataVector.fromBriefString name with
  | .ok v => v.involved
  | .error _ => []

/-- `data/fishers/selected_datavectors.txt` L1-42. -/
def selectedLines : List Str :=
  ["# auto-correlations".toList,
   "[WL]: ['wlwl']".toList,
   "[GCph]: ['phph']".toList,
   "[GCsp]: ['spsp']".toList,
   "".toList,
   "# WL & GCph".toList,
   "[WL+GCph]: ['wlwl', 'phph']".toList,
   "[WL+GCph+XC(WL,GCph)]: ['wlwl', 'phph', 'wlph']".toList,
   "[WL+XC(WL,GCph)]: ['wlwl', 'wlph']".toList,
   "[GCph+XC(WL,GCph)]: ['phph', 'wlph']".toList,
   "[XC(WL,GCph)]: ['wlph']".toList,
   "".toList,
   "# WL & GCsp".toList,
   "[WL+GCsp]: ['wlwl', 'spsp']".toList,
   "[WL+GCsp+XC(WL,GCsp)]: ['wlwl', 'spsp', 'wlsp']".toList,
   "[WL+XC(WL,GCsp)]: ['wlwl', 'wlsp']".toList,
   "[GCsp+XC(WL,GCsp)]: ['spsp', 'wlsp']".toList,
   "[XC(WL,GCsp)]: ['wlsp']".toList,
   "".toList,
   "# GCph & GCsp".toList,
   "[GCph+GCsp]: ['phph', 'spsp']".toList,
   "[GCph+GCsp+XC(GCph,GCsp)]: ['phph', 'spsp', 'phsp']".toList,
   "[GCph+XC(GCph,GCsp)]: ['phph', 'phsp']".toList,
   "[GCsp+XC(GCph,GCsp)]: ['spsp', 'phsp']".toList,
   "[XC(GCph,GCsp)]: ['phsp']".toList,
   "".toList,
   "# 6x2pt".toList,
   "[WL+GCph+GCsp]: ['wlwl', 'phph', 'spsp']".toList,
   "[WL+GCph+GCsp+XC(WL,GCph)+XC(WL,GCsp)+XC(GCph,GCsp)]: ['wlwl', 'phph', 'spsp', 'wlph', 'wlsp', 'phsp']".toList,
   "[WL+GCph+GCsp+XC(WL,GCph)+XC(GCph,GCsp)]: ['wlwl', 'phph', 'spsp', 'wlph', 'phsp']".toList,
   "[WL+GCph+GCsp+XC(WL,GCph)+XC(WL,GCsp)]: ['wlwl', 'phph', 'spsp', 'wlph', 'wlsp']".toList,
   "[WL+GCph+GCsp+XC(WL,GCsp)+XC(GCph,GCsp)]: ['wlwl', 'phph', 'spsp', 'wlsp', 'phsp']".toList,
   "[WL+GCph+GCsp+XC(WL,GCph)]: ['wlwl', 'phph', 'spsp', 'wlph']".toList,
   "[WL+GCph+GCsp+XC(WL,GCsp)]: ['wlwl', 'phph', 'spsp', 'wlsp']".toList,
   "[WL+GCph+GCsp+XC(GCph,GCsp)]: ['wlwl', 'phph', 'spsp', 'phsp']".toList,
   "[WL+GCph+XC(WL,GCph)+XC(WL,GCsp)+XC(GCph,GCsp)]: ['wlwl', 'phph', 'wlph', 'wlsp', 'phsp']".toList,
   "[WL+GCph+XC(WL,GCph)+XC(WL,GCsp)]: ['wlwl', 'phph', 'wlph', 'wlsp']".toList,
   "[WL+GCph+XC(WL,GCph)+XC(GCph,GCsp)]: ['wlwl', 'phph', 'wlph', 'phsp']".toList,
   "[WL+GCph+XC(WL,GCsp)+XC(GCph,GCsp)]: ['wlwl', 'phph', 'wlsp', 'phsp']".toList,
   "[WL+GCph+XC(WL,GCsp)]: ['wlwl', 'phph', 'wlsp']".toList,
   "[WL+GCph+XC(GCph,GCsp)]: ['wlwl', 'phph', 'phsp']".toList,
   "[GCsp+XC(WL,GCph)]: ['spsp', 'wlph']".toList]

/-- The task on a file of selected data vectors, with what is computed for them. For `datavector.py` L98-105 (see `probesOf`). -/
def compOf (lines : List Str) (table autoFisher : Str → V) (fisher : Str → (Str → Option V) → V) :
    Except Keys.Err (Comp V) :=
  match loadSelected lines with
  | .error e => .error e
  | .ok dvs => match briefStrings dvs with
    | .error e => .error e
    | .ok (a, c) => .ok ⟨a, c, singleOf, probesOf, table, autoFisher, fisher⟩

end Seyfert.FTask
