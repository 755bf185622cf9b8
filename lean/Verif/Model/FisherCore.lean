import Verif.Model.Evaluator
import Verif.Model.FisherTask

/-!
Model of `compute_fisher_matrix` in `main/fisher_core.py`: what a job of the Fisher task computes for a data vector and
stores, with the evaluation of `Model/Evaluator.lean`.
-/

namespace Seyfert.Cov

open Fisher hiding Err

variable {P N K : Type} [DecidableEq P] [LinearOrder N] [Field K] [LinearOrder K]

/-- The Fisher matrix made of the evaluated frame (`fisher_core.py` L64-70; `fisher_matrix.py` L34-49, L94-98): the free
cosmological parameters, the free nuisance parameters of the data vector. -/
def fisherMatrixOf (cosmo : List N) (nuis : P → List N) (dv : List (P × P)) (name : Str) (F : DF N K) : FM N K :=
  { matrix := F, name := name, cosmo := cosmo.toFinset, nuis := (freeNuisance nuis dv).toFinset }

end Seyfert.Cov

namespace Seyfert.FTask

open Fisher (FM)
open Cov (FEll Store computeFisher fisherMatrixOf)

variable {N K : Type} [LinearOrder N] [Field K] [LinearOrder K]

/-- What the files of the task hold: a table over multipoles, or a Fisher matrix. `failed` stands for an evaluation that
raised; a job that raises stores nothing, which matters only where evaluations fail.
For `fisher_evaluator.py` L279-281 (see `tablesFor`). -/
inductive Out (N K : Type) where
  | table (t : FEll N K)
  | fisher (F : FM N K)
  | failed

/-- The probes of an entry by their aliases (`toTupleRawKey`, used in `fisher_evaluator.py` L86-87). -/
def pairOf (k : Keys.ClKey) : Except Keys.Err (Str × Str) :=
  match Keys.toRawKey k .alias with
  | .ok (.tup [a, b]) => .ok (a, b)
  | .ok _ => .error .valueError
  | .error e => .error e

/-- The data vector with a brief string (`fisher_core.py` L82): its name and its correlations. -/
def readDV (brief : Str) : Except Keys.Err (Str × List (Str × Str)) :=
  match DataVector.fromBriefString brief with
  | .error e => .error e
  | .ok v =>
    match v.entries.mapM pairOf with
    | .error e => .error e
    | .ok dv => .ok (v.name, dv)

/-- The tables of the probes among those read from the file; the others are not looked up (`fisher_evaluator.py`
L279-281). -/
def tablesFor (f : Str → Option (Out N K)) (probes : List Str) : List (Str × FEll N K) :=
  probes.filterMap fun p => match f p with
    | some (.table t) => some (p, t)
    | _ => none

/-- The table stored with the auto-correlation of a probe (`fisher_core.py` L44-49). -/
noncomputable def tableOf (cosmo : List N) (nuis : Str → List N) (delta : Store Str K) (D : N → Option (Store Str K))
    (p : Str) : Out N K :=
  match computeFisher cosmo nuis delta D [(p, p)] [p] none with
  | .ok (_, t) => .table t
  | .error _ => .failed

/-- The Fisher matrix stored for a brief string (`fisher_core.py` L36-70, L82-92), with the tables given; `ord` is the order
in which a set of probes is iterated. -/
noncomputable def fisherOf (cosmo : List N) (nuis : Str → List N) (delta : Store Str K) (D : N → Option (Store Str K))
    (ord : List Str → List Str) (brief : Str) (auto : Option (List (Str × FEll N K))) : Out N K :=
  match readDV brief with
  | .error _ => .failed
  | .ok (name, dv) =>
    match computeFisher cosmo nuis delta D dv (ord (probesOf brief)) auto with
    | .ok (F, _) => .fisher (fisherMatrixOf cosmo nuis dv name F)
    | .error _ => .failed

/-- The task on the selected data vectors with these spectra and derivatives.
For `fisher_core.py` L36-70, L82-92 (see `fisherOf`). -/
noncomputable def forecastComp (lines : List Str) (cosmo : List N) (nuis : Str → List N) (delta : Store Str K)
    (D : N → Option (Store Str K)) (ord : List Str → List Str) : Except Keys.Err (Comp (Out N K)) :=
  compOf lines (tableOf cosmo nuis delta D) (fun brief => fisherOf cosmo nuis delta D ord brief none)
    (fun brief f => fisherOf cosmo nuis delta D ord brief (some (tablesFor f (ord (probesOf brief)))))

end Seyfert.FTask
