import Verif.Model.Parameter
import Verif.Model.Names
import Verif.Model.Stem

/-!
Model of the way from parameters to derivatives of the spectra.

* `main/cl_core.py` L21-39, L82-105 and `bin/compute_cls`: the spectra of a displaced parameter.
* `derivatives/cl_derivative.py` and the loading of `derivatives/differentiator.py`: derivatives from the
  files of a run.
* `main/cl_derivative_core.py`: derivatives in one process.

The computation of the spectra themselves is a parameter `th` (the models of the weights and of the
Limber integrals are in other files); it gets the cosmology, the fiducial cosmology and the parameters.
Densities and configurations are the same for all calls, and are part of `th`.  A cosmology is its
parameters and the rest of the file, of type `S`.  Spectra are kept under the pair of their probes (the
strings of the keys are the subject of `Model/Keys.lean`).  The array of a spectrum is the list of its
entries, so that arrays of different shapes with as many entries are not told apart.
-/

namespace Seyfert.ClDer

open Param (Coll Par central)

variable {K S : Type} [Field K] [LinearOrder K]

/-- The exceptions of the functions modelled here, by their kinds (`cl_core.py` L21-105, `cl_derivative.py`,
`differentiator.py`). -/
inductive Err where
  | par (e : Param.Err)
  | stem (e : Stem.Err)
  | keyError
  | noFile
  | badName
  | tooFew
  | typeError
  | valueError
  | notImplemented
  | theory

/-- A cosmology file: parameters, and the rest. For `cl_core.py` L55-79 (see `Theory`). -/
structure Cosmo (K S : Type) where
  params : List (Str × Par K)
  rest : S

/-- A spectrum: multipoles and entries. For `differentiator.py` L42-44 (see `loadFiducial`). -/
structure Spec (K : Type) where
  ells : List K
  vals : List K

/-- `cl_dict` of an `AngularCoefficientsCollector`. For `cl_core.py` L55-79 (see `Theory`). -/
abbrev Cls (K : Type) := List ((Str × Str) × Spec K)

/-- The power spectra files of a run, by parameter and step. For `cl_core.py` L21-39 (see `loadCosmology`). -/
abbrev Store (K S : Type) := List ((Str × Int) × Cosmo K S)

/-- The computation of all spectra, `compute_cls` (cl_core.py L55-79). -/
abbrev Theory (K S : Type) := Cosmo K S → Cosmo K S → List (Str × Par K) → Except Err (Cls K)

/-! ### Choice of the cosmology -/

/-- `PhysicalParameter.__eq__` (`cosmology/parameter.py` L133-137). -/
def samePar (a b : Par K) : Bool :=
  decide (a.name = b.name) && decide (a.fiducial = b.fiducial) && decide (a.kind = b.kind) &&
    decide (a.current = b.current)

/-- Equality of two dictionaries of parameters (cl_core.py L28). -/
def samePars (a b : List (Str × Par K)) : Bool :=
  decide (a.length = b.length) && a.all (fun q => ((b.lookup q.1).map (samePar q.2)).getD false)

/-- The name of the parameter set in the cosmology as well (`cl_core.py` L32). -/
def gamma : Str := "gamma".toList

/-- The report of an inconsistency (cl_core.py L28-37): it is written to the log, but it raises for a
parameter of the cosmology which the collection lacks. -/
def report (cosmo : List (Str × Par K)) (pars : List (Str × Par K)) : Option Err :=
  if samePars cosmo (pars.filter (fun q => decide (q.2.kind = .cosmo))) then none
  else if cosmo.any (fun q => decide (q.1 ≠ gamma) && (pars.lookup q.1).isNone) then some .keyError
  else none

/-- The file that `load_cosmology` opens (cl_core.py L22-25). -/
def cosmoId (pars : List (Str × Par K)) (dvar : Str) (step : Int) : Except Err (Str × Int) :=
  if dvar = central then .ok (central, 0)
  else
    match pars.lookup dvar with
    | none => .error .keyError
    | some p => if p.kind = .cosmo then .ok (dvar, step) else .ok (central, 0)

/-- `load_cosmology` (cl_core.py L21-39). -/
def loadCosmology (store : Store K S) (pars : List (Str × Par K)) (dvar : Str) (step : Int) :
    Except Err (Cosmo K S) :=
  match cosmoId pars dvar step with
  | .error e => .error e
  | .ok i =>
    match store.lookup i with
    | none => .error .noFile
    | some c =>
      match report c.params pars with
      | some e => .error e
      | none => .ok c

/-! ### One job -/

/-- `bin/compute_cls`, L37-68 of its `main`: the spectra that the job in a directory writes.  `c` are the
parameters of the run. -/
def clJob (th : Theory K S) (store : Store K S) (c : Coll K) (dir : Str) : Except Err (Cls K) :=
  match Names.parseJobDir dir with
  | none => .error .badName
  | some (dvar, step) =>
    match Param.update c dvar step with
    | (_, some e) => .error (.par e)
    | (c', none) =>
      match loadCosmology store c'.pars dvar step with
      | .error e => .error e
      | .ok cosmo =>
        match loadCosmology store c'.pars central 0 with
        | .error e => .error e
        | .ok fid => th cosmo fid c'.pars

/-! ### Derivatives of stacked spectra -/

/-- `np.stack` and `reshape` (differentiator.py L68, L113; cl_derivative_core.py L36): one column for each
entry. -/
def columns (rows : List (List K)) : Except Err (List (List K)) :=
  match rows with
  | [] => .error .valueError
  | r :: _ =>
    if rows.all (fun x => decide (x.length = r.length)) then
      .ok ((List.range r.length).map (fun e => rows.map (fun x => x.getD e 0)))
    else .error .valueError

/-- `SteMClDifferentiator.doComputeDerivative` (differentiator.py L70-86), vectorised.  Values that do not
depend on the entry, `computePhysParSTEMValues` (parameter.py L287-288), are looked up under the name of
the parameter. -/
def doStem (c : Coll K) (name : Str) (rows : List (List K)) : Except Err (List K) :=
  match columns rows with
  | .error e => .error e
  | .ok cols =>
    match c.pars.lookup name with
    | none => .error .keyError
    | some p =>
      match c.disps with
      | none => .error .typeError
      | some disps =>
        match Stem.vectorized (Param.stemValues p disps) cols with
        | .error e => .error (.stem e)
        | .ok l => .ok l

/-- The entries of one key in each of several collections of spectra (differentiator.py L64-66). -/
def rowsOf (key : Str × Str) : List (Cls K) → Except Err (List (List K))
  | [] => .ok []
  | cls :: l =>
    match cls.lookup key with
    | none => .error .keyError
    | some s =>
      match rowsOf key l with
      | .error e => .error e
      | .ok r => .ok (s.vals :: r)

/-! ### Derivatives from files -/

/-- The contents of several directories of the run; each holds one file of spectra. For L62-68 (see `loadRows`). -/
def readDirs (dirs : List (Str × Cls K)) : List Str → Except Err (List (Cls K))
  | [] => .ok []
  | d :: l =>
    match dirs.lookup d with
    | none => .error .noFile
    | some cls =>
      match readDirs dirs l with
      | .error e => .error e
      | .ok r => .ok (cls :: r)

/-- `ClDifferentiator.loadClData` (differentiator.py L42-44). -/
def loadFiducial (dirs : List (Str × Cls K)) (key : Str × Str) : Except Err (Spec K) :=
  match dirs.lookup (Names.jobDir central 0) with
  | none => .error .noFile
  | some cls =>
    match cls.lookup key with
    | none => .error .keyError
    | some s => .ok s

/-- The rest of `SteMClDifferentiator.loadClData` (L62-68, L146-160): the rows in the order of the
steps. -/
def loadRows (dirs : List (Str × Cls K)) (name : Str) (key : Str × Str) : Except Err (List (List K)) :=
  match Names.collectVariations (dirs.map (·.1)) name with
  | none => .error .badName
  | some l =>
    if l.length ≤ 1 then .error .tooFew
    else
      match readDirs dirs l with
      | .error e => .error e
      | .ok cls => rowsOf key cls

/-- `computeDerivative` (L31-40). -/
def zeroOr (p : Par K) (key : Str × Str) (fid : Spec K) (d : Except Err (List K)) :
    Except Err (List K × List K) :=
  if p.kind = .nuisance ∧ p.probe ≠ some key.1 ∧ p.probe ≠ some key.2 then
    .ok (fid.ells, fid.vals.map (fun _ => 0))
  else
    match d with
    | .error e => .error e
    | .ok l => .ok (fid.ells, l)

/-- The name of the analytic method (`cl_derivative.py` L52). -/
def analytic : Str := "Analytic".toList

/-- `ClDerivative.evaluate` (`cl_derivative.py` L47-60): multipoles and entries of the derivative.  `ana`
is the analytic derivative of the fiducial spectrum (see `Model/Stem.lean`), which needs the central
power spectrum file (differentiator.py L167-171). -/
def evaluate (ana : Cosmo K S → Par K → Str × Str → Spec K → Except Err (List K)) (store : Store K S)
    (dirs : List (Str × Cls K)) (c : Coll K) (p : Par K) (key : Str × Str) :
    Except Err (List K × List K) :=
  if p.method = Names.stem then
    match loadFiducial dirs key with
    | .error e => .error e
    | .ok fid =>
      match loadRows dirs p.name key with
      | .error e => .error e
      | .ok rows => zeroOr p key fid (doStem c p.name rows)
  else if p.method = analytic then
    match loadFiducial dirs key with
    | .error e => .error e
    | .ok fid =>
      match store.lookup (central, 0) with
      | none => .error .noFile
      | some cosmo => zeroOr p key fid (ana cosmo p key fid)
  else .error .notImplemented

/-- The loop of `evaluateDerivatives` (`cl_derivative.py` L93-96) over the keys of `setUp` (L98-102). -/
def evaluateKeys (ana : Cosmo K S → Par K → Str × Str → Spec K → Except Err (List K)) (store : Store K S)
    (dirs : List (Str × Cls K)) (c : Coll K) (p : Par K) :
    List (Str × Str) → Except Err (List ((Str × Str) × (List K × List K)))
  | [] => .ok []
  | key :: l =>
    match evaluate ana store dirs c p key with
    | .error e => .error e
    | .ok d =>
      match evaluateKeys ana store dirs c p l with
      | .error e => .error e
      | .ok r => .ok ((key, d) :: r)

/-- `bin/compute_derivatives`, not in standalone mode: the collector of one parameter
(`cl_derivative.py` L70-83), set up and evaluated.  `combos` are the combinations of probes of the
forecast, each once. -/
def fileDerivative (ana : Cosmo K S → Par K → Str × Str → Spec K → Except Err (List K))
    (store : Store K S) (dirs : List (Str × Cls K)) (c : Coll K) (combos : List (Str × Str)) (dvar : Str) :
    Except Err (List ((Str × Str) × (List K × List K))) :=
  match c.pars.lookup dvar with
  | none => .error .keyError
  | some p => evaluateKeys ana store dirs c p combos

/-! ### Derivatives in one process -/

/-- The loop of `compute_cls_variations` (cl_core.py L86-103), with the power spectra read from files
(`compute_pmm=False`, the only way `seyfert_core.py` L120 calls it): the collection afterwards and the
spectra by step. -/
def memLoop (th : Theory K S) (store : Store K S) (fid : Cosmo K S) (dvar : Str) :
    Coll K → List Int → Coll K × Except Err (List (Int × Cls K))
  | c, [] => (c, .ok [])
  | c, s :: rest =>
    match Param.update c dvar s with
    | (c', some e) => (c', .error (.par e))
    | (c', none) =>
      match loadCosmology store c'.pars dvar s with
      | .error e => (c', .error e)
      | .ok cosmo =>
        match th cosmo fid c'.pars with
        | .error e => (c', .error e)
        | .ok cls =>
          match memLoop th store fid dvar (Param.reset c') rest with
          | (c'', .error e) => (c'', .error e)
          | (c'', .ok l) => (c'', .ok ((s, cls) :: l))

/-- `sorted(cls_dvar)` (`cl_derivative_core.py` L36). -/
def inStepOrder (l : List (Int × Cls K)) : List (Cls K) :=
  (l.insertionSort (fun a b => a.1 ≤ b.1)).map (·.2)

/-- The loop of `compute_cls_derivatives_wrt` over the keys (`cl_derivative_core.py` L30-43): always the
vectorised fit, whatever the method of the parameter, and for every key. -/
def memKeys (c : Coll K) (dvar : Str) (vars : List (Cls K)) :
    Cls K → Except Err (List ((Str × Str) × (List K × List K)))
  | [] => .ok []
  | (key, fid) :: l =>
    match rowsOf key vars with
    | .error e => .error e
    | .ok rows =>
      match doStem c dvar rows with
      | .error e => .error e
      | .ok d =>
        match memKeys c dvar vars l with
        | .error e => .error e
        | .ok r => .ok ((key, (fid.ells, d)) :: r)

/-- `compute_cls_derivatives_wrt` (`cl_derivative_core.py` L19-45); the steps are those written in
cl_core.py L86. -/
def memDerivative (th : Theory K S) (store : Store K S) (fid : Cosmo K S) (fidCls : Cls K) (c : Coll K)
    (dvar : Str) : Coll K × Except Err (List ((Str × Str) × (List K × List K))) :=
  match memLoop th store fid dvar c (Param.stepNumbers 7) with
  | (c', .error e) => (c', .error e)
  | (c', .ok l) => (c', memKeys c' dvar (inStepOrder ((0, fidCls) :: l)) fidCls)

end Seyfert.ClDer
