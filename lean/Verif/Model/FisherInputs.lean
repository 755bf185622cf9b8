import Verif.Model.DeltaCl
import Verif.Model.PyDict

/-!
Model of the life of a collection of normalised spectra: `DeltaClCollection` (`fisher/delta_cl.py`
L135-247), its computation (`main/cl_core.py` L108-118) and its preparation for the Fisher matrices
(`main/fisher_core.py` L17-34).

One block is the subject of `Model/DeltaCl.lean`, the file format that of `Model/Stored.lean`.
Entries of the collection are named after a probe or after several probes; here the name is the list
of the probes (`xcName` of `Model/DeltaCl.lean` turns it into the string).  Which covariances the
Fisher matrices use is `Cov.covariance` of `Model/Covariance.lean`.
-/

namespace Seyfert.Inputs

open Ells Cov

variable {P K : Type} [DecidableEq P] [Field K] [LinearOrder K]

/-- Errors: those of the arrays, and reading an attribute of `None`. For L187-192 (see `noiseLoop`). -/
inductive Err where
  | arr (e : Ells.Err)
  | keyError
  | attributeError
  | typeError

/-- A forecast configuration as far as it is read here: the noise of the probes, the sky fraction,
the probes present, and the file of shot noise if one is configured (delta_cl.py L149-153,
`config/forecast_config.py`).  A file of shot noise is the dictionary of its datasets. -/
structure Cfg (P K : Type) where
  noise : NoiseCfg P K
  fSky : K
  probes : List P
  file : Option (List ((P × P) × (Nat → Nat → K))) := none

/-- A fiducial spectrum (`AngularCoefficient`): multipoles, widths and values. For L53-71 (see `fromCl`). -/
structure Cl (K : Type) where
  ells : List K
  widths : List K
  n : Nat
  m : Nat
  arr : List (Nat → Nat → K)

/-- What the collection holds under a name: the very object that is also a single block (L211), or an
object of its own (L224, L231, L299-301), given by its multipoles and values. -/
inductive Item (P K : Type) where
  | shared (k : P × P)
  | own (ells : List K) (delta : List (Nat → Nat → K))

/-- `DeltaClCollection` (L135-153).  `cfg` is also the configuration that each block refers to. -/
structure Coll (P K : Type) where
  cfg : Option (Cfg P K)
  single : List ((P × P) × Block P K) := []
  items : List (List P × Item P K) := []

/-- `DeltaCl.fromCl` (L53-71). -/
def fromCl (k : P × P) (t : Cl K) : Block P K :=
  { p1 := k.1, p2 := k.2, ells := t.ells, widths := t.widths, n := t.n, m := t.m, c := t.arr }

/-- `loadFiducialCls` (L176-182): every spectrum of the collector under its key. -/
def loadFiducialCls (cls : List ((P × P) × Cl K)) (c : Coll P K) : Coll P K :=
  { c with single := PyDict.update c.single (cls.map (fun p => (p.1, fromCl p.1 p.2))) }

/-- The loop of `loadShotNoiseFromFile` (L187-192). -/
def noiseLoop (file : List ((P × P) × (Nat → Nat → K))) :
    List ((P × P) × Block P K) → Except Err (List ((P × P) × Block P K))
  | [] => .ok []
  | (k, b) :: l =>
    match file.lookup k with
    | none => .error .keyError
    | some f =>
      match noiseLoop file l with
      | .error e => .error e
      | .ok l' => .ok ((k, loadNoise f b) :: l')

/-- `loadShotNoiseFromFile` (L184-194): every single block needs a dataset of its key.  The objects
are changed in place, so that shared entries change too; what happens to the blocks when a dataset is
missing is not modelled. -/
def loadShotNoise (file : List ((P × P) × (Nat → Nat → K))) (c : Coll P K) : Except Err (Coll P K) :=
  match noiseLoop file c.single with
  | .error e => .error e
  | .ok s => .ok { c with single := s }

/-- `loadInpuDataFromWorkspace` (L167-175). -/
def loadInputData (cls : List ((P × P) × Cl K)) (c : Coll P K) : Except Err (Coll P K) :=
  match c.cfg with
  | none => .error .attributeError
  | some g =>
    match g.file with
    | none => .ok (loadFiducialCls cls c)
    | some f => loadShotNoise f (loadFiducialCls cls c)

/-- The noise that `evaluate` uses (L108-110): that of the block, or a new one, which needs the
configuration only for an auto-correlation (L85-103). -/
def noiseFor (g : Option (Cfg P K)) (b : Block P K) : Except Err ((Nat × Nat) × List (Nat → Nat → K)) :=
  match b.noise with
  | some x => .ok ((b.n, b.m), x)
  | none =>
    if b.p1 ≠ b.p2 then .ok ((b.n, b.m), b.c.map (fun _ _ _ => 0))
    else
      match g with
      | none => .error .attributeError
      | some g => .ok (computeNoise g.noise b)

/-- The sky fraction that `evaluate` uses (L111-112). -/
def skyFor (g : Option (Cfg P K)) (f : Option K) : Except Err K :=
  match f with
  | some f => .ok f
  | none =>
    match g with
    | none => .error .attributeError
    | some g => .ok g.fSky

/-- `DeltaCl.evaluate` (L107-118) for a block with or without a configuration; see `Cov.evaluate` for
the simplifications. -/
def evalBlock (sq : K → K) (sing : List (Nat → Nat → K) → Nat → Bool) (g : Option (Cfg P K))
    (f : Option K) (b : Block P K) : Except Err (Block P K) :=
  match noiseFor g b with
  | .error e => .error e
  | .ok (shape, noise) =>
    match skyFor g f with
    | .error e => .error e
    | .ok fs =>
      if shape = (b.n, b.m) ∧ noise.length = b.c.length ∧ b.widths.length = b.c.length then
        let d := List.zipWith (fun w f i j => sq (1 / (w * fs)) * f i j) b.widths (addStacks b.c noise)
        if b.p1 = b.p2 ∧ (b.n ≠ b.m ∨ sing d b.n) then .error (.arr .linAlg)
        else .ok { b with noise := some noise, delta := some d }
      else .error (.arr .valueError)

/-- The loop of `evaluateSingleBlocks` (L207-209): the blocks. -/
def evalLoop (sq : K → K) (sing : List (Nat → Nat → K) → Nat → Bool) (g : Option (Cfg P K))
    (f : Option K) : List ((P × P) × Block P K) → Except Err (List ((P × P) × Block P K))
  | [] => .ok []
  | (k, b) :: l =>
    match evalBlock sq sing g f b with
    | .error e => .error e
    | .ok b' =>
      match evalLoop sq sing g f l with
      | .error e => .error e
      | .ok l' => .ok ((k, b') :: l')

/-- The entries that `evaluateSingleBlocks` makes (L210-211): an auto-correlation is entered under the
name of its probe, and is the same object as the single block. -/
def autoItems (s : List ((P × P) × Block P K)) : List (List P × Item P K) :=
  (s.filter (fun p => decide (p.2.p1 = p.2.p2))).map (fun p => ([p.2.p1], Item.shared p.1))

/-- `evaluateSingleBlocks` (L206-211). -/
def evaluateSingle (sq : K → K) (sing : List (Nat → Nat → K) → Nat → Bool) (f : Option K)
    (c : Coll P K) : Except Err (Coll P K) :=
  match evalLoop sq sing c.cfg f c.single with
  | .error e => .error e
  | .ok s => .ok { c with single := s, items := PyDict.update c.items (autoItems s) }

/-- `ell_dict` and `delta_c_lij_array_dict` (L156-165) of evaluated blocks. -/
def storeOf : List ((P × P) × Block P K) → Except Err (Store P K)
  | [] => .ok []
  | (k, b) :: l =>
    match b.delta with
    | none => .error .typeError
    | some d =>
      match storeOf l with
      | .error e => .error e
      | .ok s => .ok ((k, ⟨b.ells, b.n, b.m, d⟩) :: s)

/-- The joint matrices of `buildXCBlocks` (L217-231), with their names.  The constructor inverts the
matrix (L50-51). -/
def xcItems (sing : List (Nat → Nat → K) → Nat → Bool) (s : Store P K) :
    List (List P) → Except Err (List (List P × Item P K))
  | [] => .ok []
  | ps :: l =>
    match xcMatrix s ps with
    | .error e => .error (.arr e)
    | .ok M =>
      if sing M.arr M.size then .error (.arr .linAlg)
      else
        match xcItems sing s l with
        | .error e => .error e
        | .ok r => .ok ((ps, .own M.ells M.arr) :: r)

/-- `buildXCBlocks` (L213-231). -/
def buildXC (sing : List (Nat → Nat → K) → Nat → Bool) (c : Coll P K) : Except Err (Coll P K) :=
  match c.cfg with
  | none => .error .attributeError
  | some g =>
    match storeOf c.single with
    | .error e => .error e
    | .ok s =>
      match xcItems sing s (xcSets g.probes) with
      | .error e => .error e
      | .ok r => .ok { c with items := PyDict.update c.items r }

/-- The second loading of the noise in `compute_delta_cls` (cl_core.py L113-114). -/
def noiseAgain (g : Cfg P K) (c : Coll P K) : Except Err (Coll P K) :=
  match g.file with
  | none => .ok c
  | some f => loadShotNoise f c

/-- The last two steps of `compute_delta_cls` (cl_core.py L115-116). -/
def evaluateAndBuild (sq : K → K) (sing : List (Nat → Nat → K) → Nat → Bool) (c : Coll P K) :
    Except Err (Coll P K) :=
  match evaluateSingle sq sing none c with
  | .error e => .error e
  | .ok c' => buildXC sing c'

/-- `compute_delta_cls` (cl_core.py L108-118): the noise of a configured file is loaded twice. -/
def computeDeltaCls (sq : K → K) (sing : List (Nat → Nat → K) → Nat → Bool) (g : Cfg P K)
    (cls : List ((P × P) × Cl K)) : Except Err (Coll P K) :=
  match loadInputData cls { cfg := some g } with
  | .error e => .error e
  | .ok c =>
    match noiseAgain g c with
    | .error e => .error e
    | .ok c' => evaluateAndBuild sq sing c'

/-- What a name of the collection stands for: its multipoles and values. For L233-247 (see `Reloaded`). -/
def view (c : Coll P K) (name : List P) : Option (List K × Option (List (Nat → Nat → K))) :=
  match c.items.lookup name with
  | none => none
  | some (.own e d) => some (e, some d)
  | some (.shared k) => (c.single.lookup k).map (fun b => (b.ells, b.delta))

/-- `fromHDF5` after `saveToHDF5` (L233-247): the single blocks and the entries of the file, in the
order in which the file lists them; the entries become objects of their own, and there is no
configuration.  Entries without values cannot be written. -/
structure Reloaded (c c' : Coll P K) : Prop where
  cfg : c'.cfg = none
  single : c'.single.Perm c.single
  keys : (c'.items.map (·.1)).Perm (c.items.map (·.1))
  own : ∀ name i, c'.items.lookup name = some i → ∃ e d, i = .own e d ∧ view c name = some (e, some d)

/-- `prepare_inputs` (fisher_core.py L17-34) on the collection read from the file: `given` is the file
of shot noise passed by the caller. -/
def prepareInputs (sq : K → K) (sing : List (Nat → Nat → K) → Nat → Bool) (g : Cfg P K)
    (given : Option (List ((P × P) × (Nat → Nat → K)))) (stored : Coll P K) : Except Err (Coll P K) :=
  match given.or g.file with
  | none => .ok stored
  | some f =>
    match loadShotNoise f stored with
    | .error e => .error e
    | .ok c => evaluateSingle sq sing (some g.fSky) c

end Seyfert.Inputs
