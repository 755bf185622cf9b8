import Verif.Model.Covariance
import Verif.Model.PyStr

/-!
Model of `fisher/delta_cl.py` L84-118, L185-231 and `fisher/fisher_utils.py` L21-69: shot noise,
normalisation, and the joint blocks of several probes.

The surface densities that give the shot noise (`weight_functions.py`, `redshift_density.py`) are
parameters here.
-/

namespace Seyfert.Cov

open Ells

variable {P K : Type} [DecidableEq P] [Field K] [LinearOrder K]

/-- The fields of a `DeltaCl` that `evaluate` uses (delta_cl.py L33-63). -/
structure Block (P K : Type) where
  p1 : P
  p2 : P
  ells : List K
  widths : List K
  n : Nat
  m : Nat
  c : List (Nat → Nat → K)
  noise : Option (List (Nat → Nat → K)) := none
  delta : Option (List (Nat → Nat → K)) := none

/-- What `computeNoise` reads from the configuration: for every probe the shot noise of its bins
(`w.shot_noise_factor * w.density.shot_noise`), the probe of spectroscopic galaxies, the flag
`shot_noise_sp_reduced` and the two total numbers of galaxies. For `delta_cl.py` L84-105 (see `computeNoise`). -/
structure NoiseCfg (P K : Type) where
  shot : P → List K
  spec : P
  reduced : Bool
  nSpec : K
  nPhot : K

/-- `np.diag(values)`. For `delta_cl.py` L84-105 (see `computeNoise`). -/
def diagOf (v : List K) (i j : Nat) : K := if i = j then v.getD i 0 else 0

/-- `computeNoise` (delta_cl.py L84-105): the size of the noise array and its values at every
multipole. -/
def computeNoise (cfg : NoiseCfg P K) (b : Block P K) : (Nat × Nat) × List (Nat → Nat → K) :=
  if b.p1 ≠ b.p2 then ((b.n, b.m), b.c.map (fun _ _ _ => 0))
  else
    let v := cfg.shot b.p1
    let k := if b.p1 = cfg.spec ∧ cfg.reduced then cfg.nSpec / cfg.nPhot else 1
    ((v.length, v.length), b.c.map (fun _ i j => diagOf v i j * k))

/-- Sum of two stacks of the same shape. For `delta_cl.py` L107-118 (see `evaluate`). -/
def addStacks (x y : List (Nat → Nat → K)) : List (Nat → Nat → K) :=
  List.zipWith (fun f g i j => f i j + g i j) x y

/-- `evaluate(f_sky)` (delta_cl.py L107-118) for a block whose arrays have one matrix per multipole.
numpy refuses arrays that do not fit (broadcasting of a single bin is treated as an error too).
`sq` is the square root.  The inverse that is computed for an auto-correlation raises if a matrix is
singular; `sing` tells whether one is. -/
def evaluate (sq : K → K) (sing : List (Nat → Nat → K) → Nat → Bool) (cfg : NoiseCfg P K) (fSky : K)
    (b : Block P K) : Except Err (Block P K) :=
  let (shape, noise) := match b.noise with
    | some x => ((b.n, b.m), x)
    | none => computeNoise cfg b
  if shape = (b.n, b.m) ∧ noise.length = b.c.length ∧ b.widths.length = b.c.length then
    let d := List.zipWith (fun w f i j => sq (1 / (w * fSky)) * f i j) b.widths (addStacks b.c noise)
    if b.p1 = b.p2 ∧ (b.n ≠ b.m ∨ sing d b.n) then .error .linAlg
    else .ok { b with noise := some noise, delta := some d }
  else .error .valueError

/-- `itertools.combinations_with_replacement(probes, 2)` (fisher_utils.py L25). -/
def combosP : List P → List (P × P)
  | [] => []
  | a :: l => (a :: l).map (fun b => (a, b)) ++ combosP l

/-- The key under which a pair is stored (fisher_utils.py L26-32). -/
def storedKey (s : Store P K) (p : P × P) : Except Err ((P × P) × Tomo K) :=
  match s.lookup p with
  | some t => .ok (p, t)
  | none =>
    match s.lookup (p.2, p.1) with
    | some t => .ok ((p.2, p.1), t)
    | none => .error .keyError

/-- One block of the joint matrix, restricted to the common multipoles (fisher_utils.py L41-50). -/
def xcBlock (ells : List K) (sel : Store P K) (p q : P) : Except Err (Tomo K) :=
  match sel.get p q with
  | .error e => .error e
  | .ok t =>
    match maskArr t.ells ells t.arr with
    | .error e => .error e
    | .ok a => .ok ⟨ells, t.n, t.m, a⟩

/-- `np.block(rows)` (fisher_utils.py L53). -/
def npBlock (ells : List K) (rows : List (List (Tomo K))) : Except Err (CovMat K) :=
  if rows = [] then .error .valueError
  else if blockOk ells.length rows then
    .ok ⟨ells, (heights rows).sum,
      (List.range ells.length).map (fun l R C => npBlockEntry rows l R C)⟩
  else .error .valueError

/-- `buildXCBlockMatrixForProbes` (fisher_utils.py L21-53). -/
def xcMatrix (s : Store P K) (probes : List P) : Except Err (CovMat K) :=
  match (combosP probes).mapM (storedKey s) with
  | .error e => .error e
  | .ok sel =>
    match commonElls sel with
    | .error e => .error e
    | .ok ells =>
      match probes.mapM (fun p => probes.mapM (fun q => xcBlock ells sel p q)) with
      | .error e => .error e
      | .ok rows => npBlock ells rows

/-- `buildXCBlocks` (delta_cl.py L213-231): the sets of probes for which a joint matrix is built, in
order. -/
def pairs2 : List P → List (P × P)
  | [] => []
  | a :: l => l.map (fun b => (a, b)) ++ pairs2 l
/-- The sets of probes of `buildXCBlocks` (`delta_cl.py` L213-231): all, and the pairs if there are more than two. -/
def xcSets (probes : List P) : List (List P) :=
  if probes.length > 1 then
    probes :: (if probes.length > 2 then (pairs2 probes).map (fun p => [p.1, p.2]) else [])
  else []

/-- `writeShotNoiseToFile` for one block (delta_cl.py L201): the noise at the first multipole; `None[0]`
and an empty array raise. -/
def writeNoise (b : Block P K) : Except Err (Nat → Nat → K) :=
  match b.noise with
  | none => .error .typeError
  | some [] => .error .indexError
  | some (f :: _) => .ok f

/-- `loadShotNoiseFromFile` for one block (`delta_cl.py` L188-193): the stored matrix at every multipole.  The file
is taken to hold a matrix of the size of the block. -/
def loadNoise (f : Nat → Nat → K) (b : Block P K) : Block P K :=
  { b with noise := some (b.ells.map (fun _ => f)) }

/-- `get_probes_xc_fisher_name` (fisher_utils.py L56-62). -/
def xcName (probes : List Str) : Str :=
  match probes with
  | [p] => p
  | _ => joinStr ['+'] (probes ++ ["XC".toList])

/-- `get_probes_from_fisher_name` (fisher_utils.py L65-69). -/
def probesFromName (name : Str) : List Str := (splitChar '+' name).erase "XC".toList

end Seyfert.Cov
