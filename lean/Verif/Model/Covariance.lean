import Verif.Model.Multipoles
import Verif.Model.Linalg

/-!
Model of the covariance of a data vector (`fisher/fisher_evaluator.py` L32-113).

Probes are elements of a type `P`, a probe pair key is an ordered pair.  That looking up a pair by any
notation finds the stored pair, or the transpose of the reversed one, is the subject of
`Model/Keys.lean`; here the containers `SmartKeyDict` and `ClSmartKeyDict` are used at the level of
probe pairs.
-/

namespace Seyfert.Cov

open Ells

variable {P K : Type} [DecidableEq P] [Field K] [LinearOrder K]

/-- A stack of matrices over a multipole grid: an array of shape `(len(arr), n, m)` and the grid that
goes with it. For `shortcuts.py` L266 (see `Tomo.T`). -/
structure Tomo (K : Type) where
  ells : List K
  n : Nat
  m : Nat
  arr : List (Nat → Nat → K)

/-- `np.transpose(X, axes=(0, 2, 1))` (shortcuts.py L266, fisher_evaluator.py L77). -/
def Tomo.T (t : Tomo K) : Tomo K := ⟨t.ells, t.m, t.n, t.arr.map (fun f i j => f j i)⟩

/-- The dictionaries `ell_dict` and `delta_c_lij_array_dict` of the stored blocks (delta_cl.py
L156-165). -/
abbrev Store (P K : Type) := List ((P × P) × Tomo K)

/-- `smart_ells[(a, b)]` and `smart_delta_cls[(a, b)]` (shortcuts.py L253-266): the stored block, or
the transpose of the block stored under the reversed pair. -/
def Store.get (s : Store P K) (a b : P) : Except Err (Tomo K) :=
  match s.lookup (a, b) with
  | some t => .ok t
  | none =>
    match s.lookup (b, a) with
    | some t => .ok t.T
    | none => .error .keyError

/-- `block[np.isin(grid, ells)]` (L37-38): numpy refuses a mask of another length. -/
def maskArr (grid ells : List K) (arr : List (Nat → Nat → K)) :
    Except Err (List (Nat → Nat → K)) :=
  if grid.length = arr.length then
    .ok (((grid.zip arr).filter (fun p => decide (p.1 ∈ ells))).map (·.2))
  else .error .indexError

/-- The items of a dictionary written as a list of assignments, the latest first: one item per key.
The order of the items does not matter where this is used. For `fisher/fisher_evaluator.py` L32-40 (see `commonElls`). -/
def dictOf {A B : Type} [DecidableEq A] : List (A × B) → List (A × B)
  | [] => []
  | x :: l => x :: (dictOf l).filter (fun y => decide (y.1 ≠ x.1))

/-- `mask_cl_blocks_to_common_ells(l_dict, cl_dict)` (L32-40) for a dictionary of blocks. -/
def commonElls {A : Type} [DecidableEq A] (d : List (A × Tomo K)) : Except Err (List K) :=
  interArrays ((dictOf d).map (fun p => p.2.ells))

/-- The entry of an array at a multipole index, zero outside. For `fisher/fisher_evaluator.py` L106-109 (see `covArr`). -/
def entryAt (arr : List (Nat → Nat → K)) (l i j : Nat) : K :=
  match arr[l]? with
  | some f => f i j
  | none => 0

/-- The pair enumerated as number `r`. For `fisher/fisher_evaluator.py` L106-109 (see `covArr`). -/
def unenum (e : List ((Nat × Nat) × Nat)) (r : Nat) : Option (Nat × Nat) :=
  (e.find? (fun p => decide (p.2 = r))).map (·.1)

/-- The values of the double loop at L106-109, multiplied by `1 / (2 * ells + 1)` (L111); places that
no pair of bins is enumerated as stay zero. -/
def covArr (ells : List K) (eAB eCD : List ((Nat × Nat) × Nat))
    (mAC mBD mAD mBC : List (Nat → Nat → K)) : List (Nat → Nat → K) :=
  ells.zipIdx.map (fun q row col =>
    match unenum eAB row, unenum eCD col with
    | some (i, j), some (k, m) =>
      (entryAt mAC q.2 i k * entryAt mBD q.2 j m + entryAt mAD q.2 i m * entryAt mBC q.2 j k)
        * (1 / (2 * q.1 + 1))
    | _, _ => 0)

/-- Whether all the bins visited by the loop exist in the arrays; numpy raises `IndexError` if not.
For `fisher/fisher_evaluator.py` L84-113 (see `covBlockFrom`). -/
def binsExist (eAB eCD : List ((Nat × Nat) × Nat)) (tAC tBD tAD tBC : Tomo K) : Prop :=
  ∀ x ∈ eAB, ∀ y ∈ eCD, (x.1.1 < tAC.n ∧ y.1.1 < tAC.m) ∧ (x.1.2 < tBD.n ∧ y.1.2 < tBD.m) ∧
    (x.1.1 < tAD.n ∧ y.1.2 < tAD.m) ∧ (x.1.2 < tBC.n ∧ y.1.1 < tBC.m)

instance (eAB eCD : List ((Nat × Nat) × Nat)) (tAC tBD tAD tBC : Tomo K) :
    Decidable (binsExist eAB eCD tAC tBD tAD tBC) := by unfold binsExist; infer_instance

/-- Errors of `linalg_tools` seen from here. For `fisher/fisher_evaluator.py` L84-113 (see `covBlockFrom`). -/
def liftLinalg {A : Type} : Except Linalg.Err A → Except Err A
  | .ok a => .ok a
  | .error _ => .error .valueError

/-- `computeCovBlock` (L84-113) once the four spectra, the common grid and the masked arrays are
there. -/
def covBlockFrom (s : Store P K) (A B C D : P) (tAC tBD tAD tBC : Tomo K) (ells : List K)
    (mAC mBD mAD mBC : List (Nat → Nat → K)) : Except Err (Tomo K) :=
  match s.get A B, s.get C D with
  | .error e, _ => .error e
  | _, .error e => .error e
  | .ok tAB, .ok tCD =>
    match liftLinalg (Linalg.getEnumerationMap tAB.n tAB.m (decide (A = B))),
      liftLinalg (Linalg.getEnumerationMap tCD.n tCD.m (decide (C = D))) with
    | .error e, _ => .error e
    | _, .error e => .error e
    | .ok eAB, .ok eCD =>
      if ¬ binsExist eAB eCD tAC tBD tAD tBC then .error .indexError
      else if mAC.length = ells.length ∧ mBD.length = ells.length ∧ mAD.length = ells.length ∧
          mBC.length = ells.length then
        .ok ⟨ells, eAB.length, eCD.length, covArr ells eAB eCD mAC mBD mAD mBC⟩
      else .error .valueError

/-- `computeCovBlock` (L84-113): the block with its grid. -/
def covBlock (s : Store P K) (AB CD : P × P) : Except Err (Tomo K) :=
  match s.get AB.1 CD.1, s.get AB.2 CD.2, s.get AB.1 CD.2, s.get AB.2 CD.1 with
  | .error e, _, _, _ => .error e
  | _, .error e, _, _ => .error e
  | _, _, .error e, _ => .error e
  | _, _, _, .error e => .error e
  | .ok tAC, .ok tBD, .ok tAD, .ok tBC =>
    match commonElls [((AB.1, CD.1), tAC), ((AB.2, CD.2), tBD), ((AB.1, CD.2), tAD),
      ((AB.2, CD.1), tBC)] with
    | .error e => .error e
    | .ok ells =>
      match maskArr tAC.ells ells tAC.arr, maskArr tBD.ells ells tBD.arr,
        maskArr tAD.ells ells tAD.arr, maskArr tBC.ells ells tBC.arr with
      | .error e, _, _, _ => .error e
      | _, .error e, _, _ => .error e
      | _, _, .error e, _ => .error e
      | _, _, _, .error e => .error e
      | .ok mAC, .ok mBD, .ok mAD, .ok mBC =>
        covBlockFrom s AB.1 AB.2 CD.1 CD.2 tAC tBD tAD tBC ells mAC mBD mAD mBC

/-- The dictionaries `ell_blocks` and `cov_blocks` (L47-48). -/
abbrev Blocks (P K : Type) := List (((P × P) × (P × P)) × Tomo K)

/-- Assignment `d[key] = value`. For `fisher/fisher_evaluator.py` L71-77 (see `evalStep`). -/
def Blocks.set (d : Blocks P K) (k : (P × P) × (P × P)) (t : Tomo K) : Blocks P K :=
  (k, t) :: d

/-- One step of the double loop of `evaluateAllBlocks` (L71-77). -/
def evalStep (s : Store P K) (d : Blocks P K) (AB CD : P × P) (upper : Bool) :
    Except Err (Blocks P K) :=
  if upper then
    match covBlock s AB CD with
    | .error e => .error e
    | .ok t => .ok (d.set (AB, CD) t)
  else
    match d.lookup (CD, AB) with
    | some t => .ok (d.set (AB, CD) t.T)
    | none => .error .keyError

/-- The pairs visited by the double loop with `row <= col` (L69-71). -/
def tasks (dv : List (P × P)) : List ((P × P) × (P × P) × Bool) :=
  dv.zipIdx.flatMap (fun x => dv.zipIdx.map (fun y => (x.1, y.1, decide (x.2 ≤ y.2))))

/-- The loop over tasks. For `fisher/fisher_evaluator.py` L66-77 (see `evalAllBlocks`). -/
def evalLoop (s : Store P K) : Blocks P K → List ((P × P) × (P × P) × Bool) →
    Except Err (Blocks P K)
  | d, [] => .ok d
  | d, (AB, CD, u) :: rest =>
    match evalStep s d AB CD u with
    | .error e => .error e
    | .ok d' => evalLoop s d' rest

/-- `evaluateAllBlocks` (L66-77). -/
def evalAllBlocks (s : Store P K) (dv : List (P × P)) : Except Err (Blocks P K) :=
  evalLoop s [] (tasks dv)

/-- A covariance matrix at every multipole: `matrix` and `common_ells`.
For `fisher/fisher_evaluator.py` L55-64 (see `buildMatrix`). -/
structure CovMat (K : Type) where
  ells : List K
  size : Nat
  arr : List (Nat → Nat → K)

/-- Which block a row of a block matrix lies in, and the row inside.
For `fisher/fisher_evaluator.py` L64 (see `npBlockEntry`). -/
def locate : List Nat → Nat → Option (Nat × Nat)
  | [], _ => none
  | h :: hs, r => if r < h then some (0, r) else (locate hs (r - h)).map (fun p => (p.1 + 1, p.2))

/-- Reading all blocks of a data vector row by row; a missing one raises (L57-62). -/
def gather (d : Blocks P K) (dv : List (P × P)) : Except Err (List (List (Tomo K))) :=
  dv.mapM (fun AB => dv.mapM (fun CD =>
    match d.lookup (AB, CD) with
    | some t => .ok t
    | none => .error .keyError))

/-- Masking of all blocks to the common multipoles (L79-82). -/
def maskBlocks (ells : List K) : Blocks P K → Except Err (Blocks P K)
  | [] => .ok []
  | (k, t) :: d =>
    match maskArr t.ells ells t.arr, maskBlocks ells d with
    | .error e, _ => .error e
    | _, .error e => .error e
    | .ok a, .ok d' => .ok ((k, ⟨ells, t.n, t.m, a⟩) :: d')

/-- Heights of the block rows, widths of the block columns, as `np.block` sees them.
For `fisher/fisher_evaluator.py` L64 (see `npBlockEntry`). -/
def heights (rows : List (List (Tomo K))) : List Nat :=
  rows.map (fun r => (r.head?.map (·.n)).getD 0)
/-- Widths of the block columns, from the first row (`fisher_evaluator.py` L60-113). -/
def blockWidths (rows : List (List (Tomo K))) : List Nat :=
  (rows.head?.getD []).map (·.m)

/-- The condition under which `np.block` accepts the rows: one number of multipoles, one height per
row, one width per column. For `fisher/fisher_evaluator.py` L55-64 (see `buildMatrix`). -/
def blockOk (L : Nat) (rows : List (List (Tomo K))) : Prop :=
  ∀ r ∈ rows, (∀ t ∈ r, t.arr.length = L ∧ t.n = (r.head?.map (·.n)).getD 0) ∧
    r.map (·.m) = blockWidths rows

instance (L : Nat) (rows : List (List (Tomo K))) : Decidable (blockOk L rows) := by
  unfold blockOk; infer_instance

/-- The block at a place. For `fisher/fisher_evaluator.py` L64 (see `npBlockEntry`). -/
def blockAt (rows : List (List (Tomo K))) (r c : Nat) : Option (Tomo K) :=
  (rows[r]?).bind (fun l => l[c]?)

/-- `np.block(rows)` (L64) at the multipole with index `l`. -/
def npBlockEntry (rows : List (List (Tomo K))) (l R C : Nat) : K :=
  match locate (heights rows) R, locate (blockWidths rows) C with
  | some (a, i), some (b, j) =>
    match blockAt rows a b with
    | some t => entryAt t.arr l i j
    | none => 0
  | _, _ => 0

/-- `buildMatrix` (L55-64).  `np.block` of an empty list raises.  Blocks that agree with each other in
the number of multipoles but not with the grid, which needs a grid with repeated multipoles, are
treated as an error too. -/
def buildMatrix (ells : List K) (d : Blocks P K) (dv : List (P × P)) : Except Err (CovMat K) :=
  match gather d dv with
  | .error e => .error e
  | .ok rows =>
    if rows = [] then .error .valueError
    else if blockOk ells.length rows then
      .ok ⟨ells, (heights rows).sum,
        (List.range ells.length).map (fun l R C => npBlockEntry rows l R C)⟩
    else .error .valueError

/-- The first three steps of `buildAndInvertCovarianceMatrix` (L235-239). -/
def covariance (s : Store P K) (dv : List (P × P)) : Except Err (CovMat K) :=
  match evalAllBlocks s dv with
  | .error e => .error e
  | .ok d =>
    match commonElls d with
    | .error e => .error e
    | .ok ells =>
      match maskBlocks ells d with
      | .error e => .error e
      | .ok d' => buildMatrix ells d' dv

end Seyfert.Cov
