
import Mathlib.Data.List.FinRange
import Mathlib.Algebra.Field.Basic
import Mathlib.Data.Nat.Sqrt

/-!
Model of `seyfert/fisher/linalg_tools.py`.

A numpy array of shape `(n, m)` is an `Arr2 n m K`, a one dimensional array is a list.
Entries are elements of an arbitrary field `K` (floating point rounding is not modelled).
-/

namespace Seyfert.Linalg

/-- A two dimensional array of shape `(n, m)`. For `linalg_tools.py` L43-51 (see `vecp`). -/
abbrev Arr2 (n m : Nat) (K : Type*) := Fin n → Fin m → K

/-- Exceptions raised by the functions of `linalg_tools.py` (directly or through numpy).
For `linalg_tools.py` L5-18 (see `getEnumerationMap`). -/
inductive Err
  | notSquare      -- `raise Exception("Cannot ... not square ...")`
  | shapeMismatch  -- numpy `ValueError` when assigning or reshaping to an incompatible shape
  deriving DecidableEq, Repr

/-- `np.indices(shape)` followed by `ravel(order='F')` on both index arrays: all index pairs,
column after column (linalg_tools.py lines 12-14 and 22-24). -/
def colMajor (n m : Nat) : List (Fin n × Fin m) :=
  (List.finRange m).flatMap fun j => (List.finRange n).map fun i => (i, j)

/-- The same pairs in C order, the order of a plain `ravel()` (numpy default). For `linalg_tools.py` L77-80 (see `ravelC`). -/
def rowMajor (n m : Nat) : List (Fin n × Fin m) :=
  (List.finRange n).flatMap fun i => (List.finRange m).map fun j => (i, j)

/-- `_get_idxs_by(func, n)` (linalg_tools.py lines 21-28): boolean mask over the raveled indices. -/
def getIdxsBy (f : Nat → Nat → Bool) (n : Nat) : List (Fin n × Fin n) :=
  (colMajor n n).filter fun p => f p.1 p.2

/-- `triu_idxs_by_col` (linalg_tools.py lines 31-32). -/
def triuIdxsByCol (n : Nat) : List (Fin n × Fin n) :=
  getIdxsBy (fun x y => decide (x ≤ y)) n

/-- `tril_idxs_by_col` (linalg_tools.py lines 35-36). -/
def trilIdxsByCol (n : Nat) : List (Fin n × Fin n) :=
  getIdxsBy (fun x y => decide (y ≤ x)) n

/-- `diag_idxs` (linalg_tools.py lines 39-40). -/
def diagIdxs (n : Nat) : List (Fin n × Fin n) :=
  getIdxsBy (fun x y => decide (x = y)) n

/-- `get_enumeration_map(shape, symm)` (linalg_tools.py lines 5-18). The dictionary
`{(i, j): idx for idx, (i, j) in enumerate(zip(i, j))}` is the association list of its items.
Keys are plain numbers, as in Python. -/
def getEnumerationMap (nA nB : Nat) (symm : Bool) : Except Err (List ((Nat × Nat) × Nat)) :=
  if symm then
    if nA ≠ nB then .error .notSquare
    else .ok (((triuIdxsByCol nA).map fun p => (p.1.val, p.2.val)).zipIdx)
  else .ok (((colMajor nA nB).map fun p => (p.1.val, p.2.val)).zipIdx)

variable {K : Type*}

/-- Fancy indexing `A[i, j]` with two index arrays. For `linalg_tools.py` L43-51 (see `vecp`). -/
def fancy {n m : Nat} (A : Arr2 n m K) (idxs : List (Fin n × Fin m)) : List K :=
  idxs.map fun p => A p.1 p.2

/-- `vecp(A)` (linalg_tools.py lines 43-51). -/
def vecp {n m : Nat} (A : Arr2 n m K) : Except Err (List K) :=
  if h : n ≠ m then .error .notSquare
  else
    have e : n = m := Classical.byContradiction h
    .ok (fancy A ((triuIdxsByCol n).map fun p => (p.1, e ▸ p.2)))

/-- `vec(A)` (linalg_tools.py lines 67-68). -/
def vec {n m : Nat} (A : Arr2 n m K) : List K :=
  fancy A (colMajor n m)

/-- `A.ravel()`, C order. For `linalg_tools.py` L77-80 (see `duplicationMatrix`). -/
def ravelC {n m : Nat} (A : Arr2 n m K) : List K :=
  fancy A (rowMajor n m)

/-- The size computed by `int(0.5 * (np.sqrt(1 + 8*len(v)) - 1))` (linalg_tools.py line 55),
with exact square roots. `int` of a nonnegative real is its floor, and
`floor((sqrt(8 k + 1) - 1) / 2) = (floor(sqrt(8 k + 1)) - 1) / 2`. -/
def triangularRoot (k : Nat) : Nat := (Nat.sqrt (1 + 8 * k) - 1) / 2

/-- Assignment `result[i, j] = v` into a zero matrix for index arrays without repetition:
the entry of a listed pair is the value at the same place of `v`, all others stay zero
(linalg_tools.py lines 57-59). -/
def assignZeros {n m : Nat} [Zero K] (idxs : List (Fin n × Fin m)) (v : List K) :
    Arr2 n m K :=
  fun i j => match (idxs.zip v).lookup (i, j) with
    | some x => x
    | none => 0

/-- `unvecp(v)` (linalg_tools.py lines 54-64). numpy refuses the assignment unless the number of
values equals the number of index pairs (a single value would be broadcast, but length one gives
`p = 1`, where both counts are one). -/
def unvecp [Field K] (v : List K) : Except Err (Σ p, Arr2 p p K) :=
  let p := triangularRoot v.length
  let idxs := triuIdxsByCol p
  if idxs.length ≠ v.length then .error .shapeMismatch
  else
    let result := assignZeros idxs v
    let result2 : Arr2 p p K := fun i j => result i j + result j i
    .ok ⟨p, fun i j => if (i, j) ∈ diagIdxs p then result2 i j / 2 else result2 i j⟩

/-- `unvec(v)` (linalg_tools.py lines 71-74): `n = int(np.sqrt(len(v)))` and
`v.reshape((n, n), order='F')`, which numpy refuses unless `n * n = len(v)`; entry `(i, j)` of the
reshaped array is the value at the place of `(i, j)` in column order. -/
def unvec [Zero K] (v : List K) : Except Err (Σ n, Arr2 n n K) :=
  let n := Nat.sqrt v.length
  if n * n ≠ v.length then .error .shapeMismatch
  else .ok ⟨n, assignZeros (colMajor n n) v⟩

/-- Row `k` of `np.eye(N)`. For `linalg_tools.py` L93-97 (see `commutationMatrix`). -/
def eyeRow [Zero K] [One K] (N k : Nat) : List K :=
  (List.range N).map fun c => if c = k then 1 else 0

/-- `np.eye(N)` as a list of rows. For `linalg_tools.py` L77-80 (see `duplicationMatrix`). -/
def eye [Zero K] [One K] (N : Nat) : List (List K) := (List.range N).map (eyeRow N)

/-- Dot product of one dimensional arrays, to apply the matrices of linalg_tools.py lines 77-97. -/
def dot [Zero K] [Add K] [Mul K] (a b : List K) : K := (List.zipWith (· * ·) a b).sum

/-- `M @ v` for a two dimensional array given by its rows, to apply the matrices of linalg_tools.py lines 77-97. -/
def matVec [Zero K] [Add K] [Mul K] (M : List (List K)) (v : List K) : List K :=
  M.map fun r => dot r v

/-- Transposed two dimensional array of `r` rows of length `N`; `d` is never used on such arrays.
For `linalg_tools.py` L77-80 (see `duplicationMatrix`). -/
def transposeRows (d : K) (N : Nat) (M : List (List K)) : List (List K) :=
  (List.range N).map fun r => M.map fun row => row.getD r d

/-- `duplication_matrix(n)` (linalg_tools.py lines 77-80). The rows `unvecp(x).ravel()` all have
`n * n` entries. `unvecp` is defined on every row of the identity because its length is triangular. -/
def duplicationMatrix (K : Type*) [Field K] (n : Nat) : Except Err (List (List K)) :=
  match (eye (K := K) (n * (n + 1) / 2)).mapM unvecp with
  | .error e => .error e
  | .ok ms => .ok (transposeRows 0 (n * n) (ms.map fun M => ravelC M.2))

/-- `np.triu(np.ones((n, n)))`. For `linalg_tools.py` L83-86 (see `eliminationMatrix`). -/
def triuOnes (K : Type*) [Zero K] [One K] (n : Nat) : Arr2 n n K :=
  fun i j => if i.val ≤ j.val then 1 else 0

/-- `elimination_matrix(n)` (linalg_tools.py lines 83-86): rows of the identity selected by the
boolean mask `vec(triu(ones)) != 0`. -/
def eliminationMatrix (K : Type*) [Field K] [DecidableEq K] (n : Nat) : List (List K) :=
  (((eye (K := K) (n * n)).zip (vec (triuOnes K n))).filter fun p => p.2 ≠ 0).map (·.1)

/-- `np.arange(p * q).reshape((p, q), order='F')` (linalg_tools.py line 95). -/
def fOrderIndices (p q : Nat) : Arr2 p q Nat := fun i j => i.val + p * j.val

/-- `commutation_matrix(p, q)` (linalg_tools.py lines 93-97): rows of the identity taken in the
order `indices.ravel()`. `take` raises on an index out of range; none is. -/
def commutationMatrix (K : Type*) [Field K] (p q : Nat) : List (List K) :=
  (ravelC (fOrderIndices p q)).map fun k => eyeRow (p * q) k

end Seyfert.Linalg
