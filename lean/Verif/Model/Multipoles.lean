import Mathlib.Data.List.Sort
import Mathlib.Data.List.Dedup
import Mathlib.Algebra.Order.Floor.Ring
import Mathlib.Analysis.SpecialFunctions.Pow.Real
import Mathlib.Analysis.SpecialFunctions.Log.Base
import Verif.Model.PyStr

/-!
Model of `seyfert/utils/array_utils.py`: set operations on multipole grids and multipole binning.
-/

namespace Seyfert.Ells

/-- The exceptions of the functions modelled here, by their kinds (`array_utils.py` L37-53). -/
inductive Err where
  | indexError | keyError | valueError | typeError | linAlg | multipole
  | nan  -- no exception: marks a result with NaN entries, which is outside the model
deriving DecidableEq

section sets
variable {K : Type} [LinearOrder K]

/-- `np.intersect1d(a, b)`: the sorted distinct values in both. For `array_utils.py` L5-13 (see `interArrays`). -/
def intersect1d (a b : List K) : List K := (a.filter (· ∈ b)).dedup.insertionSort (· ≤ ·)

/-- `np.union1d(a, b)`: the sorted distinct values in either. For `array_utils.py` L20-25 (see `unionArrays`). -/
def union1d (a b : List K) : List K := (a ++ b).dedup.insertionSort (· ≤ ·)

/-- `compute_arrays_intersection1d` (array_utils.py L5-13).  `arrays[0]` of an empty list raises. -/
def interArrays : List (List K) → Except Err (List K)
  | [] => .error .indexError
  | [a] => .ok a
  | a :: b :: rest => .ok ((b :: rest).foldl intersect1d (intersect1d a b))

/-- `compute_arrays_union1d` (array_utils.py L20-25).  `arrays[1]` raises for fewer than two. -/
def unionArrays : List (List K) → Except Err (List K)
  | a :: b :: rest => .ok ((b :: rest).foldl union1d (union1d a b))
  | _ => .error .indexError

end sets

/-- `(l_bin_edges[:-1] + l_bin_edges[1:]) / 2` (L41, L49). -/
noncomputable def centers (e : List ℝ) : List ℝ := List.zipWith (fun a b => (a + b) / 2) e e.tail

/-- `np.diff(l_bin_edges)` (L50). -/
noncomputable def widths (e : List ℝ) : List ℝ := List.zipWith (fun a b => b - a) e e.tail

/-- `np.arange(l_min, l_max + 1, step=1)` (L40): the number of values is the ceiling of the length. -/
noncomputable def linEdges (lmin lmax : ℝ) : List ℝ :=
  (List.range ⌈lmax + 1 - lmin⌉₊).map (fun k : ℕ => lmin + (k : ℝ))

/-- `np.logspace(np.log10(l_min), np.log10(l_max), num=n + 1, endpoint=True)` (L48).  For `num = 1`
numpy returns the start. -/
noncomputable def logEdges (lmin lmax : ℝ) (n : Nat) : List ℝ :=
  (List.range (n + 1)).map (fun k : ℕ => (10 : ℝ) ^ (Real.logb 10 lmin
    + k * ((Real.logb 10 lmax - Real.logb 10 lmin) / n)))

/-- The argument `n_ell`: missing, an integer or float `x` (used as `int(x)`), or another object.
For `seyfert/utils/array_utils.py` L34-55 (see `multipoles`). -/
inductive NEll where
  | missing
  | num (x : Int)
  | other

/-- `compute_multipoles_arrays` (L34-55): centres and widths.  Also returns the edges, which the code
keeps local, so that the properties can refer to them.  A negative number of edges is refused by
numpy.  Logarithms of numbers `≤ 0` (numpy: NaN or infinity with a warning) are outside the model. -/
noncomputable def multipoles (lmin lmax : ℝ) (spacing : Str) (nEll : NEll) :
    Except Err (List ℝ × List ℝ × List ℝ) :=
  if lmin ≥ lmax then .error .valueError
  else if spacing = "lin".toList ∨ spacing = "linear".toList ∨ spacing = "Linear".toList then
    let e := linEdges lmin lmax
    .ok (e, centers e, (centers e).map (fun _ => 1))
  else if spacing = "log".toList ∨ spacing = "logarithmic".toList
      ∨ spacing = "Logarithmic".toList then
    match nEll with
    | .missing => .error .valueError
    | .other => .error .typeError
    | .num x =>
      if x + 1 < 0 then .error .valueError
      else
        let e := if x + 1 = 0 then [] else logEdges lmin lmax x.toNat
        .ok (e, centers e, widths e)
  else .error .keyError

/-- `compute_ell_bin_widths_from_log_centers` (L28-31). -/
noncomputable def widthsFromLogCenters (c : List ℝ) : Except Err (List ℝ) :=
  match c with
  | c0 :: c1 :: _ =>
    let d := Real.logb 10 (c1 / c0)
    .ok (c.map (fun x => 2 * (((10 : ℝ) ^ d - 1) / ((10 : ℝ) ^ d + 1)) * x))
  | _ => .error .indexError

end Seyfert.Ells
