import Mathlib.Algebra.Order.Field.Basic
import Mathlib.Algebra.Field.Rat
import Mathlib.Algebra.Order.Ring.Rat
import Mathlib.Algebra.BigOperators.Group.Finset.Basic
import Mathlib.Data.Nat.Choose.Basic

/-!
Numerical helpers: `seyfert/numeric/integration.py` and `seyfert/numeric/general.py`. Floating point numbers are
elements of an arbitrary field (ordered where the code compares), so rounding is not in the model.
-/

namespace Seyfert.Numeric

open Finset

/-- The exceptions of the integration (`integration.py` L36-63). -/
inductive IntErr
  /-- `ValueError` for an order below one (`integration.py` L52-53). -/
  | badOrder
  /-- `IntegrationError` for an order above six (`integration.py` L55-57). -/
  | orderTooHigh
  /-- `Exception` for samples and abscissae of different lengths (`integration.py` L62-63). -/
  | lengths
  /-- `IndexError` of `x_deltas[0]` when there is no interval (`integration.py` L69). -/
  | noInterval
  deriving DecidableEq, Repr

section
variable {K : Type} [Field K]

/-- `scipy.integrate.newton_cotes(n, 1)[0]` for orders one to six: entry `j` of the weights. These are the tables in
SciPy. For `integration.py` L81-104 (see `doIntegrate`). -/
def ncWeight (n j : Nat) : K :=
  match n with
  | 1 => ([1, 1] : List K).getD j 0 / 2
  | 2 => ([1, 4, 1] : List K).getD j 0 / 3
  | 3 => 3 * ([1, 3, 3, 1] : List K).getD j 0 / 8
  | 4 => 2 * ([7, 32, 12, 32, 7] : List K).getD j 0 / 45
  | 5 => 5 * ([19, 75, 50, 50, 75, 19] : List K).getD j 0 / 288
  | 6 => ([41, 216, 27, 272, 27, 216, 41] : List K).getD j 0 / 140
  | _ => 0

/-- `doIntegrate` (`integration.py` L81-104) for `n` samples `y 0, ..., y (n - 1)` and spacing `dx`. -/
def doIntegrate (order n : Nat) (dx : K) (y : Nat → K) : K :=
  (∑ delta ∈ range (order + 1),
      dx * ∑ k ∈ range ((n - 1) / order), ncWeight order delta * y (order * k + delta)) +
    if (n - 1) % order ≠ 0 then
      dx * ∑ j ∈ range ((n - 1) % order + 1), ncWeight ((n - 1) % order) j * y (n - ((n - 1) % order + 1) + j)
    else 0

/-- `checkValid` and `computeIntegral` (`integration.py` L34-79), for an integer order and one-dimensional samples. The warning about
the spacing (`integration.py` L67-74) has no effect. -/
def computeIntegral (x y : List K) (order : Int) : Except IntErr K :=
  if order ≤ 0 then .error .badOrder
  else if 6 < order then .error .orderTooHigh
  else if y.length ≠ x.length then .error .lengths
  else if x.length < 2 then .error .noInterval
  else .ok (doIntegrate order.toNat x.length (x.getD 1 0 - x.getD 0 0) (fun i => y.getD i 0))

/-- `callable_stencil_derivative` (`general.py` L21-27). -/
def stencil (f : K → K) (x step : K) : K :=
  (-f (x + 2 * step) + 8 * f (x + 1 * step) - 8 * f (x - 1 * step) + f (x - 2 * step)) / (12 * step)

end

section
variable {K : Type} [Field K] [LinearOrder K]

/-- `np.clip((x - x_min) / (x_max - x_min), 0, 1)` (`general.py` L9). -/
def clip01 (t : K) : K := min (max t 0) 1

/-- The polynomial of `smoothstep` (`general.py` L10-13). -/
def smoothPoly (N : Nat) (t : K) : K :=
  (∑ n ∈ range (N + 1), ((N + n).choose n : K) * ((2 * N + 1).choose (N - n) : K) * (-t) ^ n) * t ^ (N + 1)

/-- `smoothstep` (`general.py` L7-14). -/
def smoothstep (x xmin xmax : K) (N : Nat) : K := smoothPoly N (clip01 ((x - xmin) / (xmax - xmin)))

/-- `top_hat_filter` (`general.py` L17-18). -/
def topHat (x R : K) : K := 1 - smoothstep x (9 / 10 * R) (11 / 10 * R) 3

/-- One entry of the factor of `applyVoidsCutToLimberPowerSpectrum` (`seyfert/cosmology/c_ells.py` L252-262). -/
def voidCut (k kcut width : K) : K := 1 - smoothstep k (kcut - width) (kcut + width) 3

/-- `pad` for arrays, one entry (`general.py` L31-36). -/
def padArr (x y : K) : K := if x + y ≠ 0 then 200 * |x - y| / |x + y| else 0

/-- `pad` for tables, one entry (`general.py` L47-49). -/
def padTab (x y : K) : K := 100 * (|x - y| / (if x + y ≠ 0 then (x + y) / 2 else 1))

/-- `np.all(pads < threshold)` (`seyfert/utils/run_loader.py` L382): whether a comparison is reported as passed. -/
def padsOk (pads : List K) (threshold : K) : Bool := pads.all (fun p => decide (p < threshold))

/-- `pad` of two tables (`general.py` L37-49): they are compared label by label; `none` is the exception for different labels.
A table is an association list from labels (row and column) to entries. -/
def padTables {L : Type} [DecidableEq L] (x y : List (L × K)) : Option (List (L × K)) :=
  if (∀ l ∈ x.map (·.1), l ∈ y.map (·.1)) ∧ (∀ l ∈ y.map (·.1), l ∈ x.map (·.1)) then
    some (x.map (fun q => (q.1, padTab q.2 ((y.lookup q.1).getD 0))))
  else none

end

end Seyfert.Numeric
