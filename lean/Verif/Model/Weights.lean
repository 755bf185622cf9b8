import Verif.Model.Kernel
import Mathlib.Algebra.Order.Field.Basic
import Mathlib.Algebra.BigOperators.Group.Finset.Basic

/-!
Weight functions (`cosmology/weight_functions.py`) and the rule of Simpson that they use.  Arrays are functions of
the index with their length beside them; numbers are elements of a field.
-/

namespace Seyfert.Weights

open Finset

/-- The exceptions of the functions modelled here, by their kinds (`weight_functions.py` L24-292). -/
inductive Err where
  | typeError | valueError | keyError | attributeError | notImplemented
deriving DecidableEq

section
variable {K : Type} [Field K]

/-! ### Simpson's rule -/

/-- One summand of `_basic_simpson` of SciPy for abscissae that need not be equally spaced.
For `weight_functions.py` L161-166 (see `basicSimps`). -/
def simpsTerm (x y : Nat → K) (k : Nat) : K :=
  (x (k + 2) - x k) / 6 *
    (y k * (2 - (x (k + 2) - x (k + 1)) / (x (k + 1) - x k)) +
      y (k + 1) * ((x (k + 2) - x k) ^ 2 / ((x (k + 1) - x k) * (x (k + 2) - x (k + 1)))) +
      y (k + 2) * (2 - (x (k + 1) - x k) / (x (k + 2) - x (k + 1))))

/-- `_basic_simpson` of SciPy: `m` pairs of intervals from the point `s` on. For `weight_functions.py` L161-166 (see `simps`). -/
def basicSimps (x y : Nat → K) (s m : Nat) : K := ∑ j ∈ range m, simpsTerm x y (s + 2 * j)

/-- The trapezoidal rule on one interval. For `weight_functions.py` L161-166 (see `simps`). -/
def trap (x y : Nat → K) (k : Nat) : K := (x (k + 1) - x k) * (y (k + 1) + y k) / 2

/-- `scipy.integrate.simps(y, x)` for `n` points, with the treatment of an even number of points that was the
default while the function had this name: the mean of two rules, each with one trapezoid at an end.
For `weight_functions.py` L161-166 (see `simpsFrom`). -/
def simps (x y : Nat → K) (n : Nat) : K :=
  if n % 2 = 1 then basicSimps x y 0 ((n - 1) / 2)
  else (basicSimps x y 0 ((n - 2) / 2) + basicSimps x y 1 ((n - 2) / 2) + (trap x y (n - 2) + trap x y 0)) / 2

/-- The rule on the points from `s` on: the slices `[s:]`. For `weight_functions.py` L161-166 (see `efficiency`). -/
def simpsFrom (x y : Nat → K) (n s : Nat) : K := simps (fun k => x (s + k)) (fun k => y (s + k)) (n - s)

/-! ### Lensing -/

/-- `computeLensingEfficiencyAtBin` on the grid with the method "simpson", weight_functions.py L161-166: `z` the
grid of `n` points, `r` the distances, `dens` the density of the bin.  At a redshift of zero, where the distance
is zero, the code gives a value that is not a number; the statements about signs ask for positive distances. -/
def efficiency (z r dens : Nat → K) (n s : Nat) : K := simpsFrom z (fun k => dens k * (1 - r s / r k)) n s

/-- What the weight of lensing is made of besides the density: all from the cosmology on the grid; `ia` is the
factor of the density in `computeIntrinsicAlignmentContribution`, `none` when `include_IA` is not set.
For `weight_functions.py` L209-217 (see `lensing`). -/
structure LensCosmo (K : Type) where
  Omm : K
  H0 : K
  c : K
  rTilde : Nat → K
  ia : Option (Nat → K)

/-- The factor of the density in `computeIntrinsicAlignmentContribution`, weight_functions.py L183-200; `F` is
`(1 + z) ** etaIA * L(z) ** betaIA`. -/
def iaFactor (aIA cIA Omm c : K) (F H D : Nat → K) (k : Nat) : K :=
  aIA * cIA * F k * Omm * H k / (D k * c)

/-- `LensingWeightFunction.evaluateOverRedshiftGrid` for one bin, weight_functions.py L209-217. -/
def lensing (co : LensCosmo K) (z r dens : Nat → K) (n s : Nat) : K :=
  3 / 2 * co.Omm * (1 + z s) * (co.H0 / co.c) * co.rTilde s * efficiency z r dens n s -
    match co.ia with
    | none => 0
    | some f => f s * dens s

/-- The argument of `computeLensingEfficiencyAtBin`. For `weight_functions.py` L145-181 (see `efficiencyCall`). -/
inductive Arg where
  | float | array | other
deriving DecidableEq

/-- Which calls of `computeLensingEfficiencyAtBin` return, weight_functions.py L145-181: with "simpson" a float is
subscripted. -/
def efficiencyCall (method : Str) (a : Arg) : Except Err Unit :=
  if method = "quad".toList then
    match a with
    | .float | .array => .ok ()
    | .other => .error .typeError
  else if method = "simpson".toList then
    match a with
    | .array => .ok ()
    | .float | .other => .error .typeError
  else .error .valueError

/-! ### Galaxies and voids -/

/-- `WeightFunctionWithBias.evaluateOverRedshiftGrid` for one bin, weight_functions.py L245-249. -/
def density (H : Nat → K) (c : K) (dens b : Nat → K) (k : Nat) : K := H k / c * dens k * b k

end

/-! ### Bias of a weight function -/

/-- The kind of a weight function with bias. For `weight_functions.py` L232-243 and L258-265 (see `setupBias`). -/
inductive Kind where
  | galaxy | void
deriving DecidableEq

/-- `setupBias`, weight_functions.py L232-243 and L258-265, and the model that `evaluateBias` then uses
(bias.py L97-99): `names` are the parameters in the bias file, `pars` the nuisance parameters given; the result has
the values of the parameters in the order of the file. -/
def setupBias {K : Type} (kind : Kind) (model : Str) (names : List Str) (pars : Option (List (Str × K))) :
    Except Err (List (Str × K)) :=
  match pars with
  | none => if names = [] then finish [] else .error .typeError
  | some p =>
    match names.mapM fun n => (p.lookup n).map fun v => (n, v) with
    | none => .error .keyError
    | some l => finish l
where
  finish (l : List (Str × K)) : Except Err (List (Str × K)) :=
    match kind with
    | .galaxy =>
      if model = "piecewise".toList ∨ model = "constant".toList ∨ model = "euclid_flagship_photo".toList then .ok l
      else .error .attributeError
    | .void =>
      if model = "vdn_void".toList ∨ model = "fiducial_growth_void".toList then .ok l else .error .notImplemented

/-! ### State -/

/-- The part of a weight function that is kept between evaluations: the grid and values of its density, its own
grid. For `weight_functions.py` L116-121 (see `evalDensity`). -/
structure State (G V : Type) where
  densGrid : Option (G × V)
  grid : Option G

/-- The beginning of `evaluateOverRedshiftGrid`, weight_functions.py L116-121; the density is set up. -/
def evalDensity {G V : Type} (f : G → V) (s : State G V) (g : G) : State G V :=
  { grid := some g, densGrid := some (s.densGrid.getD (g, f g)) }

end Seyfert.Weights
