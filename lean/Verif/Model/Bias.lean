import Verif.Model.Redshift
import Verif.Model.Weights
import Verif.Model.Numeric
import Mathlib.Analysis.SpecialFunctions.Exp
import Mathlib.Analysis.SpecialFunctions.Sqrt
import Mathlib.Analysis.SpecialFunctions.Trigonometric.Basic

/-!
Bias of galaxies and voids: `seyfert/cosmology/bias.py`, with the variance of the filtered matter density of
`seyfert/cosmology/cosmology.py` L320-355. Numbers are real numbers. The spline through the points of a grid
(`InterpolatedUnivariateSpline`, with `k=3`) is a parameter: a function of the abscissae, the ordinates and the place.
That SciPy refuses grids of fewer than four points is not modelled.
-/

noncomputable section

namespace Seyfert.Bias

/-- The exceptions of the functions modelled here, by their kinds (`bias.py` L81-94, L197, L225, L272, L313). -/
inductive Err
  | biasError
  | keyError
  | indexError
  | typeError
  | attributeError
  deriving DecidableEq, Repr

/-! ### The choice of the model -/

/-- The classes of models (L190-283). -/
inductive Kind
  | piecewise
  | constant
  | flagship
  | vdn
  | growth
  deriving DecidableEq, Repr

/-- `initBiasModel` (L64-94): the model and the cosmology that it is given. `cosmology` and `fiducial` are the keyword
arguments, `none` if absent. -/
def initModel {C : Type} (name : Str) (cosmology fiducial : Option C) : Except Err (Kind × Option C) :=
  if name = "piecewise".toList then .ok (.piecewise, none)
  else if name = "constant".toList then .ok (.constant, none)
  else if name = "euclid_flagship_photo".toList then .ok (.flagship, none)
  else if name = "vdn_void".toList then
    match cosmology with
    | none => .error .biasError
    | some c => .ok (.vdn, some c)
  else if name = "fiducial_growth_void".toList then
    match fiducial with
    | none => .error .biasError
    | some c => .ok (.growth, some c)
  else .error .keyError

/-- `z_bin_centers` (L174-176). -/
def centers (edges : List ℝ) : List ℝ := (Redshift.bins edges).map fun b => (b.1 + b.2) / 2

/-- `np.repeat(b_i[:, np.newaxis], n, axis=1)`: one row of `n` equal entries for each value. For L266-280 (see `growthBias`). -/
def columns (b : List ℝ) (n : Nat) : List (List ℝ) := b.map fun v => List.replicate n v

/-! ### Galaxies of the flagship simulation -/

/-- The formula of L260. -/
def flagship (A B C D z : ℝ) : ℝ := A + B / (1 + Real.exp (-C * (z - D)))

/-- `EuclidFlagshipGCphBias.computeBias` (L239-263), for at least one edge. -/
def flagshipBias (edges : List ℝ) (pars : List (Str × ℝ)) (grid : List ℝ) : Except Err (List (List ℝ)) :=
  match pars.lookup "Aph".toList, pars.lookup "Bph".toList, pars.lookup "Cph".toList, pars.lookup "Dph".toList with
  | some A, some B, some C, some D => .ok (List.replicate (edges.length - 1) (grid.map (flagship A B C D)))
  | _, _, _, _ => .error .keyError

/-! ### The cosmology that the models for voids use -/

/-- What is read of a cosmology: its grid of redshifts, the growth factor on it, the grid of `nk` wave numbers and the
linear power spectrum at the first redshift. For `cosmology.py` L336-355 (see `computeSigmaR`). -/
structure Cosmo where
  grid : List ℝ
  growth : List ℝ
  nk : Nat
  k : Nat → ℝ
  plin : Nat → ℝ

/-- `sigmaR` (`cosmology.py` L320-334). -/
def sigmaR (k plin : Nat → ℝ) (nk : Nat) (R : ℝ) : ℝ :=
  Real.sqrt (Weights.simps k (fun i => k i ^ 2 * plin i * Numeric.topHat (k i) (1 / R) ^ 2 / (2 * Real.pi ^ 2)) nk)

/-- The kind of the argument of `computeSigmaR`. For `cosmology.py` L336-355 (see `computeSigmaR`). -/
inductive Radius
  | number (R : ℝ)
  | array (R : List ℝ)
  | other

/-- `computeSigmaR` (`cosmology.py` L336-355); a number gives a list of one value. -/
def computeSigmaR (c : Cosmo) : Radius → Except Err (List ℝ)
  | .number R => .ok [sigmaR c.k c.plin c.nk R]
  | .array R => .ok (R.map (sigmaR c.k c.plin c.nk))
  | .other => .error .typeError

/-! ### Voids: the growth factor of the fiducial cosmology -/

/-- `InterpolatedUnivariateSpline(x, y, k=3)` (`bias.py` L266-280), any function of the points and the abscissa. -/
abbrev Spline := List ℝ → List ℝ → ℝ → ℝ

/-- `FiducialGrowthVoidBias.computeBias` (L266-280). The comparison of grids of different lengths counts as a difference; the
comparison with a grid of one point, which NumPy broadcasts, is not modelled. -/
def growthBias (spline : Spline) (c : Cosmo) (edges : List ℝ) (pars : List (Str × ℝ)) (grid : List ℝ) :
    Except Err (List (List ℝ)) :=
  if grid = c.grid then
    match pars.lookup "voidbias0".toList with
    | none => .error .keyError
    | some v => .ok (columns ((centers edges).map (spline grid (c.growth.map fun g => v / g))) grid.length)
  else .error .biasError

/-! ### Voids: volume conserving size function -/

/-- `D` (L319). -/
def ratio (dv dc : ℝ) : ℝ := |dv| / (|dv| + dc)

/-- `x` (L320). -/
def xOf (dv dc s : ℝ) : ℝ := ratio dv dc / |dv| * s

/-- `nu` (L321). -/
def nuOf (dv s : ℝ) : ℝ := |dv| / s

/-- `void_bias_R_z` (L323). -/
def voidBias (dv dc s : ℝ) : ℝ :=
  1 + (nuOf dv s ^ 2 - 1) / dv + dv * ratio dv dc / (4 * dc ^ 2 * nuOf dv s ^ 2)

/-- `voidMultiplicity` (L356-365). -/
def multiplicity (dv D s x : ℝ) : ℝ :=
  if x ≤ 276 / 1000 then
    Real.sqrt (2 / Real.pi) * (|dv| / s) * Real.exp (-dv ^ 2 / (2 * s ^ 2))
  else
    (∑ j ∈ Finset.range 4, ((j + 1 : ℕ) : ℝ) * Real.pi * x ^ 2 * Real.sin (((j + 1 : ℕ) : ℝ) * Real.pi * D) *
      Real.exp (-(((j + 1 : ℕ) : ℝ) * Real.pi * x) ^ 2 / 2)) * 2

/-- The factor of the size function that depends on the radius alone (L339-352); `step` is the step of the radii. The
radius in linear theory is the radius divided by 1.7. -/
def radiusFactor (sig : ℝ → ℝ) (step R : ℝ) : ℝ :=
  1 / (R * (4 * Real.pi * R ^ 3 / 3)) *
    (-(R / (17 / 10) / sig (R / (17 / 10))) * Numeric.stencil sig (R / (17 / 10)) (1 / 2 * step))

/-- `computeVdnSizeFunction` (L337-354), one entry. -/
def sizeFunction (sig : ℝ → ℝ) (step dv dc R : ℝ) : ℝ :=
  multiplicity dv (ratio dv dc) (sig R) (xOf dv dc (sig R)) * radiusFactor sig step R

/-- `np.linspace(a, b, n)`, entry `i`, for at least two points. For L328-330 (see `meanBias`). -/
def linspace (a b : ℝ) (n i : Nat) : ℝ := a + i * ((b - a) / (n - 1 : ℕ))

/-- The mean of the bias over the radii at one redshift (L328-330). -/
def meanBias (sig : ℝ → ℝ) (a b : ℝ) (n : Nat) (dv dc : ℝ) : ℝ :=
  let R := linspace a b n
  let w := fun i => sizeFunction sig (R 1 / (17 / 10) - R 0 / (17 / 10)) dv dc (R i)
  Weights.simps R (fun i => voidBias dv dc (sig (R i)) * w i) n / Weights.simps R w n

/-- `int(x)` of a number that is not negative. For L283-335 (see `vdnBias`). -/
def toCount (x : ℝ) : Nat := ⌊x⌋₊

/-- `VdnVoidBias.computeBias` (L283-335): `add` are the additional parameters. With one radius the step of the grid is out of
range (L340). The nuisance parameters are not read. -/
def vdnBias (spline : Spline) (c : Cosmo) (edges : List ℝ) (add : List (Str × ℝ)) (grid : List ℝ) :
    Except Err (List (List ℝ)) :=
  if grid = c.grid then
    match add.lookup "R_min_Mpc".toList, add.lookup "R_max_Mpc".toList, add.lookup "R_grid_size".toList,
      add.lookup "delta_c0".toList, add.lookup "delta_v0".toList with
    | some a, some b, some n, some dc0, some dv0 =>
      if toCount n ≤ 1 then .error .indexError
      else .ok (columns ((centers edges).map (spline c.grid (c.growth.map fun g =>
        meanBias (sigmaR c.k c.plin c.nk) a b (toCount n) (dv0 / g) (dc0 / g)))) c.grid.length)
    | _, _, _, _, _ => .error .keyError
  else .error .biasError

/-! ### The whole -/

/-- The state of a `Bias` that its evaluation reads (L49-58). -/
structure Obj where
  model : Str
  nuisance : List (Str × ℝ)
  additional : List (Str × ℝ)
  edges : List ℝ

/-- The errors of the models defined per bin. For L64-98 (see `evaluate`). -/
def fromRedshift {A : Type} : Except Redshift.Err A → Except Err A
  | .ok a => .ok a
  | .error .biasError => .error .biasError
  | .error .indexError => .error .indexError
  | .error _ => .error .attributeError

/-- `initBiasModel` and `evaluateBias` (L64-98): the values of the bias for each bin and redshift. -/
def evaluate (spline : Spline) (o : Obj) (cosmology fiducial : Option Cosmo) (grid : List ℝ) :
    Except Err (List (List ℝ)) :=
  match initModel o.model cosmology fiducial with
  | .error e => .error e
  | .ok (.piecewise, _) => fromRedshift (Redshift.piecewise 0 o.edges o.nuisance grid)
  | .ok (.constant, _) => fromRedshift (Redshift.constant o.edges o.nuisance grid)
  | .ok (.flagship, _) => flagshipBias o.edges o.nuisance grid
  | .ok (.vdn, some c) => vdnBias spline c o.edges o.additional grid
  | .ok (.growth, some c) => growthBias spline c o.edges o.nuisance grid
  | .ok (_, none) => .error .attributeError

end Seyfert.Bias
