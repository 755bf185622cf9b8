import Verif.Model.PyStr
import Mathlib.Analysis.SpecialFunctions.Exp
import Mathlib.Analysis.SpecialFunctions.Sqrt
import Mathlib.Analysis.SpecialFunctions.Trigonometric.Basic
import Mathlib.MeasureTheory.Integral.IntervalIntegral.Basic

/-!
Redshift densities (`cosmology/redshift_density.py`).  Numbers are real numbers, `scipy.integrate.quad` is the
integral, the spline through the input is any function.
-/

namespace Seyfert.Density

open scoped Real

/-- The exceptions of the functions modelled here, by their kinds (`redshift_density.py` L62-200). -/
inductive Err where
  | density | keyError | typeError
deriving DecidableEq

/-- `instrument_response`, redshift_density.py L91-102. -/
structure Resp where
  fOut : ℝ
  zb : ℝ
  sb : ℝ
  cb : ℝ
  zo : ℝ
  so : ℝ
  co : ℝ

/-- `modifiedGaussianResponse`, redshift_density.py L142-148. -/
noncomputable def gauss (zp z zMean sigma c amplitude : ℝ) : ℝ :=
  (amplitude / (√(2 * π) * sigma * (1 + z))) * Real.exp (-((z - c * zp - zMean) ^ 2 / (2 * (sigma * (1 + z)) ^ 2)))

/-- `computeInstrumentResponse` with the two sets of parameters of `setUp`, redshift_density.py L91-102 and
L150-158. -/
noncomputable def response (R : Resp) (zp z : ℝ) : ℝ :=
  gauss zp z R.zb R.sb R.cb (1 - R.fOut) + gauss zp z R.zo R.so R.co R.fOut

/-- A density: what was read from its file (L30-47), then what `setUp` and `evaluate` add.  `dN` is the spline
through `input_dN_dz_dOmega`, `niz` the splines through `input_n_iz`.  Bin `i` of the `n` bins is from `edges i`
to `edges (i + 1)`.  A value that is not a number is `none`. -/
structure Dens where
  fromInput : Bool
  zmin : ℝ
  zmax : ℝ
  n : Nat
  edges : Nat → ℝ
  dN : ℝ → ℝ
  niz : Nat → ℝ → ℝ
  resp : Resp
  fsky : ℝ
  surface : Option (Nat → ℝ)
  ready : Bool
  factors : Option (Nat → ℝ)
  grid : Option (List ℝ)
  values : Option (List (List (Option ℝ)))

/-- `convolvedNdzdOmegaWithInstrumentResponse` at a float or at each entry of an array,
redshift_density.py L160-173. -/
noncomputable def convolved (d : Dens) (i : Nat) (z : ℝ) : Except Err ℝ :=
  if d.fromInput then .error .density
  else .ok ((∫ zp in d.edges i..d.edges (i + 1), response d.resp zp z) * d.dN z)

/-- `computeBinNormFactor`, redshift_density.py L175-177, for a density that is not given per bin. -/
noncomputable def binNorm (d : Dens) (i : Nat) : ℝ :=
  ∫ z in d.zmin..d.zmax, (∫ zp in d.edges i..d.edges (i + 1), response d.resp zp z) * d.dN z

/-- `setUp`, redshift_density.py L88-105. -/
noncomputable def setUp (d : Dens) : Dens :=
  if d.fromInput then { d with ready := true }
  else { d with factors := some (binNorm d), ready := true }

/-- A quotient of floats: not a number when the divisor is zero.  NumPy only warns about it, so that the
`except` clause in L186-189 is never reached (nothing in the repository sets the error mode). -/
noncomputable def quotient (x y : ℝ) : Option ℝ := if y = 0 then none else some (x / y)

/-- `computeNormalizedDensityAtBinAndRedshift`, redshift_density.py L182-192; without factors the subscript of
`None` is an error. -/
noncomputable def normalised (d : Dens) (i : Nat) (z : ℝ) : Except Err (Option ℝ) :=
  if d.fromInput then .ok (some (d.niz i z))
  else
    match convolved d i z, d.factors with
    | .error e, _ => .error e
    | .ok _, none => .error .typeError
    | .ok x, some f => .ok (quotient x (f i))

/-- `evaluate`, redshift_density.py L110-116. -/
noncomputable def evaluate (d : Dens) (grid : List ℝ) : Except Err Dens :=
  if !d.ready then .error .density
  else
    match (List.range d.n).mapM fun i => grid.mapM fun z => normalised d i z with
    | .error e => .error e
    | .ok v => .ok { d with grid := some grid, values := some v }

/-- `computeSurfaceDensityAtBin`, redshift_density.py L194-199; before `setUp` there is no spline, here it is
always there. -/
noncomputable def surfaceAt (d : Dens) (i : Nat) : Except Err ℝ :=
  if d.fromInput then
    match d.surface with
    | none => .error .typeError
    | some s => .ok (s i)
  else .ok (∫ z in d.edges i..d.edges (i + 1), d.dN z)

/-- `shot_noise`, redshift_density.py L84-86, of the surface densities that `evaluateSurfaceDensity` (L107-108)
stores. -/
noncomputable def shotNoise (d : Dens) (i : Nat) : Except Err (Option ℝ) :=
  match surfaceAt d i with
  | .error e => .error e
  | .ok s => .ok (quotient 1 s)

/-- `computeTotalGalaxyNumber`, redshift_density.py L129-140, for a density that is not given per bin; `simps`
is what Simpson's rule gives for the input. -/
noncomputable def total (simps : ℝ) (d : Dens) (method : Str) : Except Err ℝ :=
  if !d.ready then .error .density
  else if method = "simps".toList then .ok (simps * (4 * π * d.fsky))
  else if method = "quad".toList then .ok ((∫ z in d.zmin..d.zmax, d.dN z) * (4 * π * d.fsky))
  else .error .keyError

end Seyfert.Density
