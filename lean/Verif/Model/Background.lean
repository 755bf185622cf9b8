import Verif.Model.PyStr
import Verif.Model.PyDict
import Verif.Model.Boltzmann
import Mathlib.Analysis.SpecialFunctions.Pow.Real
import Mathlib.Analysis.SpecialFunctions.Exp
import Mathlib.MeasureTheory.Integral.IntervalIntegral.Basic

/-!
Expansion, distances and growth (`cosmology/cosmology.py`, `cosmology/power_spectrum.py`).  Numbers are real
numbers; `scipy.integrate.quad` is the integral.
-/

namespace Seyfert.Background

open scoped Real

/-! ### Checks on construction -/

/-- The exceptions of the functions modelled here, by their kinds (`cosmology.py` L74, L192-208, L296-303). -/
inductive Err where
  | cosmology | keyError | valueError | attributeError
deriving DecidableEq

/-- `round(x, 10)`. For `cosmology.py` L186-199 (see `check`). -/
def round10 (x : ℚ) : ℚ := (Boltzmann.roundEven (x * 10000000000) : ℚ) / 10000000000

/-- `checkParameters`, cosmology.py L186-199; parameters with their fiducial and current values. -/
def check (p : Dict Str (ℚ × ℚ)) (flat : Bool) : Except Err Unit :=
  if (p.lookup "w0".toList).any (fun v => decide (1 ≤ v.1 ∨ 1 ≤ v.2)) then .error .cosmology
  else if (p.lookup "wa".toList).any (fun v => decide (2 ≤ |v.1| ∨ 2 ≤ |v.2|)) then .error .cosmology
  else if flat then
    match p.lookup "Omm".toList, p.lookup "OmDE".toList with
    | some m, some d => if round10 (1 - (m.2 + d.2)) ≠ 0 then .error .cosmology else .ok ()
    | _, _ => .error .keyError
  else .ok ()

/-- The checks of the constructor, cosmology.py L71-74. -/
def create (p : Option (Dict Str (ℚ × ℚ))) (flat : Option Bool) : Except Err Unit :=
  match p, flat with
  | some p, some f => check p f
  | none, none => .ok ()
  | _, _ => .error .cosmology

/-! ### Functions of the redshift -/

/-- The current values of the parameters used below (cosmology.py L82-157). -/
structure Pars where
  h : ℝ
  w0 : ℝ
  wa : ℝ
  Omm : ℝ
  OmDE : ℝ
  gamma : ℝ

/-- What is under the square root in `_dimensionlessHubbleParameter`, cosmology.py L250-251. -/
noncomputable def radicand (c : Pars) (z : ℝ) : ℝ :=
  c.Omm * (1 + z) ^ 3 + c.OmDE * (1 + z) ^ (3 * (1 + c.w0 + c.wa)) * Real.exp (-3 * c.wa * z / (1 + z))
    + (1 - c.Omm - c.OmDE) * (1 + z) ^ 2

/-- `computeDimensionlessHubbleParameter`, cosmology.py L250-260 (not a number where the radicand is
negative: statements below ask for a positive one). -/
noncomputable def E (c : Pars) (z : ℝ) : ℝ := √(radicand c z)

/-- `H0`, cosmology.py L82-86. -/
noncomputable def H0 (c : Pars) : ℝ := c.h * 100

/-- `computeHubbleParameter`, cosmology.py L269-273. -/
noncomputable def H (c : Pars) (z : ℝ) : ℝ := H0 c * E c z

/-- `scipy.constants.c / 1000`, cosmology.py L62. -/
noncomputable def cLight : ℝ := 299792458 / 1000

/-- `computeDimensionlessComovingDistance`, cosmology.py L262-267 and L281-297, for a float or an array (an
integer is refused). -/
noncomputable def rTilde (c : Pars) (z : ℝ) : ℝ := ∫ x in (0 : ℝ)..z, 1 / E c x

/-- `computeComovingDistance`, cosmology.py L275-279. -/
noncomputable def r (c : Pars) (z : ℝ) : ℝ := (cLight / H0 c) * rTilde c z

/-- `Omega_m_of_z`, cosmology.py L253-254. -/
noncomputable def omegaM (c : Pars) (z : ℝ) : ℝ := c.Omm * (1 + z) ^ 3 / E c z ^ 2

/-- `computeLogGrowthIntegrand`, cosmology.py L212-213. -/
noncomputable def logGrowth (c : Pars) (z : ℝ) : ℝ := omegaM c z ^ c.gamma / (1 + z)

/-- `computeGrowthFactor`, cosmology.py L201-210. -/
noncomputable def growth (c : Pars) (z : ℝ) : ℝ := Real.exp (-∫ x in (0 : ℝ)..z, logGrowth c x)

/-! ### Growth from the power spectrum -/

/-- `getGrowthFromLinearPowerSpectrum`, power_spectrum.py L65-69: `P i k` is the linear spectrum at the
redshift number `i` and the wave number `k`. -/
noncomputable def growthFromP (P : Nat → Nat → ℝ) (i : Nat) : ℝ := √(P i 0 / P 0 0)

/-- `rescalePowerSpectrumByComputedGrowth`, cosmology.py L215-220, for one of the two spectra: `lin` is the
linear spectrum, `g` the computed growth. -/
noncomputable def rescale (g : Nat → ℝ) (lin P : Nat → Nat → ℝ) (i k : Nat) : ℝ :=
  P i k * (g i / growthFromP lin i) ^ 2

/-! ### What is kept in the object -/

/-- A cosmology with what has been evaluated: `S` are power spectra, `V` arrays. For `cosmology.py` L299-318 (see `evaluate`). -/
structure Obj (Q Z S V : Type) where
  pars : Q
  grid : Option Z
  spectrum : Option S
  hubble : Option V
  distance : Option V
  growth : Option V

/-- `evaluateOverRedshiftGrid`, cosmology.py L299-318: the object afterwards and the exception. -/
def evaluate {Q Z S V : Type} (fE fr : Q → Z → V) (fD : S → V) (o : Obj Q Z S V) :
    Obj Q Z S V × Option Err :=
  match o.grid with
  | none => (o, some .valueError)
  | some z =>
    let o := { o with hubble := some (o.hubble.getD (fE o.pars z)) }
    let o := { o with distance := some (o.distance.getD (fr o.pars z)) }
    match o.growth with
    | some _ => (o, none)
    | none =>
      match o.spectrum with
      | none => (o, some .attributeError)
      | some p => ({ o with growth := some (fD p) }, none)

end Seyfert.Background
