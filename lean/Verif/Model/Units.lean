import Mathlib.Analysis.Real.Pi.Bounds

/-!
Model of `seyfert/utils/converters.py` over the real numbers.
-/

namespace Seyfert.Units

open Real

/-- `InchesToPts` (L5-6). -/
noncomputable def inchesToPts (l : ℝ) : ℝ := l * 72
/-- `PtsToInches` (L9-10). -/
noncomputable def ptsToInches (l : ℝ) : ℝ := l / 72
/-- `InchesToCm` (L13-14). -/
noncomputable def inchesToCm (l : ℝ) : ℝ := l * (254 / 100)
/-- `CmToInches` (L17-18). -/
noncomputable def cmToInches (l : ℝ) : ℝ := l / (254 / 100)
/-- `SteradToDeg2` (L21-22). -/
noncomputable def steradToDeg2 (x : ℝ) : ℝ := x * (180 / π) ^ 2
/-- `SteradToArcmin2` (L25-26). -/
noncomputable def steradToArcmin2 (x : ℝ) : ℝ := x * (180 * 60 / π) ^ 2
/-- `Deg2ToSterad` (L29-30). -/
noncomputable def deg2ToSterad (x : ℝ) : ℝ := x / (180 / π) ^ 2
/-- `Arcmin2ToSterad` (L33-34). -/
noncomputable def arcmin2ToSterad (x : ℝ) : ℝ := x / (180 * 60 / π) ^ 2
/-- `invDeg2ToInvSterad` (L37-38). -/
noncomputable def invDeg2ToInvSterad (x : ℝ) : ℝ := x * (180 / π) ^ 2
/-- `invSteradToinvDeg2` (L41-42). -/
noncomputable def invSteradToInvDeg2 (x : ℝ) : ℝ := x / (180 / π) ^ 2
/-- `invArcmin2ToInvSterad` (L45-46). -/
noncomputable def invArcmin2ToInvSterad (x : ℝ) : ℝ := x * (180 * 60 / π) ^ 2
/-- `invSteradToinvArcmin2` (L49-50). -/
noncomputable def invSteradToInvArcmin2 (x : ℝ) : ℝ := x / (180 * 60 / π) ^ 2

end Seyfert.Units
