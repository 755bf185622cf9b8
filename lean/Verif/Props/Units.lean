import Verif.Model.Units
import Mathlib.Tactic.FieldSimp
import Mathlib.Tactic.Ring
import Mathlib.Tactic.NormNum

/-!
C55: unit conversions.
-/

namespace Seyfert.Units

open Real

/-- Each pair of conversions composes to the identity, both ways. -/
theorem inverse_pairs (x : ℝ) :
    ptsToInches (inchesToPts x) = x ∧ inchesToPts (ptsToInches x) = x ∧
    cmToInches (inchesToCm x) = x ∧ inchesToCm (cmToInches x) = x ∧
    deg2ToSterad (steradToDeg2 x) = x ∧ steradToDeg2 (deg2ToSterad x) = x ∧
    arcmin2ToSterad (steradToArcmin2 x) = x ∧ steradToArcmin2 (arcmin2ToSterad x) = x ∧
    invSteradToInvDeg2 (invDeg2ToInvSterad x) = x ∧ invDeg2ToInvSterad (invSteradToInvDeg2 x) = x ∧
    invSteradToInvArcmin2 (invArcmin2ToInvSterad x) = x ∧ invArcmin2ToInvSterad (invSteradToInvArcmin2 x) = x := by
  have hp : π ≠ 0 := pi_ne_zero
  refine ⟨?_, ?_, ?_, ?_, ?_, ?_, ?_, ?_, ?_, ?_, ?_, ?_⟩ <;>
    simp only [ptsToInches, inchesToPts, cmToInches, inchesToCm, deg2ToSterad, steradToDeg2, arcmin2ToSterad,
      steradToArcmin2, invSteradToInvDeg2, invDeg2ToInvSterad, invSteradToInvArcmin2, invArcmin2ToInvSterad] <;>
    field_simp

/-- Reference values: an inch is 72 points and 2.54 centimetres, a degree is π/180 and sixty arc minutes. -/
theorem reference_values :
    inchesToPts 1 = 72 ∧ inchesToCm 100 = 254 ∧ deg2ToSterad 1 = (π / 180) ^ 2 ∧ steradToDeg2 (π ^ 2) = 180 ^ 2 ∧
    (∀ x, steradToArcmin2 x = 60 ^ 2 * steradToDeg2 x) ∧ (∀ x, deg2ToSterad x = arcmin2ToSterad (60 ^ 2 * x)) := by
  have hp : π ≠ 0 := pi_ne_zero
  refine ⟨?_, ?_, ?_, ?_, fun x => ?_, fun x => ?_⟩ <;>
    simp only [inchesToPts, inchesToCm, deg2ToSterad, steradToDeg2, arcmin2ToSterad, steradToArcmin2] <;>
    field_simp

/-- Numbers of objects do not depend on the units: a density times an area is the same in square degrees, square arc
minutes and steradians. -/
theorem counts_invariant (n a : ℝ) :
    invDeg2ToInvSterad n * deg2ToSterad a = n * a ∧ invArcmin2ToInvSterad n * arcmin2ToSterad a = n * a ∧
    invSteradToInvDeg2 n * steradToDeg2 a = n * a ∧ invSteradToInvArcmin2 n * steradToArcmin2 a = n * a := by
  have hp : π ≠ 0 := pi_ne_zero
  refine ⟨?_, ?_, ?_, ?_⟩ <;>
    simp only [deg2ToSterad, steradToDeg2, arcmin2ToSterad, steradToArcmin2, invSteradToInvDeg2, invDeg2ToInvSterad,
      invSteradToInvArcmin2, invArcmin2ToInvSterad] <;>
    field_simp

/-- The whole sphere has between 41252 and 41253 square degrees. -/
theorem whole_sphere : 41252 < steradToDeg2 (4 * π) ∧ steradToDeg2 (4 * π) < 41253 := by
  have hp : 0 < π := pi_pos
  have e : steradToDeg2 (4 * π) = 129600 / π := by
    unfold steradToDeg2
    field_simp
    norm_num
  rw [e, lt_div_iff₀ hp, div_lt_iff₀ hp]
  have h1 := pi_lt_d6
  have h2 := pi_gt_d6
  constructor <;> linarith

end Seyfert.Units
