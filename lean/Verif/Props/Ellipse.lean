import Verif.Model.Ellipse
import Mathlib.Analysis.SpecialFunctions.Complex.Arg
import Mathlib.Tactic.LinearCombination
import Mathlib.Tactic.FieldSimp

/-!
C60: the plotted ellipse is the confidence contour of the two parameters.
-/

namespace Seyfert.Fisher

open Real

/-- Membership in a drawn ellipse: rotate back by the angle and compare with the half axes. -/
def Ellipse.Contains (E : Ellipse) (x y : ℝ) : Prop :=
  let θ := E.angle * (π / 180)
  let u := (x - E.cx) * cos θ + (y - E.cy) * sin θ
  let v := -(x - E.cx) * sin θ + (y - E.cy) * cos θ
  (u / (E.width / 2)) ^ 2 + (v / (E.height / 2)) ^ 2 = 1

/-- Membership in the contour: the quadratic form of the inverse of the covariance equals `cl²`. -/
def OnContour (mx my cxx cyy cxy cl x y : ℝ) : Prop :=
  (!![x - mx, y - my] * (!![cxx, cxy; cxy, cyy])⁻¹ * !![x - mx; y - my]) 0 0 = cl ^ 2

theorem half_angle (cxx cyy cxy : ℝ) :
    ‖(⟨cxx - cyy, 2 * cxy⟩ : ℂ)‖ = 2 * √((cxx - cyy) ^ 2 / 4 + cxy ^ 2) := by
  rw [Complex.norm_def, Complex.normSq_mk]
  have : (cxx - cyy) * (cxx - cyy) + 2 * cxy * (2 * cxy)
      = 2 ^ 2 * ((cxx - cyy) ^ 2 / 4 + cxy ^ 2) := by ring
  rw [this, Real.sqrt_mul (by norm_num), Real.sqrt_sq (by norm_num)]

/-- C60. For every positive definite covariance the drawn ellipse is the contour. -/
theorem ellipse_contour (mx my cxx cyy cxy cl x y : ℝ) (hxx : 0 < cxx)
    (hdet : 0 < cxx * cyy - cxy ^ 2) (hcl : 0 < cl) :
    (ellipse mx my cxx cyy cxy cl).Contains x y ↔ OnContour mx my cxx cyy cxy cl x y := by
  have hyy : 0 < cyy := by
    by_contra h
    have : cxx * cyy ≤ 0 := mul_nonpos_of_nonneg_of_nonpos hxx.le (not_lt.mp h)
    nlinarith [sq_nonneg cxy]
  set r := √((cxx - cyy) ^ 2 / 4 + cxy ^ 2) with hr
  have hr0 : 0 ≤ r := Real.sqrt_nonneg _
  have hr2 : r ^ 2 = (cxx - cyy) ^ 2 / 4 + cxy ^ 2 := Real.sq_sqrt (by positivity)
  have hlt : r < (cxx + cyy) / 2 := by
    apply lt_of_pow_lt_pow_left₀ 2 (by positivity)
    rw [hr2]; nlinarith
  have hp : 0 < (cxx + cyy) / 2 + r := by positivity
  have hm : 0 < (cxx + cyy) / 2 - r := by linarith
  have hpm : ((cxx + cyy) / 2 + r) * ((cxx + cyy) / 2 - r) = cxx * cyy - cxy ^ 2 := by
    linear_combination -hr2
  set θ := Complex.arg ⟨cxx - cyy, 2 * cxy⟩ / 2 with hθ
  have h2θ : 2 * θ = Complex.arg ⟨cxx - cyy, 2 * cxy⟩ := by rw [hθ]; ring
  have hc : 2 * r * cos (2 * θ) = cxx - cyy := by
    rw [h2θ, hr, ← half_angle]; exact Complex.norm_mul_cos_arg _
  have hs : 2 * r * sin (2 * θ) = 2 * cxy := by
    rw [h2θ, hr, ← half_angle]; exact Complex.norm_mul_sin_arg _
  have hang : (ellipse mx my cxx cyy cxy cl).angle * (π / 180) = θ := by
    show θ * (180 / π) * (π / 180) = θ
    field_simp
  have hw : (ellipse mx my cxx cyy cxy cl).width / 2 = cl * √((cxx + cyy) / 2 + r) := by
    show 2 * (cl * √((cxx + cyy) / 2 + r)) / 2 = _
    ring
  have hh : (ellipse mx my cxx cyy cxy cl).height / 2 = cl * √((cxx + cyy) / 2 - r) := by
    show 2 * (cl * √((cxx + cyy) / 2 - r)) / 2 = _
    ring
  have hinv : (!![cxx, cxy; cxy, cyy])⁻¹
      = (cxx * cyy - cxy ^ 2)⁻¹ • !![cyy, -cxy; -cxy, cxx] := by
    rw [Matrix.inv_def, Matrix.det_fin_two_of, Matrix.adjugate_fin_two_of, Ring.inverse_eq_inv']
    congr 2; ring
  unfold Ellipse.Contains OnContour
  simp only [hang, hw, hh]
  rw [show (ellipse mx my cxx cyy cxy cl).cx = mx from rfl,
    show (ellipse mx my cxx cyy cxy cl).cy = my from rfl, hinv]
  set X := x - mx
  set Y := y - my
  have hq : (!![X, Y] * ((cxx * cyy - cxy ^ 2)⁻¹ • !![cyy, -cxy; -cxy, cxx]) * !![X; Y]) 0 0
      = (cxx * cyy - cxy ^ 2)⁻¹ * (cyy * X ^ 2 - 2 * cxy * X * Y + cxx * Y ^ 2) := by
    simp [Matrix.mul_apply, Fin.sum_univ_two]
    ring
  rw [hq]
  have hc' : cos (2 * θ) = cos θ ^ 2 - sin θ ^ 2 := by rw [cos_two_mul, ← sin_sq_add_cos_sq θ]; ring
  have hs' : sin (2 * θ) = 2 * sin θ * cos θ := sin_two_mul θ
  have key : ((cxx + cyy) / 2 - r) * (X * cos θ + Y * sin θ) ^ 2
      + ((cxx + cyy) / 2 + r) * (-X * sin θ + Y * cos θ) ^ 2
      = cyy * X ^ 2 - 2 * cxy * X * Y + cxx * Y ^ 2 := by
    rw [hc'] at hc
    rw [hs'] at hs
    have h1 := sin_sq_add_cos_sq θ
    linear_combination ((cxx + cyy) / 2 * (X ^ 2 + Y ^ 2)) * h1 - (X ^ 2 - Y ^ 2) / 2 * hc
      - X * Y * hs
  rw [← key, ← hpm, div_pow, div_pow, mul_pow, mul_pow, Real.sq_sqrt hp.le, Real.sq_sqrt hm.le]
  have hcl2 : cl ^ 2 ≠ 0 := by positivity
  have hp' := hp.ne'
  have hm' := hm.ne'
  rw [div_add_div _ _ (by positivity) (by positivity), div_eq_one_iff_eq (by positivity),
    inv_mul_eq_iff_eq_mul₀ (by positivity)]
  constructor
  · intro h
    have : cl ^ 2 * (((cxx + cyy) / 2 - r) * (X * cos θ + Y * sin θ) ^ 2
      + ((cxx + cyy) / 2 + r) * (-X * sin θ + Y * cos θ) ^ 2)
      = cl ^ 2 * (((cxx + cyy) / 2 + r) * ((cxx + cyy) / 2 - r) * cl ^ 2) := by
      linear_combination h
    exact mul_left_cancel₀ hcl2 this
  · intro h
    linear_combination cl ^ 2 * h

/-- C60. The half axes are the standard deviations along the principal directions, so their product
and the sum of squares are those of the covariance, and the larger one is the width. -/
theorem ellipse_axes (mx my cxx cyy cxy cl : ℝ) (hxx : 0 < cxx) (hdet : 0 ≤ cxx * cyy - cxy ^ 2)
    (hcl : 0 ≤ cl) :
    ((ellipse mx my cxx cyy cxy cl).width / 2) ^ 2 + ((ellipse mx my cxx cyy cxy cl).height / 2) ^ 2
      = cl ^ 2 * (cxx + cyy) ∧
    (ellipse mx my cxx cyy cxy cl).width / 2 * ((ellipse mx my cxx cyy cxy cl).height / 2)
      = cl ^ 2 * √(cxx * cyy - cxy ^ 2) ∧
    (ellipse mx my cxx cyy cxy cl).height ≤ (ellipse mx my cxx cyy cxy cl).width := by
  have hyy : 0 ≤ cyy := by
    by_contra h
    nlinarith [sq_nonneg cxy, mul_pos hxx (neg_pos.mpr (not_le.mp h))]
  have hr0 : 0 ≤ √((cxx - cyy) ^ 2 / 4 + cxy ^ 2) := Real.sqrt_nonneg _
  have hr2 : √((cxx - cyy) ^ 2 / 4 + cxy ^ 2) ^ 2 = (cxx - cyy) ^ 2 / 4 + cxy ^ 2 :=
    Real.sq_sqrt (by positivity)
  have hle : √((cxx - cyy) ^ 2 / 4 + cxy ^ 2) ≤ (cxx + cyy) / 2 := by
    apply le_of_sq_le_sq _ (by positivity)
    rw [hr2]; nlinarith
  unfold ellipse
  simp only
  set r := √((cxx - cyy) ^ 2 / 4 + cxy ^ 2)
  have hp : 0 ≤ (cxx + cyy) / 2 + r := by positivity
  have hm : 0 ≤ (cxx + cyy) / 2 - r := by linarith
  refine ⟨?_, ?_, ?_⟩
  · have h1 := Real.sq_sqrt hp
    have h2 := Real.sq_sqrt hm
    linear_combination cl ^ 2 * h1 + cl ^ 2 * h2
  · have : cxx * cyy - cxy ^ 2 = ((cxx + cyy) / 2 + r) * ((cxx + cyy) / 2 - r) := by
      linear_combination hr2
    rw [this, Real.sqrt_mul hp]
    ring
  · have := Real.sqrt_le_sqrt (show (cxx + cyy) / 2 - r ≤ (cxx + cyy) / 2 + r by linarith)
    have := mul_le_mul_of_nonneg_left this hcl
    linarith

/-- C60. The one-parameter range is what the ellipse spans along that parameter: every point of the
contour has its first coordinate in the range, and both ends are reached. -/
theorem range_projection (mx my cxx cyy cxy cl : ℝ) (hxx : 0 < cxx)
    (hdet : 0 < cxx * cyy - cxy ^ 2) (hcl : 0 < cl) (x : ℝ) :
    (∃ y, OnContour mx my cxx cyy cxy cl x y) ↔
      (parRange mx √cxx cl).1 ≤ x ∧ x ≤ (parRange mx √cxx cl).2 := by
  have hinv : (!![cxx, cxy; cxy, cyy])⁻¹
      = (cxx * cyy - cxy ^ 2)⁻¹ • !![cyy, -cxy; -cxy, cxx] := by
    rw [Matrix.inv_def, Matrix.det_fin_two_of, Matrix.adjugate_fin_two_of, Ring.inverse_eq_inv']
    congr 2; ring
  have hq : ∀ X Y : ℝ,
      (!![X, Y] * ((cxx * cyy - cxy ^ 2)⁻¹ • !![cyy, -cxy; -cxy, cxx]) * !![X; Y]) 0 0
      = (cxx * cyy - cxy ^ 2)⁻¹ * (cyy * X ^ 2 - 2 * cxy * X * Y + cxx * Y ^ 2) := by
    intro X Y
    simp [Matrix.mul_apply, Fin.sum_univ_two]
    ring
  have hon : ∀ y, OnContour mx my cxx cyy cxy cl x y ↔
      (cxx * (y - my) - cxy * (x - mx)) ^ 2
        = (cxx * cyy - cxy ^ 2) * (cl ^ 2 * cxx - (x - mx) ^ 2) := by
    intro y
    unfold OnContour
    rw [hinv, hq, inv_mul_eq_iff_eq_mul₀ hdet.ne']
    constructor
    · intro h; linear_combination cxx * h
    · intro h
      apply mul_left_cancel₀ hxx.ne'
      linear_combination h
  have hrange : ((parRange mx √cxx cl).1 ≤ x ∧ x ≤ (parRange mx √cxx cl).2) ↔
      0 ≤ cl ^ 2 * cxx - (x - mx) ^ 2 := by
    have h1 := Real.sq_sqrt hxx.le
    have h2 : 0 < √cxx := Real.sqrt_pos.mpr hxx
    have h3 : cl ^ 2 * cxx = (cl * √cxx) ^ 2 := by rw [mul_pow, h1]
    rw [h3, sub_nonneg, sq_le_sq, abs_of_pos (mul_pos hcl h2), abs_le]
    unfold parRange
    constructor
    · rintro ⟨a, b⟩; simp only at a b; constructor <;> linarith
    · rintro ⟨a, b⟩; constructor <;> simp only <;> linarith
  rw [hrange]
  constructor
  · rintro ⟨y, hy⟩
    have h := (hon y).mp hy
    by_contra hneg
    have := mul_neg_of_pos_of_neg hdet (not_le.mp hneg)
    nlinarith [sq_nonneg (cxx * (y - my) - cxy * (x - mx))]
  · intro h
    refine ⟨my + (cxy * (x - mx) + √((cxx * cyy - cxy ^ 2) * (cl ^ 2 * cxx - (x - mx) ^ 2))) / cxx,
      (hon _).mpr ?_⟩
    have hsq := Real.sq_sqrt (mul_nonneg hdet.le h)
    set w := √((cxx * cyy - cxy ^ 2) * (cl ^ 2 * cxx - (x - mx) ^ 2))
    rw [← hsq]
    congr 1
    field_simp
    ring

example (x y : ℝ) : (ellipse 0 0 2 1 1 1).Contains x y ↔ OnContour 0 0 2 1 1 1 x y :=
  ellipse_contour _ _ _ _ _ _ _ _ (by norm_num) (by norm_num) (by norm_num)

end Seyfert.Fisher
