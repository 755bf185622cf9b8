import Mathlib.Analysis.SpecialFunctions.Complex.Arg
import Verif.Model.Fisher

/-!
Model of the contours and ranges computed for plots (`fisher/fisher_analysis.py` L268-307), over the
reals.
-/

namespace Seyfert.Fisher

/-- The dictionary returned by `computeEllipseInfoDictForObsAndCL` (L303-307). -/
structure Ellipse where
  cx : ℝ
  cy : ℝ
  width : ℝ
  height : ℝ
  /-- in degrees -/
  angle : ℝ

/-- `computeEllipseInfoDictForObsAndCL` (L292-307).  The argument `cl` stands for
`sqrt(2) * erfinv(CL)`; `math.atan2(y, x)` is the argument of the complex number `x + i y`. -/
noncomputable def ellipse (mx my cxx cyy cxy cl : ℝ) : Ellipse where
  cx := mx
  cy := my
  width := 2 * (cl * √((cxx + cyy) / 2 + √((cxx - cyy) ^ 2 / 4 + cxy ^ 2)))
  height := 2 * (cl * √((cxx + cyy) / 2 - √((cxx - cyy) ^ 2 / 4 + cxy ^ 2)))
  angle := Complex.arg ⟨cxx - cyy, 2 * cxy⟩ / 2 * (180 / Real.pi)

/-- `computeParameterRangeForObsAtCL` (L268-274), with `cl` as above. -/
noncomputable def parRange (mean sigma cl : ℝ) : ℝ × ℝ := (mean - cl * sigma, mean + cl * sigma)

end Seyfert.Fisher
