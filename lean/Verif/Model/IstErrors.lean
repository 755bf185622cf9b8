import Verif.Model.Reparam
import Mathlib.Analysis.Real.Sqrt

/-!
Model of the table of errors of external Fisher matrices, `compute_errs` (`seyfert/utils/ist_comparison.py` L56-69).

Simplified: the matrices of all codes have the same parameters in the same order (pandas puts in `NaN` where a code does not have one).
-/

namespace Seyfert.Reparam

/-- The errors of one code: with all parameters free, and with the others fixed (`ist_comparison.py` L57-60). `np.linalg.inv`
refuses a singular matrix. -/
noncomputable def codeErrs {n : ℕ} (F : Matrix (Fin n) (Fin n) ℝ) : Option ((Fin n → ℝ) × (Fin n → ℝ)) := by
  classical
  exact if F.det = 0 then none else some (fun i => √(F⁻¹ i i), fun i => 1 / √(F i i))

/-- `compute_errs` (`ist_comparison.py` L56-69): the errors of every code, by code. -/
noncomputable def computeErrs {n : ℕ} (l : Dict Str (Matrix (Fin n) (Fin n) ℝ)) : Option (Dict Str ((Fin n → ℝ) × (Fin n → ℝ))) :=
  l.mapM fun p => (codeErrs p.2).map fun e => (p.1, e)

end Seyfert.Reparam
