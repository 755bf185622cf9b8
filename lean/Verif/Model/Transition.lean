import Verif.Model.Linalg
import Mathlib.Data.Matrix.Mul
import Mathlib.Data.Real.Basic

/-! Model of `transition_matrix` (`seyfert/fisher/linalg_tools.py` L89-90). -/

namespace Seyfert.Linalg

/-- The matrix of a list of rows. For `seyfert/fisher/linalg_tools.py` L89-90 (see `IsTransition`). -/
def toMat (r c : Nat) (M : List (List ℝ)) : Matrix (Fin r) (Fin c) ℝ := fun a b => (M.getD a []).getD b 0

/-- `np.linalg.pinv(A)` as a relation: the four conditions of Penrose. The cut-off for small singular values is not
modelled. For `seyfert/fisher/linalg_tools.py` L89-90 (see `IsTransition`). -/
structure IsPinv {r c : Nat} (A : Matrix (Fin r) (Fin c) ℝ) (P : Matrix (Fin c) (Fin r) ℝ) : Prop where
  left : A * P * A = A
  right : P * A * P = P
  symm_left : (A * P).transpose = A * P
  symm_right : (P * A).transpose = P * A

/-- `transition_matrix(n)` (L89-90): the pseudo-inverse of the transposed duplication matrix. With
no parameters the array of no rows has one dimension only, which `np.linalg.pinv` refuses: there is no result. -/
def IsTransition (n : Nat) (B : Matrix (Fin (n * n)) (Fin (n * (n + 1) / 2)) ℝ) : Prop :=
  0 < n ∧ ∃ D, duplicationMatrix ℝ n = .ok D ∧ IsPinv (toMat (n * n) (n * (n + 1) / 2) D).transpose B

end Seyfert.Linalg
