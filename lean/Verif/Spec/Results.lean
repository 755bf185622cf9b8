import Verif.Spec.AnalysisLife

/-! What is expected of the sums of Fisher matrices in the results of a cosmology. -/

namespace Seyfert.Results

open Fisher Life

variable {N K : Type} [LinearOrder N] [Field K] [DecidableEq K]

/-- The parameters of a matrix that are not fixed: those of the cosmology and, if they are marginalised,
the nuisance parameters of the matrix. -/
def kept (flag : Bool) (C : Finset N) (F : FM N K) : Finset N := C ∪ (if flag then F.nuis else ∅)

/-- The parameters of a sum. -/
def sumPars (flag : Bool) (C : Finset N) (Ms : List (FM N K)) : Finset N :=
  (Ms.map (kept flag C)).foldr (· ∪ ·) ∅

/-- The entries of a sum: a matrix contributes to the parameters that it has. -/
def summed (flag : Bool) (C : Finset N) (Ms : List (FM N K)) (p q : N) : K :=
  (Ms.map (fun F => if p ∈ kept flag C F ∧ q ∈ kept flag C F then F.matrix.val p q else 0)).sum

/-- Name of a sum. -/
def sumName (Ms : List (FM N K)) : Str := joinStr "+".toList (Ms.map FM.name)

end Seyfert.Results
