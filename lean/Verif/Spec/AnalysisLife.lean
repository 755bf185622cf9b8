import Verif.Spec.Fisher
import Verif.Model.AnalysisLife

/-! What is expected of matrices loaded into an analysis and of sums of matrices. -/

namespace Seyfert.Life

open Fisher

variable {N K : Type} [LinearOrder N] [Field K] [DecidableEq K]

/-- The file of the matrix `F` can be used for an analysis of the cosmological parameters `C`: it has
rows and columns for them and for its nuisance parameters, which are different ones. -/
structure Usable (C : Finset N) (F : FM N K) : Prop where
  labels : ∃ S, F.matrix.On S ∧ C ∪ F.nuis ⊆ S
  disj : Disjoint C F.nuis

/-- `R` is the matrix `F` with every parameter fixed that is neither in `C` nor, with the flag set, a
nuisance parameter: same name, same entries. -/
structure Restricted (flag : Bool) (C : Finset N) (F R : FM N K) : Prop where
  name : R.name = F.name
  marg : R.margFlag = flag
  cosmo : R.cosmo = C
  nuis : R.nuis = if flag then F.nuis else ∅
  wf : R.WF
  val : ∀ p q, R.matrix.val p q = F.matrix.val p q

/-- `R` is the sum of the matrices `Ms`: the union of all parameters, and every entry is the sum of the
entries, a missing parameter counting as zero; nuisance parameters are marginalised if they are in all
of them. -/
structure IsSum (Ms : List (FM N K)) (R : FM N K) : Prop where
  wf : R.WF
  cosmo : ∀ p, p ∈ R.cosmo ↔ ∃ M ∈ Ms, p ∈ M.cosmo
  nuis : ∀ p, p ∈ R.nuis ↔ ∃ M ∈ Ms, p ∈ M.nuis
  ent : ∀ p q, R.matrix.ent p q = (Ms.map (fun M => M.matrix.ent p q)).sum
  flag : (∀ M ∈ Ms, M.margFlag = true) → R.margFlag = true

/-- The order in use names all working matrices and nothing else. -/
def Covers (a : Life N) : Prop := ∀ n, n ∈ a.getOrder ↔ n ∈ a.names

/-- Operations that do not replace the dictionary of the working matrices. -/
def Keeps : Op N K → Prop
  | .work .useBase => False
  | .work (.addends _) => False
  | _ => True

/-- Operations that do not set the order. -/
def NoOrder : Op N K → Prop
  | .setOrder _ => False
  | _ => True

end Seyfert.Life
