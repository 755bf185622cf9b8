import Verif.Props.Information

/-! Lemmas on the Fisher information of data vectors whose parts are not correlated. -/

set_option linter.unusedSectionVars false

namespace Seyfert.Cov

open Matrix

section
variable {K : Type} [Field K]

/-- The information of two sets of data without covariance. -/
theorem info_blocks {n m : Type} [Fintype n] [DecidableEq n] [Fintype m] [DecidableEq m] {A : Matrix n n K}
    {B : Matrix m m K} (hA : A.det ≠ 0) (hB : B.det ≠ 0) (u u' : n → K) (w w' : m → K) :
    dotProduct (Sum.elim u w) (mulVec (fromBlocks A 0 0 B)⁻¹ (Sum.elim u' w')) =
      dotProduct u (mulVec A⁻¹ u') + dotProduct w (mulVec B⁻¹ w') := by
  have hinv : (fromBlocks A 0 0 B)⁻¹ = fromBlocks A⁻¹ 0 0 B⁻¹ := by
    refine inv_eq_right_inv ?_
    rw [fromBlocks_multiply, mul_nonsing_inv _ (isUnit_iff_ne_zero.mpr hA), mul_nonsing_inv _ (isUnit_iff_ne_zero.mpr hB)]
    simp
  rw [hinv, fromBlocks_mulVec]
  simp [dotProduct]

end

section
variable {P N K : Type} [DecidableEq P] [LinearOrder N] [Field K] [LinearOrder K]

theorem layout_append (nb : P → Nat) (dv dv' : List (P × P)) :
    layout nb (dv ++ dv') = layout nb dv ++ layout nb dv' := by
  unfold layout
  rw [List.flatMap_append]

/-- The components of two data vectors one after the other. -/
def joinIdx (nb : P → Nat) (dv dv' : List (P × P)) :
    Fin (layout nb (dv ++ dv')).length ≃ Fin (layout nb dv).length ⊕ Fin (layout nb dv').length :=
  (finCongr (by rw [layout_append, List.length_append])).trans finSumFinEquiv.symm

theorem get_join (nb : P → Nat) (dv dv' : List (P × P)) (i : Fin (layout nb (dv ++ dv')).length) :
    (layout nb (dv ++ dv')).get i =
      Sum.elim (layout nb dv).get (layout nb dv').get (joinIdx nb dv dv' i) := by
  obtain ⟨s, rfl⟩ := (joinIdx nb dv dv').symm.surjective i
  rw [Equiv.apply_symm_apply]
  have h := layout_append nb dv dv'
  cases s with
  | inl a =>
    show (layout nb (dv ++ dv')).get _ = (layout nb dv).get a
    rw [List.get_eq_getElem, List.get_eq_getElem]
    have : ((joinIdx nb dv dv').symm (Sum.inl a)).1 = a.1 := rfl
    simp only [this]
    simp only [h]
    rw [List.getElem_append_left a.2]
  | inr b =>
    show (layout nb (dv ++ dv')).get _ = (layout nb dv').get b
    rw [List.get_eq_getElem, List.get_eq_getElem]
    have : ((joinIdx nb dv dv').symm (Sum.inr b)).1 = (layout nb dv).length + b.1 := rfl
    simp only [this]
    simp only [h]
    rw [List.getElem_append_right (Nat.le_add_right _ _)]
    simp

/-- The information of two data vectors without covariance is the sum. -/
theorem fisherSpec_append {nb : P → Nat} {δ : P → P → K → Nat → Nat → K} {d : N → P → P → K → Nat → Nat → K}
    {dv dv' : List (P × P)} {ℓ : K} (h : (covAt nb δ dv ℓ).det ≠ 0) (h' : (covAt nb δ dv' ℓ).det ≠ 0)
    (hz : ∀ x ∈ layout nb dv, ∀ y ∈ layout nb dv', covSpec δ ℓ x y = 0 ∧ covSpec δ ℓ y x = 0) (a b : N) :
    fisherSpec nb δ d (dv ++ dv') ℓ a b = fisherSpec nb δ d dv ℓ a b + fisherSpec nb δ d dv' ℓ a b := by
  have e1 : ∀ c : N, derivAt nb (d c) (dv ++ dv') ℓ =
      Sum.elim (derivAt nb (d c) dv ℓ) (derivAt nb (d c) dv' ℓ) ∘ joinIdx nb dv dv' := by
    intro c
    funext i
    unfold derivAt
    rw [get_join, Function.comp]
    cases joinIdx nb dv dv' i <;> rfl
  have e2 : covAt nb δ (dv ++ dv') ℓ = (fromBlocks (covAt nb δ dv ℓ) 0 0 (covAt nb δ dv' ℓ)).submatrix
      (joinIdx nb dv dv') (joinIdx nb dv dv') := by
    ext i j
    rw [submatrix_apply]
    show covSpec δ ℓ ((layout nb (dv ++ dv')).get i) ((layout nb (dv ++ dv')).get j) = _
    rw [get_join, get_join]
    cases joinIdx nb dv dv' i with
    | inl x =>
      cases joinIdx nb dv dv' j with
      | inl y => rfl
      | inr y => exact (hz _ (List.get_mem _ _) _ (List.get_mem _ _)).1
    | inr x =>
      cases joinIdx nb dv dv' j with
      | inl y => exact (hz _ (List.get_mem _ _) _ (List.get_mem _ _)).2
      | inr y => rfl
  unfold fisherSpec
  rw [e1, e1, e2, info_equiv, info_blocks h h']

/-- Correlations on which a parameter has no influence give no information on it. -/
theorem fisherSpec_insensitive {nb : P → Nat} {δ : P → P → K → Nat → Nat → K} {d : N → P → P → K → Nat → Nat → K}
    {dv : List (P × P)} {ℓ : K} {a b : N} (h : Insensitive d dv a ∨ Insensitive d dv b) :
    fisherSpec nb δ d dv ℓ a b = 0 := by
  have hz : ∀ c, Insensitive d dv c → derivAt nb (d c) dv ℓ = 0 := by
    intro c hc
    funext i
    exact hc _ (mem_layout.mp (List.get_mem (layout nb dv) i)).1 _ _ _
  unfold fisherSpec
  rcases h with h | h
  · rw [hz a h, zero_dotProduct]
  · rw [hz b h, mulVec_zero, dotProduct_zero]

end

end Seyfert.Cov
