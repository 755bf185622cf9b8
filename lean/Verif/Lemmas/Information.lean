import Verif.Spec.Information
import Verif.Props.CovariancePD

/-! Lemmas on the Fisher information of parts and rearrangements of a data vector. -/

set_option linter.unusedSectionVars false

namespace Seyfert.Cov

open Matrix

section Algebra

variable {K : Type} [Field K]

/-- Rearranging the data changes nothing. -/
theorem info_equiv {n m : Type} [Fintype n] [DecidableEq n] [Fintype m] [DecidableEq m] (e : n ≃ m) (M : Matrix m m K)
    (u w : m → K) :
    dotProduct (u ∘ e) (mulVec (M.submatrix e e)⁻¹ (w ∘ e)) = dotProduct u (mulVec M⁻¹ w) := by
  rw [Matrix.inv_submatrix_equiv]
  simp only [dotProduct, mulVec, Function.comp, submatrix_apply]
  rw [← Equiv.sum_comp e]
  refine Finset.sum_congr rfl (fun i _ => ?_)
  rw [← Equiv.sum_comp e (fun j => M⁻¹ (e i) j * w j)]

end Algebra

/-- For a positive definite matrix, the square is completed. -/
theorem info_variational {n : Type} [Fintype n] [DecidableEq n] {M : Matrix n n ℝ} (hM : M.PosDef) (u y : n → ℝ) :
    2 * dotProduct u y - dotProduct y (mulVec M y) ≤ dotProduct u (mulVec M⁻¹ u) := by
  have hu : IsUnit M.det := isUnit_iff_ne_zero.mpr hM.det_pos.ne'
  have hsym : Mᵀ = M := by have := hM.isHermitian; simpa [Matrix.IsHermitian] using this
  set z := mulVec M⁻¹ u with hz
  have hMz : mulVec M z = u := by rw [hz, mulVec_mulVec, mul_nonsing_inv _ hu, one_mulVec]
  have h0 := hM.posSemidef.dotProduct_mulVec_nonneg (y - z)
  rw [star_trivial, mulVec_sub, sub_dotProduct, dotProduct_sub, dotProduct_sub, hMz] at h0
  have h1 : dotProduct z (mulVec M y) = dotProduct u y := by
    rw [dotProduct_mulVec, ← mulVec_transpose, hsym, hMz]
  rw [h1, dotProduct_comm y u, dotProduct_comm z u] at h0
  linarith

/-- More data, more information. -/
theorem info_le {n m : Type} [Fintype n] [DecidableEq n] [Fintype m] [DecidableEq m] {f : n → m}
    (hf : Function.Injective f) {M : Matrix m m ℝ} (hM : M.PosDef) (u : m → ℝ) :
    dotProduct (u ∘ f) (mulVec (M.submatrix f f)⁻¹ (u ∘ f)) ≤ dotProduct u (mulVec M⁻¹ u) := by
  have hS : (M.submatrix f f).PosDef := hM.submatrix hf
  have hu : IsUnit (M.submatrix f f).det := isUnit_iff_ne_zero.mpr hS.det_pos.ne'
  set S := M.submatrix f f with hSdef
  set z := mulVec S⁻¹ (u ∘ f) with hz
  have hSz : mulVec S z = u ∘ f := by rw [hz, mulVec_mulVec, mul_nonsing_inv _ hu, one_mulVec]
  let y : m → ℝ := fun j => ∑ i, if f i = j then z i else 0
  have hy : ∀ c : m → ℝ, dotProduct c y = dotProduct (c ∘ f) z := by
    intro c
    simp only [dotProduct, y, Finset.mul_sum, Function.comp]
    rw [Finset.sum_comm]
    refine Finset.sum_congr rfl (fun i _ => ?_)
    simp
  have hMy : (mulVec M y) ∘ f = mulVec S z := by
    funext i
    show dotProduct (M (f i)) y = dotProduct (S i) z
    rw [hy]
    rfl
  have := info_variational hM u y
  rw [hy u, dotProduct_comm y, hy, hMy, hSz] at this
  have h2 : dotProduct (u ∘ f) z + dotProduct (u ∘ f) z - dotProduct (u ∘ f) z ≤ dotProduct u (mulVec M⁻¹ u) := by
    linarith
  simpa using h2

section Components

variable {P N K : Type} [DecidableEq P] [LinearOrder N] [Field K] [LinearOrder K]

theorem mem_binPairs_iff {nb : P → Nat} {AB : P × P} {x : Nat × Nat} :
    x ∈ binPairs nb AB ↔ x.2 < nb AB.2 ∧ x.1 < (if AB.1 = AB.2 then x.2 + 1 else nb AB.1) := by
  unfold binPairs
  simp only [List.mem_flatMap, List.mem_range, List.mem_map]
  constructor
  · rintro ⟨j, hj, i, hi, rfl⟩
    exact ⟨hj, hi⟩
  · rintro ⟨h1, h2⟩
    exact ⟨x.2, h1, x.1, h2, rfl⟩

/-- A component of a part of a data vector is one of the data vector, or with its bins exchanged. -/
theorem layout_within {nb : P → Nat} {dv dv' : List (P × P)} (h : Within dv dv') {x : (P × Nat) × (P × Nat)}
    (hx : x ∈ layout nb dv) : x ∈ layout nb dv' ∨ (x.2, x.1) ∈ layout nb dv' := by
  obtain ⟨h1, h2⟩ := mem_layout.mp hx
  rcases h _ _ (Or.inl h1) with h3 | h3
  · exact Or.inl (mem_layout.mpr ⟨h3, h2⟩)
  · by_cases he : x.1.1 = x.2.1
    · refine Or.inl (mem_layout.mpr ⟨?_, h2⟩)
      rw [he] at h3 ⊢
      exact h3
    · refine Or.inr (mem_layout.mpr ⟨h3, ?_⟩)
      rw [mem_binPairs_iff] at h2 ⊢
      simp only [he, if_false] at h2
      simp only [Ne.symm he, if_false]
      exact ⟨h2.2, h2.1⟩

/-- The same component up to exchange of its bins. -/
def Alike (x y : (P × Nat) × (P × Nat)) : Prop := y = x ∨ y = (x.2, x.1)

theorem exists_place {nb : P → Nat} {dv dv' : List (P × P)} (h : Within dv dv') (i : Fin (layout nb dv).length) :
    ∃ j : Fin (layout nb dv').length, Alike ((layout nb dv).get i) ((layout nb dv').get j) := by
  rcases layout_within h (List.get_mem (layout nb dv) i) with hx | hx
  · obtain ⟨j, hj⟩ := List.get_of_mem hx
    exact ⟨j, Or.inl hj⟩
  · obtain ⟨j, hj⟩ := List.get_of_mem hx
    exact ⟨j, Or.inr hj⟩

/-- Where the components of a part of a data vector are in it. -/
theorem places {nb : P → Nat} {dv dv' : List (P × P)} (hr : NoRepeats dv) (h : Within dv dv') :
    ∃ f : Fin (layout nb dv).length → Fin (layout nb dv').length, Function.Injective f ∧
      ∀ i, Alike ((layout nb dv).get i) ((layout nb dv').get (f i)) := by
  choose f hf using exists_place (nb := nb) h
  refine ⟨f, ?_, hf⟩
  intro i j hij
  have h1 := hf i
  have h2 := hf j
  rw [hij] at h1
  apply (layout_nodup hr.1).injective_get
  rcases h1 with h1 | h1 <;> rcases h2 with h2 | h2
  · exact h1.symm.trans h2
  · rw [h1] at h2
    have hm : (((layout nb dv).get i).2, ((layout nb dv).get i).1) ∈ layout nb dv := by
      rw [h2]
      exact List.get_mem _ _
    have := layout_swap hr (List.get_mem _ i) hm
    rw [h2] at this ⊢
    exact Prod.ext this this.symm
  · rw [h1] at h2
    have hm : (((layout nb dv).get i).2, ((layout nb dv).get i).1) ∈ layout nb dv := by
      rw [h2]
      exact List.get_mem _ _
    have := layout_swap hr (List.get_mem _ i) hm
    have e1 : ((layout nb dv).get i).2 = ((layout nb dv).get j).1 := congrArg Prod.fst h2
    have e2 : ((layout nb dv).get i).1 = ((layout nb dv).get j).2 := congrArg Prod.snd h2
    exact Prod.ext (this.trans e1) (this.symm.trans e2)
  · have := h1.symm.trans h2
    exact Prod.ext (congrArg Prod.snd this) (congrArg Prod.fst this)

theorem covSpec_alike {δ : P → P → K → Nat → Nat → K} {ℓ : K} {x x' y y' : (P × Nat) × (P × Nat)}
    (hx : Alike x x') (hy : Alike y y') : covSpec δ ℓ x' y' = covSpec δ ℓ x y := by
  rcases hx with rfl | rfl <;> rcases hy with rfl | rfl <;> simp only [covSpec] <;> ring

theorem dcomp_alike {d : P → P → K → Nat → Nat → K} (hs : ∀ a b ℓ i j, d a b ℓ i j = d b a ℓ j i) {ℓ : K}
    {x x' : (P × Nat) × (P × Nat)} (hx : Alike x x') : dcomp d ℓ x' = dcomp d ℓ x := by
  rcases hx with rfl | rfl
  · rfl
  · exact hs _ _ _ _ _

theorem within_of_same {dv dv' : List (P × P)} (h : SameCorr dv dv') : Within dv dv' := fun A B => (h A B).1

theorem same_symm {dv dv' : List (P × P)} (h : SameCorr dv dv') : SameCorr dv' dv := fun A B => (h A B).symm

/-- The Fisher information of a data vector does not depend on how its correlations are listed. -/
theorem fisherSpec_same {nb : P → Nat} {δ : P → P → K → Nat → Nat → K} {d : N → P → P → K → Nat → Nat → K}
    {dv dv' : List (P × P)} (hr : NoRepeats dv) (hr' : NoRepeats dv') (h : SameCorr dv dv') {a b : N}
    (ha : ∀ x y ℓ i j, d a x y ℓ i j = d a y x ℓ j i) (hb : ∀ x y ℓ i j, d b x y ℓ i j = d b y x ℓ j i) (ℓ : K) :
    fisherSpec nb δ d dv ℓ a b = fisherSpec nb δ d dv' ℓ a b := by
  obtain ⟨f, hf, hfa⟩ := places (nb := nb) hr (within_of_same h)
  obtain ⟨f', hf', _⟩ := places (nb := nb) hr' (within_of_same (same_symm h))
  have hc : Fintype.card (Fin (layout nb dv).length) = Fintype.card (Fin (layout nb dv').length) :=
    le_antisymm (Fintype.card_le_of_injective f hf) (Fintype.card_le_of_injective f' hf')
  have hbij : Function.Bijective f := (Fintype.bijective_iff_injective_and_card f).mpr ⟨hf, hc⟩
  have e1 : ∀ c : N, (∀ x y ℓ i j, d c x y ℓ i j = d c y x ℓ j i) →
      derivAt nb (d c) dv ℓ = derivAt nb (d c) dv' ℓ ∘ Equiv.ofBijective f hbij := by
    intro c hcs
    funext i
    exact (dcomp_alike hcs (hfa i)).symm
  have e2 : covAt nb δ dv ℓ = (covAt nb δ dv' ℓ).submatrix (Equiv.ofBijective f hbij) (Equiv.ofBijective f hbij) := by
    ext i j
    exact (covSpec_alike (hfa i) (hfa j)).symm
  unfold fisherSpec
  rw [e1 a ha, e1 b hb, e2]
  exact info_equiv _ _ _ _

end Components

variable {P N : Type} [DecidableEq P] [LinearOrder N]

theorem quad_fisher {nb : P → Nat} {δ : P → P → ℝ → Nat → Nat → ℝ} {d : N → P → P → ℝ → Nat → Nat → ℝ}
    (dv : List (P × P)) (ℓ : ℝ) (T : Finset N) (v : N → ℝ) :
    quadForm T v (fisherSpec nb δ d dv ℓ) =
      dotProduct (∑ a ∈ T, v a • derivAt nb (d a) dv ℓ)
        (mulVec (covAt nb δ dv ℓ)⁻¹ (∑ a ∈ T, v a • derivAt nb (d a) dv ℓ)) := by
  unfold quadForm
  rw [sum_dotProduct]
  refine Finset.sum_congr rfl (fun a _ => ?_)
  rw [Matrix.mulVec_sum, dotProduct_sum]
  refine Finset.sum_congr rfl (fun b _ => ?_)
  rw [Matrix.mulVec_smul, dotProduct_smul, smul_dotProduct, smul_eq_mul, smul_eq_mul]
  unfold fisherSpec
  ring

/-- At a multipole, a data vector has at least the information of a part of it. -/
theorem fisherSpec_le {nb : P → Nat} {δ : P → P → ℝ → Nat → Nat → ℝ} {d : N → P → P → ℝ → Nat → Nat → ℝ}
    {dv dv' : List (P × P)} (hr : NoRepeats dv) (h : Within dv dv')
    {T : Finset N} (hs : ∀ a ∈ T, ∀ x y ℓ i j, d a x y ℓ i j = d a y x ℓ j i) {ℓ : ℝ}
    (hpd : (covAt nb δ dv' ℓ).PosDef) (v : N → ℝ) :
    quadForm T v (fisherSpec nb δ d dv ℓ) ≤ quadForm T v (fisherSpec nb δ d dv' ℓ) := by
  obtain ⟨f, hf, hfa⟩ := places (nb := nb) hr h
  have e1 : (∑ a ∈ T, v a • derivAt nb (d a) dv ℓ) = (∑ a ∈ T, v a • derivAt nb (d a) dv' ℓ) ∘ f := by
    funext i
    simp only [Function.comp, Finset.sum_apply, Pi.smul_apply]
    refine Finset.sum_congr rfl (fun a ha => ?_)
    congr 1
    exact (dcomp_alike (hs a ha) (hfa i)).symm
  have e2 : covAt nb δ dv ℓ = (covAt nb δ dv' ℓ).submatrix f f := by
    ext i j
    exact (covSpec_alike (hfa i) (hfa j)).symm
  rw [quad_fisher, quad_fisher, e1, e2]
  exact info_le hf hpd _

end Seyfert.Cov
