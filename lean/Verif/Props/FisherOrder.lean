import Verif.Props.FinalResultsOk
import Mathlib.Analysis.Real.Sqrt
import Mathlib.Tactic.LinearCombination

/-!
C76: more information never makes reported errors larger. Real Fisher matrices, `sq` is the square root.
-/

set_option linter.unusedSectionVars false

namespace Seyfert.Fisher

variable {N : Type} [LinearOrder N]

/-- The vector `V c` on `S`. -/
def apply (S : Finset N) (V : N → N → ℝ) (c : N → ℝ) (a : N) : ℝ := ∑ b ∈ S, V a b * c b

theorem quad_eq (S : Finset N) (V : N → N → ℝ) (c : N → ℝ) : quad S V c = ∑ a ∈ S, c a * apply S V c a := by
  unfold quad apply
  refine Finset.sum_congr rfl (fun a _ => ?_)
  rw [Finset.mul_sum]
  exact Finset.sum_congr rfl (fun b _ => by ring)

theorem apply_inverse {S : Finset N} {v V : N → N → ℝ} (h : Inverse S v V) (c : N → ℝ) {a : N} (ha : a ∈ S) :
    apply S v (apply S V c) a = c a := by
  unfold apply
  have := inverse_sum.mp h a ha
  calc ∑ b ∈ S, v a b * ∑ d ∈ S, V b d * c d = ∑ d ∈ S, (∑ b ∈ S, v a b * V b d) * c d := by
        simp only [Finset.mul_sum, Finset.sum_mul]
        rw [Finset.sum_comm]
        exact Finset.sum_congr rfl (fun _ _ => Finset.sum_congr rfl (fun _ _ => by ring))
    _ = ∑ d ∈ S, (if a = d then 1 else 0) * c d := Finset.sum_congr rfl (fun d hd => by rw [this d hd])
    _ = c a := by simp [ha]

/-- The value of the quadratic form of the matrix at `V c` is that of the inverse at `c`. -/
theorem quad_at_inverse {S : Finset N} {v V : N → N → ℝ} (h : Inverse S v V) (c : N → ℝ) :
    quad S v (apply S V c) = quad S V c := by
  rw [quad_eq, quad_eq]
  refine Finset.sum_congr rfl (fun a ha => ?_)
  rw [apply_inverse h c ha]; ring

/-- Completing the square: the inverse bounds `2 c x - x v x`. -/
theorem variational {S : Finset N} {v V : N → N → ℝ} (hs : ∀ a ∈ S, ∀ b ∈ S, v a b = v b a)
    (hp : ∀ x, 0 ≤ quad S v x) (h : Inverse S v V) (c x : N → ℝ) :
    2 * ∑ a ∈ S, c a * x a - quad S v x ≤ quad S V c := by
  have h0 := hp (fun a => x a - apply S V c a)
  have e : quad S v (fun a => x a - apply S V c a) =
      quad S v x - 2 * ∑ a ∈ S, c a * x a + quad S V c := by
    have e1 : quad S v (fun a => x a - apply S V c a) =
        quad S v x - ∑ a ∈ S, x a * apply S v (apply S V c) a
          - ∑ a ∈ S, ∑ b ∈ S, apply S V c a * v a b * x b + quad S v (apply S V c) := by
      unfold quad
      rw [← Finset.sum_sub_distrib, ← Finset.sum_sub_distrib, ← Finset.sum_add_distrib]
      refine Finset.sum_congr rfl (fun a _ => ?_)
      conv_rhs => rw [show apply S v (apply S V c) a = ∑ b ∈ S, v a b * apply S V c b from rfl, Finset.mul_sum]
      rw [← Finset.sum_sub_distrib, ← Finset.sum_sub_distrib, ← Finset.sum_add_distrib]
      exact Finset.sum_congr rfl (fun b _ => by ring)
    have e2 : ∑ a ∈ S, x a * apply S v (apply S V c) a = ∑ a ∈ S, c a * x a :=
      Finset.sum_congr rfl (fun a ha => by rw [apply_inverse h c ha]; ring)
    have e3 : ∑ a ∈ S, ∑ b ∈ S, apply S V c a * v a b * x b = ∑ a ∈ S, c a * x a := by
      rw [← e2, Finset.sum_comm]
      refine Finset.sum_congr rfl (fun b hb => ?_)
      rw [show apply S v (apply S V c) b = ∑ a ∈ S, v b a * apply S V c a from rfl, Finset.mul_sum]
      exact Finset.sum_congr rfl (fun a ha => by rw [hs a ha b hb]; ring)
    rw [e1, e2, e3, quad_at_inverse h]; ring
  rw [e] at h0
  linarith

/-- If every vector of `T` is matched by one of `S` with no larger form of `v` and the same product with `c`, the
covariance on `T` is no larger at `c`. -/
theorem inverse_le {S T : Finset N} {v w V W : N → N → ℝ} (hv : (block S v).PosDef) (hV : Inverse S v V)
    (hW : Inverse T w W) (c : N → ℝ)
    (hx : ∀ x : N → ℝ, ∃ x' : N → ℝ, quad S v x' ≤ quad T w x ∧ ∑ a ∈ S, c a * x' a = ∑ a ∈ T, c a * x a) :
    quad T W c ≤ quad S V c := by
  obtain ⟨hs, hp⟩ := block_posDef_iff.mp hv
  obtain ⟨x', h1, h2⟩ := hx (apply T W c)
  have hp' : ∀ x, 0 ≤ quad S v x := by
    intro x
    by_cases h : ∃ a ∈ S, x a ≠ 0
    · exact (hp x h).le
    · push Not at h
      apply le_of_eq
      unfold quad
      symm
      exact Finset.sum_eq_zero (fun a ha => Finset.sum_eq_zero (fun b _ => by rw [h a ha]; ring))
  have := variational hs hp' hV c x'
  rw [h2, ← quad_eq] at this
  rw [quad_at_inverse hW] at h1
  linarith

theorem quad_pair {S : Finset N} (V : N → N → ℝ) {p q : N} (hp : p ∈ S) (hq : q ∈ S) (hpq : p ≠ q) (s t : ℝ) :
    quad S V (fun a => if a = p then s else if a = q then t else 0) =
      s * s * V p p + s * t * V p q + t * s * V q p + t * t * V q q := by
  have h0 : ∀ f : N → ℝ, (∑ a ∈ S, (if a = p then s else if a = q then t else 0) * f a) = s * f p + t * f q := by
    intro f
    have e : ∀ a, (if a = p then s else if a = q then t else 0) * f a =
        (if a = p then s * f a else 0) + (if a = q then t * f a else 0) := by
      intro a
      by_cases h1 : a = p
      · subst h1; simp [hpq]
      · simp [h1]
    simp only [e, Finset.sum_add_distrib, Finset.sum_ite_eq', hp, hq, if_true]
  have hap : ∀ a, apply S V (fun a => if a = p then s else if a = q then t else 0) a = s * V a p + t * V a q := by
    intro a
    unfold apply
    rw [← h0]
    exact Finset.sum_congr rfl (fun b _ => by ring)
  rw [quad_eq, h0, hap, hap]; ring

theorem quad_single {S : Finset N} (V : N → N → ℝ) {p : N} (hp : p ∈ S) :
    quad S V (fun a => if a = p then 1 else 0) = V p p := by
  unfold quad
  simp [hp]

/-- Determinants of ordered 2 x 2 blocks are ordered. -/
theorem det_le {a b d a' b' d' : ℝ} (ha : 0 ≤ a) (hd : 0 ≤ d) (hdet : 0 ≤ a * d - b * b)
    (h : ∀ s t : ℝ, s * s * a + 2 * (s * t) * b + t * t * d ≤ s * s * a' + 2 * (s * t) * b' + t * t * d') :
    a * d - b * b ≤ a' * d' - b' * b' := by
  have hx : 0 ≤ a' - a := by have := h 1 0; linarith
  have hz : 0 ≤ d' - d := by have := h 0 1; linarith
  have hq : ∀ s t : ℝ, 0 ≤ s * s * (a' - a) + 2 * (s * t) * (b' - b) + t * t * (d' - d) := by
    intro s t; have := h s t; linarith
  generalize hX : a' - a = X at *
  generalize hY : b' - b = Y at *
  generalize hZ : d' - d = Z at *
  obtain rfl : a' = a + X := by linarith
  obtain rfl : b' = b + Y := by linarith
  obtain rfl : d' = d + Z := by linarith
  have hD : 0 ≤ X * Z - Y * Y := by
    rcases hx.eq_or_lt with h0 | h0
    · have hY0 : Y = 0 := by
        by_contra hne
        rcases hz.eq_or_lt with hz0 | hz0
        · have h1 := hq 1 1
          have h2 := hq 1 (-1)
          rw [← h0, ← hz0] at h1 h2
          apply hne; linarith
        · have := hq Z (-Y)
          rw [← h0] at this
          have hy2 : 0 < Y * Y := mul_self_pos.mpr hne
          nlinarith [mul_pos hz0 hy2]
      rw [← h0, hY0]; simp
    · have := hq Y (-X)
      have e : Y * Y * X + 2 * (Y * -X) * Y + -X * -X * Z = X * (X * Z - Y * Y) := by ring
      rw [e] at this
      exact nonneg_of_mul_nonneg_right this h0
  -- a Z + d X >= 2 b Y
  have key : 2 * (b * Y) ≤ a * Z + d * X := by
    have hsq : (2 * (b * Y)) ^ 2 ≤ (a * Z + d * X) ^ 2 := by
      have h1 : (b * b) * (Y * Y) ≤ (a * d) * (X * Z) :=
        mul_le_mul (by linarith) (by linarith) (mul_self_nonneg _) (mul_nonneg ha hd)
      nlinarith [sq_nonneg (a * Z - d * X)]
    exact (abs_le_of_sq_le_sq' hsq (by positivity)).2
  nlinarith

/-! ### Reported errors -/

/-- A matrix whose inverse has not been evaluated reports the errors of its entries. -/
theorem errors_of_new {en : Finset N → List N} (hen : Iteration en) {w0 wa : N} (hw : w0 ≠ wa) (fom oc : Bool)
    {F : FM N ℝ} (hF : PD F) (hi : F.inverse = none) :
    ∃ F' out, F.margErrors en Real.sqrt w0 wa fom oc = (F', .ok out) ∧
      ErrorsOf Real.sqrt w0 wa (F.cosmo ∪ F.nuis) (if oc then F.cosmo else F.cosmo ∪ F.nuis) fom
        F.matrix.val out := by
  have hF' : F.matrix.On (F.cosmo ∪ F.nuis) := hF.1
  obtain ⟨V, hV, _⟩ := posDef_inverse hF.2
  obtain ⟨v, h1, h2, _⟩ := On.invertDf_of_inverse hF' hV
  have e : F.evalInverse = ({ F with inverse := some { F.matrix with val := v } }, .ok ()) := by
    unfold FM.evalInverse; rw [h1]
  have hon : DF.On { F.matrix with val := v } (F.cosmo ∪ F.nuis) := ⟨hF'.same, hF'.nodup, hF'.mem⟩
  obtain ⟨out, h3, h4⟩ := errors_of_fresh hen Real.sqrt hw fom oc
    (F := { F with inverse := some { F.matrix with val := v } }) hF.1 rfl hon h2
  refine ⟨({ F with inverse := some { F.matrix with val := v } } : FM N ℝ), out, ?_, h4⟩
  unfold FM.margErrors at h3 ⊢
  rw [hi, e]
  exact h3

/-- The errors in `out'` are at most those in `out` for the parameters in both, and the figure of merit is at least
as large. -/
def Better (out' out : List (N × ℝ) × Option ℝ) : Prop :=
  (∀ p e e', (p, e) ∈ out.1 → (p, e') ∈ out'.1 → e' ≤ e) ∧
  ∀ f f', out.2 = some f → out'.2 = some f' → f ≤ f'

theorem better_of {w0 wa : N} (hw : w0 ≠ wa) {fom : Bool} {S T RS RT : Finset N} {v w : N → N → ℝ}
    {out out' : List (N × ℝ) × Option ℝ} (hv : (block S v).PosDef) (hw' : (block T w).PosDef)
    (hRS : RS ⊆ S) (hRT : RT ⊆ T)
    (h : ErrorsOf Real.sqrt w0 wa S RS fom v out) (h' : ErrorsOf Real.sqrt w0 wa T RT fom w out')
    (hx : ∀ c : N → ℝ, (∀ a, c a ≠ 0 → a ∈ S ∧ a ∈ T) → ∀ x : N → ℝ, ∃ x' : N → ℝ,
      quad S v x' ≤ quad T w x ∧ ∑ a ∈ S, c a * x' a = ∑ a ∈ T, c a * x a) :
    Better out' out := by
  obtain ⟨V, hV, _, d1, e1, f1⟩ := h
  obtain ⟨W, hW, _, d2, e2, f2⟩ := h'
  have hle : ∀ c : N → ℝ, (∀ a, c a ≠ 0 → a ∈ S ∧ a ∈ T) → quad T W c ≤ quad S V c :=
    fun c hc => inverse_le hv hV hW c (hx c hc)
  constructor
  · intro p e e' hp hp'
    have hpS := hRS ((d1 p).mp (List.mem_map_of_mem (f := Prod.fst) hp))
    have hpT := hRT ((d2 p).mp (List.mem_map_of_mem (f := Prod.fst) hp'))
    have h1 : e = Real.sqrt (V p p) := e1 _ hp
    have h2 : e' = Real.sqrt (W p p) := e2 _ hp'
    rw [h1, h2]
    apply Real.sqrt_le_sqrt
    have := hle (fun a => if a = p then 1 else 0) (by
      intro a ha
      by_cases hap : a = p
      · subst hap; exact ⟨hpS, hpT⟩
      · simp [hap] at ha)
    rwa [quad_single V hpS, quad_single W hpT] at this
  · intro f f' hf hf'
    rw [f1] at hf
    rw [f2] at hf'
    split at hf
    · rename_i hS
      split at hf'
      · rename_i hT
        obtain ⟨W', hW2, hWpd⟩ := posDef_inverse hw'
        have hWe := hW.unique hW2
        have hWb : (block T W).PosDef := by rwa [block_congr.mpr hWe]
        obtain ⟨hVs, _⟩ : (∀ a ∈ S, ∀ b ∈ S, V a b = V b a) ∧ True := by
          obtain ⟨V', hV2, hVpd⟩ := posDef_inverse hv
          have : (block S V).PosDef := by rwa [block_congr.mpr (hV.unique hV2)]
          exact ⟨(block_posDef_iff.mp this).1, trivial⟩
        obtain ⟨hWs, hWp⟩ := block_posDef_iff.mp hWb
        have hq : ∀ s t : ℝ, s * s * W w0 w0 + 2 * (s * t) * W w0 wa + t * t * W wa wa ≤
            s * s * V w0 w0 + 2 * (s * t) * V w0 wa + t * t * V wa wa := by
          intro s t
          have := hle (fun a => if a = w0 then s else if a = wa then t else 0) (by
            intro a ha
            by_cases h1 : a = w0
            · subst h1; exact ⟨hS.2.1, hT.2.1⟩
            · by_cases h2 : a = wa
              · subst h2; exact ⟨hS.2.2, hT.2.2⟩
              · simp [h1, h2] at ha)
          rw [quad_pair V hS.2.1 hS.2.2 hw, quad_pair W hT.2.1 hT.2.2 hw, hVs wa hS.2.2 w0 hS.2.1,
            hWs wa hT.2.2 w0 hT.2.1] at this
          linarith
        have hpos : ∀ s t : ℝ, (s ≠ 0 ∨ t ≠ 0) →
            0 < s * s * W w0 w0 + 2 * (s * t) * W w0 wa + t * t * W wa wa := by
          intro s t hst
          have := hWp (fun a => if a = w0 then s else if a = wa then t else 0) (by
            rcases hst with h | h
            · exact ⟨w0, hT.2.1, by simpa using h⟩
            · exact ⟨wa, hT.2.2, by simpa [hw.symm] using h⟩)
          rw [quad_pair W hT.2.1 hT.2.2 hw, hWs wa hT.2.2 w0 hT.2.1] at this
          linarith
        have ha := hpos 1 0 (Or.inl one_ne_zero)
        have hd := hpos 0 1 (Or.inr one_ne_zero)
        have hdet : 0 < W w0 w0 * W wa wa - W w0 wa * W w0 wa := by
          have := hpos (W w0 wa) (-W w0 w0) (Or.inr (by linarith))
          have e : W w0 wa * W w0 wa * W w0 w0 + 2 * (W w0 wa * -W w0 w0) * W w0 wa +
              -W w0 w0 * -W w0 w0 * W wa wa = W w0 w0 * (W w0 w0 * W wa wa - W w0 wa * W w0 wa) := by ring
          rw [e] at this
          exact (pos_iff_pos_of_mul_pos this).mp (by linarith)
        have hle2 := det_le (by linarith) (by linarith) hdet.le hq
        cases hf
        cases hf'
        rw [hVs wa hS.2.2 w0 hS.2.1, hWs wa hT.2.2 w0 hT.2.1]
        exact one_div_le_one_div_of_le (Real.sqrt_pos.mpr hdet) (Real.sqrt_le_sqrt hle2)
      · cases hf'
    · cases hf

/-- C76. Fixing parameters never increases the reported error of another parameter and never lowers the figure of
merit. -/
theorem fix_errors_le {en : Finset N → List N} (hen : Iteration en) {w0 wa : N} (hw : w0 ≠ wa) (fom oc : Bool)
    {F : FM N ℝ} (hF : PD F) (hi : F.inverse = none) {A : Finset N} (hA : A ⊆ F.cosmo ∪ F.nuis) :
    ∃ R F' R' out out', F.fix A = (R, .ok ()) ∧ F.margErrors en Real.sqrt w0 wa fom oc = (F', .ok out) ∧
      R.margErrors en Real.sqrt w0 wa fom oc = (R', .ok out') ∧ Better out' out := by
  obtain ⟨R, h1, wf, c, n, _, _, _, hval, hinv, _, _⟩ := fix_spec hF.1 hA
  have hS : R.cosmo ∪ R.nuis = (F.cosmo ∪ F.nuis) \ A := by rw [c, n, ← Finset.union_sdiff_distrib]
  have hsub : R.cosmo ∪ R.nuis ⊆ F.cosmo ∪ F.nuis := by rw [hS]; exact Finset.sdiff_subset
  have hR : PD R := ⟨wf, by rw [hval]; exact posDef_sub hsub hF.2⟩
  obtain ⟨F', out, h2, h3⟩ := errors_of_new hen hw fom oc hF hi
  obtain ⟨R', out', h4, h5⟩ := errors_of_new hen hw fom oc hR (by rw [hinv, hi])
  refine ⟨R, F', R', out, out', h1, h2, h4, better_of hw hF.2 hR.2 (by split; exacts [Finset.subset_union_left,
    subset_rfl]) (by split; exacts [Finset.subset_union_left, subset_rfl]) h3 h5 ?_⟩
  intro d hd x
  refine ⟨fun a => if a ∈ R.cosmo ∪ R.nuis then x a else 0, le_of_eq ?_, ?_⟩
  · unfold quad
    rw [hval, ← Finset.sum_subset hsub]
    · refine Finset.sum_congr rfl (fun a ha => ?_)
      rw [← Finset.sum_subset hsub]
      · exact Finset.sum_congr rfl (fun b hb => by simp only [ha, hb, if_true])
      · intro b _ hb; simp only [hb, if_false]; ring
    · intro a _ ha
      exact Finset.sum_eq_zero (fun b _ => by simp only [ha, if_false]; ring)
  · rw [← Finset.sum_subset hsub]
    · exact Finset.sum_congr rfl (fun a ha => by simp only [ha, if_true])
    · intro a _ ha; simp only [ha, if_false]; ring

/-- C76. Adding a matrix with non-negative quadratic form never increases a reported error and never lowers the figure
of merit, also when the added matrix brings parameters of its own, as long as the sum is positive definite. -/
theorem add_errors_le {en : Finset N → List N} (hen : Iteration en) {w0 wa : N} (hw : w0 ≠ wa) (fom oc : Bool)
    {F G R : FM N ℝ} (hF : PD F) (hi : F.inverse = none) (hG : G.WF)
    (hG0 : ∀ x, 0 ≤ quad (G.cosmo ∪ G.nuis) G.matrix.ent x) (h : F.add en G = .ok R) (hR : PD R) :
    ∃ F' R' out out', F.margErrors en Real.sqrt w0 wa fom oc = (F', .ok out) ∧
      R.margErrors en Real.sqrt w0 wa fom oc = (R', .ok out') ∧ Better out' out := by
  obtain ⟨R₁, e, wf, _, c, n, hinv, _, _, hval⟩ := add_spec hen hF.1 hG
  rw [h] at e; cases e
  obtain ⟨F', out, h2, h3⟩ := errors_of_new hen hw fom oc hF hi
  obtain ⟨R', out', h4, h5⟩ := errors_of_new hen hw fom oc hR hinv
  have hsF : F.cosmo ∪ F.nuis ⊆ R.cosmo ∪ R.nuis := by
    rw [c, n]; exact Finset.union_subset_union Finset.subset_union_left Finset.subset_union_left
  have hsG : G.cosmo ∪ G.nuis ⊆ R.cosmo ∪ R.nuis := by
    rw [c, n]; exact Finset.union_subset_union Finset.subset_union_right Finset.subset_union_right
  refine ⟨F', R', out, out', h2, h4, better_of hw hF.2 hR.2 (by split; exacts [Finset.subset_union_left,
    subset_rfl]) (by split; exacts [Finset.subset_union_left, subset_rfl]) h3 h5 ?_⟩
  intro d hd x
  have hq : ∀ {H : FM N ℝ} (_ : H.WF) (y : N → ℝ),
      quad (H.cosmo ∪ H.nuis) H.matrix.val y = quad (H.cosmo ∪ H.nuis) H.matrix.ent y := by
    intro H hH y
    unfold quad
    exact Finset.sum_congr rfl (fun a ha => Finset.sum_congr rfl (fun b hb => by rw [ent_val hH ha hb]))
  refine ⟨x, ?_, ?_⟩
  · rw [hq hF.1, hq hR.1, ← quad_ent_super hF.1 hsF]
    have e : quad (R.cosmo ∪ R.nuis) R.matrix.ent x = quad (R.cosmo ∪ R.nuis) F.matrix.ent x +
        quad (R.cosmo ∪ R.nuis) G.matrix.ent x := by
      unfold quad
      rw [← Finset.sum_add_distrib]
      refine Finset.sum_congr rfl (fun a _ => ?_)
      rw [← Finset.sum_add_distrib]
      exact Finset.sum_congr rfl (fun b _ => by rw [hval]; ring)
    rw [e, quad_ent_super hG hsG]
    linarith [hG0 x]
  · refine Finset.sum_subset hsF (fun a _ ha => ?_)
    have : d a = 0 := by
      by_contra hne
      exact ha (hd a hne).1
    rw [this]; ring

/-- C76. The unmarginalised error never exceeds the marginalised one; both are reported for the same parameters. -/
theorem unmarg_le_marg {en : Finset N → List N} (hen : Iteration en) {w0 wa : N} (hw : w0 ≠ wa) (oc : Bool)
    {F : FM N ℝ} (hF : PD F) (hi : F.inverse = none) :
    ∃ F' us out, F.unmargErrors en Real.sqrt oc = .ok us ∧
      F.margErrors en Real.sqrt w0 wa false oc = (F', .ok out) ∧
      (∀ p, p ∈ us.map Prod.fst ↔ p ∈ out.1.map Prod.fst) ∧
      (∀ p u, (p, u) ∈ us → u = 1 / Real.sqrt (F.matrix.ent p p)) ∧
      ∀ p u e, (p, u) ∈ us → (p, e) ∈ out.1 → u ≤ e := by
  have hF' : F.matrix.On (F.cosmo ∪ F.nuis) := hF.1
  obtain ⟨F', out, h2, V, hV, _, d1, e1, _⟩ := errors_of_new hen hw false oc hF hi
  have hz : (F.matrix.rows.zip F.matrix.cols).map
      (fun ab => (ab.1, 1 / Real.sqrt (F.matrix.val ab.1 ab.2))) =
      F.matrix.rows.map (fun p => (p, 1 / Real.sqrt (F.matrix.val p p))) := by
    rw [hF'.same]
    generalize F.matrix.rows = l
    induction l with
    | nil => rfl
    | cons a l ih => rw [List.zip_cons_cons, List.map_cons, List.map_cons, ih]
  have hco : ∀ p ∈ F.cosmo, p ∈ F.matrix.rows := fun p hp => (hF'.mem p).mpr (Finset.mem_union_left _ hp)
  have hu : ∃ us, F.unmargErrors en Real.sqrt oc = .ok us ∧
      (∀ p, p ∈ us.map Prod.fst ↔ p ∈ (if oc then F.cosmo else F.cosmo ∪ F.nuis)) ∧
      ∀ p u, (p, u) ∈ us → u = 1 / Real.sqrt (F.matrix.val p p) := by
    unfold FM.unmargErrors FM.onlyCosmo
    rw [if_neg (by rw [hF'.same]; exact lt_irrefl _), hz]
    cases oc with
    | false =>
      refine ⟨_, by rw [if_neg Bool.false_ne_true], ?_, ?_⟩
      · intro p; simp [hF'.mem]
      · intro p u hpu
        obtain ⟨a, _, ha⟩ := List.mem_map.mp hpu
        cases ha; rfl
    | true =>
      have e : (en F.cosmo).filterMap (fun p =>
          ((F.matrix.rows.map (fun p => (p, 1 / Real.sqrt (F.matrix.val p p)))).lookup p).map (fun v => (p, v))) =
          (en F.cosmo).map (fun p => (p, 1 / Real.sqrt (F.matrix.val p p))) := by
        conv_rhs => rw [← List.filterMap_eq_map]
        apply List.filterMap_congr
        intro p hp
        rw [lookup_map_self _ _ _ (hco p (((hen _).2 p).mp hp))]
        rfl
      refine ⟨_, by rw [if_pos rfl, if_pos hco, e], ?_, ?_⟩
      · intro p; simp [(hen _).2]
      · intro p u hpu
        obtain ⟨a, _, ha⟩ := List.mem_map.mp hpu
        cases ha; rfl
  obtain ⟨us, h3, d2, e2⟩ := hu
  have hin : ∀ p, p ∈ (if oc then F.cosmo else F.cosmo ∪ F.nuis) → p ∈ F.cosmo ∪ F.nuis := by
    intro p hp; split at hp; exacts [Finset.mem_union_left _ hp, hp]
  refine ⟨F', us, out, h3, h2, fun p => by rw [d1, d2], ?_, ?_⟩
  · intro p u hpu
    have hp := hin p ((d2 p).mp (List.mem_map_of_mem (f := Prod.fst) hpu))
    rw [e2 p u hpu, ent_val hF.1 hp hp]
  · intro p u e hpu hpe
    have hp := hin p ((d2 p).mp (List.mem_map_of_mem (f := Prod.fst) hpu))
    have h5 : e = Real.sqrt (V p p) := e1 _ hpe
    rw [e2 p u hpu, h5, ← Real.sqrt_one, ← Real.sqrt_div zero_le_one]
    apply Real.sqrt_le_sqrt
    have hpp : 0 < F.matrix.val p p := by
      have := (block_posDef_iff.mp hF.2).2 (fun a => if a = p then 1 else 0) ⟨p, hp, by simp⟩
      rwa [quad_single _ hp] at this
    have hW : Inverse {p} F.matrix.val (fun _ _ => 1 / F.matrix.val p p) := by
      rw [inverse_sum]
      intro a ha b hb
      rw [Finset.mem_singleton] at ha hb
      subst ha hb
      simp [hpp.ne']
    have := inverse_le hF.2 hV hW (fun a => if a = p then 1 else 0) (by
      intro x
      refine ⟨fun a => if a = p then x p else 0, le_of_eq ?_, ?_⟩
      · unfold quad; simp [hp]
      · simp [hp])
    rwa [quad_single V hp, quad_single _ (Finset.mem_singleton_self p)] at this

end Seyfert.Fisher
