import Verif.Props.FinalResults

/-!
C59, C13: for real positive definite matrices and sums the final results are always produced.
-/

set_option linter.unusedSectionVars false

namespace Seyfert.Fisher

variable {N K : Type} [LinearOrder N] [Field K] [DecidableEq K]

/-- The quadratic form of `v` on `S`. -/
def quad (S : Finset N) (v : N → N → ℝ) (x : N → ℝ) : ℝ := ∑ a ∈ S, ∑ b ∈ S, x a * v a b * x b

theorem block_posDef_iff {S : Finset N} {v : N → N → ℝ} : (block S v).PosDef ↔
    (∀ a ∈ S, ∀ b ∈ S, v a b = v b a) ∧ ∀ x : N → ℝ, (∃ a ∈ S, x a ≠ 0) → 0 < quad S v x := by
  have hq : ∀ x : N → ℝ, star (fun a : S => x a) ⬝ᵥ ((block S v).mulVec (fun a : S => x a))
      = quad S v x := by
    intro x
    unfold quad
    rw [← Finset.sum_coe_sort S]
    simp only [dotProduct, Matrix.mulVec, block, Matrix.of_apply, Pi.star_apply, star_trivial,
      Finset.mul_sum]
    refine Finset.sum_congr rfl (fun a _ => ?_)
    rw [← Finset.sum_coe_sort S (fun b => x a * v a b * x b)]
    exact Finset.sum_congr rfl (fun b _ => by ring)
  rw [Matrix.posDef_iff_dotProduct_mulVec]
  constructor
  · rintro ⟨h1, h2⟩
    refine ⟨fun a ha b hb => ?_, fun x hx => ?_⟩
    · have := congrFun (congrFun h1 ⟨b, hb⟩) ⟨a, ha⟩
      simpa [block, Matrix.conjTranspose_apply] using this
    · rw [← hq]
      refine h2 (fun h => ?_)
      obtain ⟨a, ha, hx⟩ := hx
      exact hx (congrFun h ⟨a, ha⟩)
  · rintro ⟨h1, h2⟩
    refine ⟨?_, fun x hx => ?_⟩
    · ext a b
      simp only [Matrix.conjTranspose_apply, block, Matrix.of_apply, star_trivial]
      exact h1 _ b.2 _ a.2
    · let y : N → ℝ := fun a => if ha : a ∈ S then x ⟨a, ha⟩ else 0
      have hy : (fun a : S => y a) = x := by
        funext a; simp only [y, dif_pos a.2]
      rw [← hy, hq]
      apply h2
      by_contra hn
      push Not at hn
      apply hx
      funext a
      rw [← hy]
      exact hn a a.2

/-- A well-formed matrix that is symmetric positive definite on its parameters. -/
def PD (F : FM N ℝ) : Prop := F.WF ∧ (block (F.cosmo ∪ F.nuis) F.matrix.val).PosDef

theorem block_ent {F : FM N K} (hF : F.WF) :
    block (F.cosmo ∪ F.nuis) F.matrix.ent = block (F.cosmo ∪ F.nuis) F.matrix.val := by
  ext a b
  exact ent_val hF a.2 b.2

theorem PD_iff {F : FM N ℝ} (hF : F.WF) :
    PD F ↔ (block (F.cosmo ∪ F.nuis) F.matrix.ent).PosDef := by
  unfold PD; rw [block_ent hF]; exact ⟨fun h => h.2, fun h => ⟨hF, h⟩⟩

theorem PD.congr {F G : FM N ℝ} (h : PD F) (hG : G.WF) (hc : SameContent F G) : PD G := by
  rw [PD_iff hG]
  have := (PD_iff h.1).mp h
  rw [← hc.1, ← hc.2.1]
  convert this using 2
  funext a b
  exact (hc.2.2 a b).symm

theorem quad_list {α : Type} (S : Finset N) (x : N → ℝ) (e : α → N → N → ℝ) (L : List α) :
    quad S (fun a b => (L.map (fun o => e o a b)).sum) x = (L.map (fun o => quad S (e o) x)).sum := by
  induction L with
  | nil => simp [quad]
  | cons o L ih =>
    rw [List.map_cons, List.sum_cons, ← ih]
    unfold quad
    simp only [List.map_cons, List.sum_cons, mul_add, add_mul, Finset.sum_add_distrib]

theorem quad_ent_super {F : FM N ℝ} (hF : F.WF) {S : Finset N} (hS : F.cosmo ∪ F.nuis ⊆ S)
    (x : N → ℝ) : quad S F.matrix.ent x = quad (F.cosmo ∪ F.nuis) F.matrix.ent x := by
  unfold quad
  symm
  have h0 : ∀ a b, (a ∉ F.cosmo ∪ F.nuis ∨ b ∉ F.cosmo ∪ F.nuis) → F.matrix.ent a b = 0 := by
    intro a b h
    rw [On.ent hF, if_neg]
    exact fun h' => h.elim (fun k => k h'.1) (fun k => k h'.2)
  rw [← Finset.sum_subset hS]
  · refine Finset.sum_congr rfl (fun a ha => ?_)
    refine Finset.sum_subset hS (fun b _ hb => ?_)
    rw [h0 a b (Or.inr hb)]; ring
  · intro a _ ha
    refine Finset.sum_eq_zero (fun b _ => ?_)
    rw [h0 a b (Or.inl ha)]; ring

/-- C13. A sum of positive definite matrices, each with its own parameters, is positive definite on
the union of the parameters. -/
theorem sum_posDef {M : Str → FM N ℝ} {c : Comb} {R : FM N ℝ} (h : IsComb M c R) (hR : R.WF)
    (hplus : ∀ x ∈ c.terms, x.1 = true) (hM : ∀ o ∈ c.operands, PD (M o)) : PD R := by
  rw [PD_iff hR, block_posDef_iff]
  have hent : ∀ p q, R.matrix.ent p q = (c.operands.map (fun o => (M o).matrix.ent p q)).sum := by
    intro p q
    rw [h.ent]
    unfold Comb.operands
    rw [List.map_cons, List.sum_cons, List.map_map]
    congr 2
    apply List.map_congr_left
    intro x hx
    simp [hplus x hx]
  have hsub : ∀ o ∈ c.operands, (M o).cosmo ∪ (M o).nuis ⊆ R.cosmo ∪ R.nuis := by
    intro o ho a ha
    rw [Finset.mem_union] at ha ⊢
    exact ha.imp (fun h1 => (h.cosmo a).mpr ⟨o, ho, h1⟩) (fun h1 => (h.nuis a).mpr ⟨o, ho, h1⟩)
  have hpd := fun o ho => block_posDef_iff.mp ((PD_iff (hM o ho).1).mp (hM o ho))
  constructor
  · intro a _ b _
    rw [hent, hent]
    congr 1
    apply List.map_congr_left
    intro o ho
    by_cases hab : a ∈ (M o).cosmo ∪ (M o).nuis ∧ b ∈ (M o).cosmo ∪ (M o).nuis
    · exact (hpd o ho).1 a hab.1 b hab.2
    · rw [On.ent (hM o ho).1, On.ent (hM o ho).1, if_neg hab, if_neg (fun h => hab h.symm)]
  · rintro x ⟨a, ha, hx⟩
    have e : R.matrix.ent = fun p q => (c.operands.map (fun o => (M o).matrix.ent p q)).sum := by
      funext p q; exact hent p q
    rw [e, quad_list]
    have hmem : ∃ o ∈ c.operands, a ∈ (M o).cosmo ∪ (M o).nuis := by
      rcases Finset.mem_union.mp ha with h1 | h1
      · obtain ⟨o, ho, h2⟩ := (h.cosmo a).mp h1; exact ⟨o, ho, Finset.mem_union_left _ h2⟩
      · obtain ⟨o, ho, h2⟩ := (h.nuis a).mp h1; exact ⟨o, ho, Finset.mem_union_right _ h2⟩
    obtain ⟨o, ho, hao⟩ := hmem
    have hnn : ∀ o ∈ c.operands, 0 ≤ quad (R.cosmo ∪ R.nuis) (M o).matrix.ent x := by
      intro o ho
      rw [quad_ent_super (hM o ho).1 (hsub o ho)]
      by_cases hz : ∃ a ∈ (M o).cosmo ∪ (M o).nuis, x a ≠ 0
      · exact ((hpd o ho).2 x hz).le
      · push Not at hz
        unfold quad
        refine (Finset.sum_eq_zero (fun a ha => Finset.sum_eq_zero (fun b _ => ?_))).ge
        rw [hz a ha]; ring
    have hpos : 0 < quad (R.cosmo ∪ R.nuis) (M o).matrix.ent x := by
      rw [quad_ent_super (hM o ho).1 (hsub o ho)]
      exact (hpd o ho).2 x ⟨a, hao, hx⟩
    refine lt_of_lt_of_le hpos (List.single_le_sum ?_ _ (List.mem_map.mpr ⟨o, ho, rfl⟩))
    intro y hy
    obtain ⟨o', ho', rfl⟩ := List.mem_map.mp hy
    exact hnn o' ho'

theorem forRefs_succeeds {α : Type} (f : FM N K → Res N K α) (rs : List Ref) (hn : rs.Nodup)
    (h : Heap N K) (hf : ∀ r ∈ rs, ∃ F F' a, h[r]? = some F ∧ f F = (F', .ok a)) :
    ∃ h' out, forRefs f h rs = (h', .ok out) := by
  induction rs generalizing h with
  | nil => exact ⟨h, [], rfl⟩
  | cons r rs ih =>
    obtain ⟨F, F', a, h1, h2⟩ := hf r List.mem_cons_self
    obtain ⟨hr, hn'⟩ := List.nodup_cons.mp hn
    obtain ⟨h', out, h3⟩ := ih hn' (h.set r F') (fun s hs => by
      obtain ⟨G, G', b, g1, g2⟩ := hf s (List.mem_cons_of_mem _ hs)
      refine ⟨G, G', b, ?_, g2⟩
      have hne : r ≠ s := by rintro rfl; exact hr hs
      rw [List.getElem?_set_ne hne, g1])
    exact ⟨h', a :: out, by unfold forRefs; simp only [h1, h2, h3]⟩

theorem prep_posDef {en : Finset N → List N} (hen : Iteration en) {F : FM N ℝ} (hF : PD F)
    (mode : NuisMode) : ∃ F₂, nuisStep en mode F = (F₂, .ok ()) ∧ PD F₂ := by
  cases mode with
  | fixed =>
    obtain ⟨R, e, wf, c, n, _, _, _, v, _⟩ := fix_spec hF.1 (A := F.nuis) Finset.subset_union_right
    refine ⟨R, e, wf, ?_⟩
    rw [v]
    refine posDef_sub ?_ hF.2
    rw [c, n]
    exact Finset.union_subset_union Finset.sdiff_subset Finset.sdiff_subset
  | margAfter => exact ⟨F, rfl, hF⟩
  | margBefore =>
    simp only [nuisStep, FM.margNuisInPlace]
    split
    · obtain ⟨R, V, e, wf, _, _, _, _, pd⟩ := marg_posDef hen hF.1 hF.2 (A := F.nuis)
        Finset.subset_union_right
      exact ⟨R, e, wf, pd⟩
    · exact ⟨F, rfl, hF⟩

theorem errors_posDef {en : Finset N → List N} (hen : Iteration en) (sq : ℝ → ℝ) {w0 wa : N}
    (hw : w0 ≠ wa) {F : FM N ℝ} (hF : PD F) (hs : NotStale F) :
    ∃ F' out, F.margErrors en sq w0 wa true true = (F', .ok out) := by
  obtain ⟨wf, hi | ⟨I, hI, hon, hinv⟩⟩ := hs
  · obtain ⟨V, hV, _⟩ := posDef_inverse hF.2
    have hF' : F.matrix.On (F.cosmo ∪ F.nuis) := hF.1
    obtain ⟨v, hv, hb⟩ := On.invertDf_ok hF' (inverse_iff.mp hV).1
    obtain ⟨out, h1, _⟩ := errors_of_fresh hen sq hw true true
      (F := { F with inverse := some { F.matrix with val := v } }) wf rfl
      ⟨hF'.same, hF'.nodup, hF'.mem⟩ (inverse_iff.mpr ⟨(inverse_iff.mp hV).1, hb⟩)
    refine ⟨{ F with inverse := some { F.matrix with val := v } }, out, ?_⟩
    rw [← h1]
    unfold FM.margErrors FM.evalInverse
    simp only [hi, hv]
  · obtain ⟨out, h1, _⟩ := errors_of_fresh hen sq hw true true wf hI hon hinv
    exact ⟨F, out, h1⟩

/-- C59. Loaded matrices that are positive definite, fixed parameters that all of them have and combinations that are
positive definite once the matrices are prepared: the results are produced without an exception, for every way of treating
nuisance parameters. -/
theorem final_results_succeed_of {en : Finset N → List N} (hen : Iteration en) (sq : ℝ → ℝ) {w0 wa : N}
    (hw : w0 ≠ wa) (h : Heap N ℝ) (d : Dict Str Ref) (M : Str → FM N ℝ)
    (hk : (d.map Prod.fst).Nodup) (hn : (d.map Prod.snd).Nodup) (fixed : Finset N)
    (hM : ∀ k r, (k, r) ∈ d → h[r]? = some (M k) ∧ PD (M k) ∧ Disjoint (M k).cosmo (M k).nuis ∧
      (M k).margFlag = true ∧ fixed ⊆ (M k).cosmo ∪ (M k).nuis)
    (mode : NuisMode) (cs : List Comb)
    (hcs : ∀ c ∈ cs, c.Valid ∧ c.terms ≠ [] ∧ ∀ (P : Str → FM N ℝ) (R : FM N ℝ),
      (∀ o ∈ c.operands, PD (P o) ∧ o ∈ d.map Prod.fst ∧ Prepared fixed mode (M o) (P o)) → R.WF → IsComb P c R → PD R) :
    ∃ h' Fs errs, createResults en sq w0 wa h d fixed mode (cs.map Comb.text)
      = (h', .ok (Fs, errs)) := by
  have hv : ∀ r ∈ d.map Prod.snd, r < h.length := by
    intro r hr
    obtain ⟨⟨k, r'⟩, hx, rfl⟩ := List.mem_map.mp hr
    exact (List.getElem?_eq_some_iff.mp (hM k r' hx).1).1
  obtain ⟨c1, c2, c3, c4⟩ := deepcopy_spec hn hv
  unfold createResults
  simp only
  generalize deepcopyDict h d = c at *
  have hobj : ∀ s ∈ c.2.map Prod.snd, ∃ k r, (k, s) ∈ c.2 ∧ (k, r) ∈ d ∧ c.1[s]? = some (M k).copy := by
    intro s hs
    obtain ⟨⟨k, s'⟩, hx, rfl⟩ := List.mem_map.mp hs
    obtain ⟨r, F, g1, g2, g3⟩ := c4 k s' hx
    rw [(hM k r g1).1] at g2; cases g2
    exact ⟨k, r, hx, g1, g3⟩
  -- fixing
  have fixOne : ∀ k r, (k, r) ∈ d → ∃ F₁, (M k).copy.fix fixed = (F₁, .ok ()) ∧ PD F₁ := by
    intro k r hkr
    obtain ⟨_, pd, _, _, hsub⟩ := hM k r hkr
    obtain ⟨R, e, wf, c', n', _, _, _, v, _⟩ := fix_spec (F := (M k).copy) pd.1 hsub
    refine ⟨R, e, wf, ?_⟩
    rw [v]
    refine posDef_sub ?_ pd.2
    rw [c', n']
    exact Finset.union_subset_union Finset.sdiff_subset Finset.sdiff_subset
  obtain ⟨h2, o2, heq2⟩ := forRefs_succeeds (fun F : FM N ℝ => F.fix fixed) _ c2 c.1 (fun s hs => by
    obtain ⟨k, r, _, g2, g3⟩ := hobj s hs
    obtain ⟨F₁, e, _⟩ := fixOne k r g2
    exact ⟨_, F₁, (), g3, e⟩)
  simp only [heq2]
  have obj2 : ∀ k s, (k, s) ∈ c.2 → ∃ r F₁, (k, r) ∈ d ∧ (M k).copy.fix fixed = (F₁, .ok ()) ∧
      PD F₁ ∧ h2[s]? = some F₁ := by
    intro k s hs
    obtain ⟨r, F, g1, g2, g3⟩ := c4 k s hs
    rw [(hM k r g1).1] at g2; cases g2
    obtain ⟨A, B, u, a1, a2, a3⟩ := forRefs_ok_mem _ c2 heq2 (List.mem_map.mpr ⟨_, hs, rfl⟩)
    rw [g3] at a1; cases a1
    obtain ⟨F₁, e, pd⟩ := fixOne k r g1
    rw [a2] at e; cases e
    exact ⟨r, B, g1, a2, pd, a3⟩
  -- nuisance parameters
  obtain ⟨h3, o3, heq3⟩ := forRefs_succeeds (nuisStep en mode) _ c2 h2 (fun s hs => by
    obtain ⟨⟨k, s'⟩, hx, rfl⟩ := List.mem_map.mp hs
    obtain ⟨r, F₁, _, _, pd, g⟩ := obj2 k s' hx
    obtain ⟨F₂, e, _⟩ := prep_posDef hen pd mode
    exact ⟨_, F₂, (), g, e⟩)
  simp only [heq3]
  have obj3 : ∀ k s, (k, s) ∈ c.2 → ∃ F₂, h3[s]? = some F₂ ∧ NotStale F₂ ∧ PD F₂ ∧
      k ∈ d.map Prod.fst ∧ Prepared fixed mode (M k) F₂ := by
    intro k s hs
    obtain ⟨r, F₁, g1, g2, pd, g3⟩ := obj2 k s hs
    obtain ⟨A, B, u, a1, a2, a3⟩ := forRefs_ok_mem _ c2 heq3 (List.mem_map.mpr ⟨_, hs, rfl⟩)
    rw [g3] at a1; cases a1
    obtain ⟨F₂, e, pd2⟩ := prep_posDef hen pd mode
    rw [a2] at e; cases e
    obtain ⟨_, m2, m3, m4, _⟩ := hM k r g1
    exact ⟨B, a3, (prepared_of_steps hen m2.1 m3 m4 g2 a2).1, pd2, List.mem_map_of_mem (f := Prod.fst) g1,
      (prepared_of_steps hen m2.1 m3 m4 g2 a2).2⟩
  have ck : (c.2.map Prod.fst).Nodup := by rw [c1]; exact hk
  obtain ⟨P, hP⟩ : ∃ P : Str → FM N ℝ, ∀ k s, c.2.lookup k = some s → h3[s]? = some (P k) ∧
      NotStale (P k) ∧ PD (P k) ∧ k ∈ d.map Prod.fst ∧ Prepared fixed mode (M k) (P k) := by
    refine ⟨fun k => ((c.2.lookup k).bind (fun s => h3[s]?)).getD (M k), fun k s hs => ?_⟩
    obtain ⟨F, q1, q2, q3⟩ := obj3 k s (mem_of_lookup hs)
    simp only [hs, Option.bind_some, q1, Option.getD_some]
    exact ⟨trivial, q2, q3⟩
  have c3' : ∀ s ∈ c.2.map Prod.snd, s < h3.length := by
    intro s hs
    have h1 := (forRefs_frame (fun F : FM N ℝ => F.fix fixed) (c.2.map Prod.snd) c.1).1
    have h2 := (forRefs_frame (nuisStep en mode) (c.2.map Prod.snd) h2).1
    rw [heq2] at h1
    rw [heq3] at h2
    simp only at h1 h2
    rw [h2, h1]; exact c3 s hs
  obtain ⟨ext, Fs, e1, e2, e3, e4, e5⟩ := combinations_all hen P cs
    (fun c hc => ⟨(hcs c hc).1, (hcs c hc).2.1⟩) h3 c.2
    (fun o t _ ht => ⟨(hP o t ht).1, (hP o t ht).2.1.1⟩)
  simp only [e1]
  obtain ⟨fk, fn⟩ := e5 ck
  have fn := fn c2 c3'
  have obj4 : ∀ s ∈ Fs.map Prod.snd, ∃ F, (h3 ++ ext)[s]? = some F ∧ NotStale F ∧ PD F := by
    intro s hs
    obtain ⟨⟨k, s'⟩, hx, rfl⟩ := List.mem_map.mp hs
    have hlook := lookup_of_mem fk hx
    have base : c.2.lookup k = some s' → ∃ F, (h3 ++ ext)[s']? = some F ∧ NotStale F ∧ PD F := by
      intro hl
      obtain ⟨q1, q2, q3, _⟩ := hP _ _ hl
      exact ⟨_, get_append_of_some q1 ext, q2, q3⟩
    by_cases hmt : k ∈ cs.map Comb.text
    · obtain ⟨co, hco, hte⟩ := List.mem_map.mp hmt
      by_cases hp : co.Present c.2
      · obtain ⟨r, R, q1, q2, q3, q4, q5, q6, q7⟩ := e3 co hco hp
        rw [hte, hlook] at q1
        cases q1
        refine ⟨R, q3, ⟨q4, Or.inl q5⟩, (hcs co hco).2.2 P R (fun o ho => ?_) q4 q7⟩
        obtain ⟨s, hs⟩ := Option.isSome_iff_exists.mp (hp o ho)
        exact (hP o s hs).2.2
      · have := e4 co hco hp
        rw [hte, hlook] at this
        exact base this.symm
    · have := e2 _ hmt
      rw [hlook] at this
      exact base this.symm
  -- the analysis
  obtain ⟨h45, o45, heq45⟩ := forRefs_succeeds
    (fun F : FM N ℝ => (({ F with margFlag := true }, .ok ()) : Res N ℝ Unit)) _ fn (h3 ++ ext)
    (fun s hs => by obtain ⟨F, q, _⟩ := obj4 s hs; exact ⟨F, _, (), q, rfl⟩)
  have obj45 : ∀ s ∈ Fs.map Prod.snd, ∃ F, h45[s]? = some F ∧ NotStale F ∧ PD F ∧
      F.margFlag = true := by
    intro s hs
    obtain ⟨F, q1, q2, q3⟩ := obj4 s hs
    obtain ⟨A, B, u, a1, a2, a3⟩ := forRefs_ok_mem _ fn heq45 hs
    rw [q1] at a1; cases a1
    cases a2
    exact ⟨_, a3, q2, q3, rfl⟩
  obtain ⟨h5, o5, heq5⟩ := forRefs_succeeds (FM.select en) _ fn h45 (fun s hs => by
    obtain ⟨F, q1, q2, _, q4⟩ := obj45 s hs
    obtain ⟨R, e, _⟩ := select_true hen q2 q4
    exact ⟨F, R, (), q1, e⟩)
  have hinit : analysisInit en true (h3 ++ ext) Fs = (h5, .ok o5) := by
    unfold analysisInit; simp only [heq45, heq5]
  simp only [hinit]
  obtain ⟨h6, errs, heq6⟩ := forRefs_succeeds (FM.margErrors en sq w0 wa true true) _ fn h5
    (fun s hs => by
      obtain ⟨F, q1, q2, q3, q4⟩ := obj45 s hs
      obtain ⟨A, B, u, a1, a2, a3⟩ := forRefs_ok_mem _ fn heq5 hs
      rw [q1] at a1; cases a1
      obtain ⟨R, e, r1, r2, r3⟩ := select_true hen q2 q4
      rw [a2] at e; cases e
      obtain ⟨F', out, e⟩ := errors_posDef hen sq hw (q3.congr r1.1 r3) r1
      exact ⟨B, F', out, a3, e⟩)
  exact ⟨h6, Fs, errs, by simp only [heq6]⟩

/-- C59. Loaded matrices that are positive definite, fixed parameters that all of them have and
combinations that are sums: the results are produced without an exception, for every way of treating
nuisance parameters.  (With differences the matrix may be singular, and then the inversion raises and
no result of the configuration is written.) -/
theorem final_results_succeed {en : Finset N → List N} (hen : Iteration en) (sq : ℝ → ℝ) {w0 wa : N}
    (hw : w0 ≠ wa) (h : Heap N ℝ) (d : Dict Str Ref) (M : Str → FM N ℝ)
    (hk : (d.map Prod.fst).Nodup) (hn : (d.map Prod.snd).Nodup) (fixed : Finset N)
    (hM : ∀ k r, (k, r) ∈ d → h[r]? = some (M k) ∧ PD (M k) ∧ Disjoint (M k).cosmo (M k).nuis ∧
      (M k).margFlag = true ∧ fixed ⊆ (M k).cosmo ∪ (M k).nuis)
    (mode : NuisMode) (cs : List Comb)
    (hcs : ∀ c ∈ cs, c.Valid ∧ c.terms ≠ [] ∧ ∀ x ∈ c.terms, x.1 = true) :
    ∃ h' Fs errs, createResults en sq w0 wa h d fixed mode (cs.map Comb.text)
      = (h', .ok (Fs, errs)) :=
  final_results_succeed_of hen sq hw h d M hk hn fixed hM mode cs fun c hc =>
    ⟨(hcs c hc).1, (hcs c hc).2.1, fun _ _ hP hR hI => sum_posDef hI hR (hcs c hc).2.2 fun o ho => (hP o ho).1⟩

/-- Two matrices over the reals with different parameters. -/
def exR (n : Str) (A B : Finset ℕ) : FM ℕ ℝ :=
  { matrix := ⟨(A ∪ B).sort (· ≤ ·), (A ∪ B).sort (· ≤ ·), fun a b => if a = b then 2 else 0⟩,
    name := n, cosmo := A, nuis := B }

theorem exR_PD (n : Str) (A B : Finset ℕ) : PD (exR n A B) := by
  refine ⟨⟨rfl, Finset.sort_nodup _ _, fun a => Finset.mem_sort _⟩, ?_⟩
  rw [block_posDef_iff]
  refine ⟨fun a _ b _ => by simp only [exR, eq_comm], fun x ⟨a, ha, hx⟩ => ?_⟩
  have : quad ((exR n A B).cosmo ∪ (exR n A B).nuis) (exR n A B).matrix.val x
      = ∑ a ∈ (exR n A B).cosmo ∪ (exR n A B).nuis, 2 * (x a) ^ 2 := by
    unfold quad
    refine Finset.sum_congr rfl (fun a ha => ?_)
    rw [Finset.sum_eq_single a]
    · simp [exR]; ring
    · intro b _ hb; simp [exR, hb.symm]
    · intro h; exact absurd ha h
  rw [this]
  refine Finset.sum_pos' (fun i _ => by positivity) ⟨a, ha, by positivity⟩

/-- Fixing parameter 0, marginalising nuisance parameters before summing "[WL] + [GCph]". -/
example (sq : ℝ → ℝ) : ∃ h' Fs errs, createResults (fun s : Finset ℕ => s.sort (· ≤ ·)) sq 1 2
    [exR "[WL]".toList {0, 1, 2} {3}, exR "[GCph]".toList {0, 1, 2} {4, 5}]
    [("[WL]".toList, 0), ("[GCph]".toList, 1)] {0} .margBefore ["[WL] + [GCph]".toList]
      = (h', .ok (Fs, errs)) := by
  have := final_results_succeed sortedIteration sq (w0 := 1) (wa := 2) (by decide)
    [exR "[WL]".toList {0, 1, 2} {3}, exR "[GCph]".toList {0, 1, 2} {4, 5}]
    [("[WL]".toList, 0), ("[GCph]".toList, 1)]
    (fun k => if k = "[WL]".toList then exR "[WL]".toList {0, 1, 2} {3}
      else exR "[GCph]".toList {0, 1, 2} {4, 5}) (by decide +kernel) (by decide) {0} (by
      intro k r hkr
      simp only [List.mem_cons, List.not_mem_nil, or_false, Prod.mk.injEq] at hkr
      rcases hkr with ⟨rfl, rfl⟩ | ⟨rfl, rfl⟩
      · rw [if_pos rfl]
        exact ⟨rfl, exR_PD _ _ _, by simp [exR], rfl, by simp [exR]⟩
      · rw [if_neg (by decide +kernel)]
        exact ⟨rfl, exR_PD _ _ _, by simp [exR], rfl, by simp [exR]⟩)
    .margBefore [⟨"[WL]".toList, [(true, "[GCph]".toList)]⟩] (by
      intro c hc
      simp only [List.mem_singleton] at hc
      subst hc
      refine ⟨?_, by simp, by simp⟩
      intro s hs
      simp only [Comb.operands, List.map_cons, List.map_nil, List.mem_cons, List.not_mem_nil,
        or_false] at hs
      rcases hs with rfl | rfl <;> exact ⟨by decide +kernel, by decide +kernel, by decide +kernel⟩)
  exact this

end Seyfert.Fisher
