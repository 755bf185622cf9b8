import Verif.Props.FisherOrder
import Verif.Props.Differences

/-!
C156: how the errors of the final results of different treatments, cosmologies and combinations compare. Real positive
definite Fisher matrices, `sq` is the square root.
-/

namespace Seyfert.Fisher

variable {N : Type} [LinearOrder N]

/-! ### Specification -/

/-- The results of a configuration have the errors `out` under the name `k`. -/
def Reported (Fs : Dict Str Ref) (errs : List (List (N × ℝ) × Option ℝ)) (k : Str)
    (out : List (N × ℝ) × Option ℝ) : Prop :=
  ∃ (i : ℕ) (r : Ref), Fs[i]? = some (k, r) ∧ errs[i]? = some out

/-- `k` names a loaded matrix, or a combination in which only `+` occurs of loaded matrices; `ops` are the matrices. -/
inductive SumOf (d : Dict Str Ref) (cs : List Comb) : Str → List Str → Prop
  | loaded {k : Str} : k ∈ d.map Prod.fst → SumOf d cs k [k]
  | comb {c : Comb} : c ∈ cs → (∀ x ∈ c.terms, x.1 = true) → (∀ o ∈ c.operands, o ∈ d.map Prod.fst) →
      SumOf d cs c.text c.operands

/-- The treatments of nuisance parameters from the most cautious one: marginalised in each matrix on its own, marginalised
in the combination, fixed. -/
def NuisMode.rank : NuisMode → ℕ
  | .margBefore => 0
  | .margAfter => 1
  | .fixed => 2

/-! ### Sums of prepared matrices -/

/-- `R` is the sum of the matrices `P o`. -/
structure IsSum (P : Str → FM N ℝ) (ops : List Str) (R : FM N ℝ) : Prop where
  cosmo : ∀ p, p ∈ R.cosmo ↔ ∃ o ∈ ops, p ∈ (P o).cosmo
  nuis : ∀ p, p ∈ R.nuis ↔ ∃ o ∈ ops, p ∈ (P o).nuis
  ent : ∀ p q, R.matrix.ent p q = (ops.map fun o => (P o).matrix.ent p q).sum

theorem isSum_single (R : FM N ℝ) (k : Str) : IsSum (fun _ => R) [k] R :=
  ⟨fun p => by simp, fun p => by simp, fun p q => by simp⟩

theorem isSum_comb {P : Str → FM N ℝ} {c : Comb} {R : FM N ℝ} (h : IsComb P c R) (hp : ∀ x ∈ c.terms, x.1 = true) :
    IsSum P c.operands R := by
  refine ⟨h.cosmo, h.nuis, fun p q => ?_⟩
  rw [h.ent, Comb.operands, List.map_cons, List.sum_cons, List.map_map]
  congr 2
  exact List.map_congr_left fun x hx => by simp [hp x hx]

theorem IsSum.sub {P : Str → FM N ℝ} {ops : List Str} {R : FM N ℝ} (h : IsSum P ops R) {o : Str} (ho : o ∈ ops) :
    (P o).cosmo ∪ (P o).nuis ⊆ R.cosmo ∪ R.nuis := by
  intro a ha
  rw [Finset.mem_union] at ha ⊢
  exact ha.imp (fun h1 => (h.cosmo a).mpr ⟨o, ho, h1⟩) (fun h1 => (h.nuis a).mpr ⟨o, ho, h1⟩)

/-- The form of a sum is the sum of the forms. -/
theorem IsSum.quad {P : Str → FM N ℝ} {ops : List Str} {R : FM N ℝ} (h : IsSum P ops R) (hR : R.WF)
    (hP : ∀ o ∈ ops, (P o).WF) (x : N → ℝ) : quad (R.cosmo ∪ R.nuis) R.matrix.val x =
      (ops.map fun o => quad ((P o).cosmo ∪ (P o).nuis) (P o).matrix.ent x).sum := by
  have e1 : Fisher.quad (R.cosmo ∪ R.nuis) R.matrix.val x = Fisher.quad (R.cosmo ∪ R.nuis)
      (fun a b => (ops.map fun o => (P o).matrix.ent a b).sum) x := by
    unfold Fisher.quad
    exact Finset.sum_congr rfl fun a ha => Finset.sum_congr rfl fun b hb => by rw [← ent_val hR ha hb, h.ent]
  rw [e1, quad_list]
  congr 1
  exact List.map_congr_left fun o ho => quad_ent_super (hP o ho) (h.sub ho) x

theorem IsSum.posDef {P : Str → FM N ℝ} {ops : List Str} {R : FM N ℝ} (h : IsSum P ops R) (hR : R.WF)
    (hP : ∀ o ∈ ops, PD (P o)) : PD R := by
  refine ⟨hR, block_posDef_iff.mpr ⟨?_, ?_⟩⟩
  · intro p hp q hq
    rw [← ent_val hR hp hq, ← ent_val hR hq hp, h.ent, h.ent]
    congr 1
    refine List.map_congr_left fun o ho => ?_
    have hs := (block_posDef_iff.mp ((PD_iff (hP o ho).1).mp (hP o ho))).1
    by_cases hab : p ∈ (P o).cosmo ∪ (P o).nuis ∧ q ∈ (P o).cosmo ∪ (P o).nuis
    · exact hs p hab.1 q hab.2
    · rw [On.ent (hP o ho).1, On.ent (hP o ho).1, if_neg hab, if_neg fun h => hab h.symm]
  · rintro x ⟨a, ha, hx⟩
    rw [h.quad hR fun o ho => (hP o ho).1]
    have hmem : ∃ o ∈ ops, a ∈ (P o).cosmo ∪ (P o).nuis := by
      rcases Finset.mem_union.mp ha with h1 | h1
      · obtain ⟨o, ho, h2⟩ := (h.cosmo a).mp h1; exact ⟨o, ho, Finset.mem_union_left _ h2⟩
      · obtain ⟨o, ho, h2⟩ := (h.nuis a).mp h1; exact ⟨o, ho, Finset.mem_union_right _ h2⟩
    obtain ⟨o, ho, hao⟩ := hmem
    refine lt_of_lt_of_le ((block_posDef_iff.mp ((PD_iff (hP o ho).1).mp (hP o ho))).2 x ⟨a, hao, hx⟩)
      (List.single_le_sum ?_ _ (List.mem_map.mpr ⟨o, ho, rfl⟩))
    intro y hy
    obtain ⟨o', ho', rfl⟩ := List.mem_map.mp hy
    exact quad_nonneg (hP o' ho') subset_rfl x

/-- Preparing keeps a matrix positive definite. -/
theorem prepared_PD {fixed : Finset N} {mode : NuisMode} {F P : FM N ℝ} (hF : PD F) (h : Prepared fixed mode F P) : PD P := by
  obtain ⟨wf, _, c, r⟩ := h
  refine ⟨wf, ?_⟩
  have part : P.cosmo ∪ P.nuis ⊆ F.cosmo ∪ F.nuis →
      (∀ a ∈ P.cosmo ∪ P.nuis, ∀ b ∈ P.cosmo ∪ P.nuis, P.matrix.ent a b = F.matrix.ent a b) →
      (block (P.cosmo ∪ P.nuis) P.matrix.val).PosDef := by
    intro hs he
    have : block (P.cosmo ∪ P.nuis) P.matrix.val = block (P.cosmo ∪ P.nuis) F.matrix.val :=
      block_congr.mpr fun a ha b hb => by
        rw [← ent_val wf ha hb, he a ha b hb, ent_val hF.1 (hs ha) (hs hb)]
    rw [this]
    exact posDef_sub hs hF.2
  cases mode with
  | fixed =>
    obtain ⟨n, e⟩ := r
    have hu : P.cosmo ∪ P.nuis = P.cosmo := by rw [n, Finset.union_empty]
    exact part (by rw [hu, c]; exact Finset.sdiff_subset.trans Finset.subset_union_left) (by rw [hu]; exact e)
  | margAfter =>
    obtain ⟨n, e⟩ := r
    exact part (by rw [c, n]; exact Finset.union_subset_union Finset.sdiff_subset Finset.sdiff_subset) e
  | margBefore =>
    obtain ⟨n, V, i, j⟩ := r
    have hu : P.cosmo ∪ P.nuis = P.cosmo := by rw [n, Finset.union_empty]
    rw [hu]
    obtain ⟨V', i', hV'⟩ := posDef_inverse (posDef_sub (Finset.sdiff_subset (t := fixed)) hF.2)
    have hV : (block ((F.cosmo ∪ F.nuis) \ fixed) V).PosDef := by rwa [block_congr.mpr (i.unique i')]
    have hsub : P.cosmo ⊆ (F.cosmo ∪ F.nuis) \ fixed := by
      rw [c]; exact Finset.sdiff_subset_sdiff Finset.subset_union_left subset_rfl
    obtain ⟨W, k, hW⟩ := posDef_inverse (posDef_sub hsub hV)
    rwa [block_congr.mpr (j.symm.unique k)]

theorem quad_val {F : FM N ℝ} (hF : F.WF) (x : N → ℝ) :
    quad (F.cosmo ∪ F.nuis) F.matrix.val x = quad (F.cosmo ∪ F.nuis) F.matrix.ent x := by
  unfold quad
  exact Finset.sum_congr rfl fun a ha => Finset.sum_congr rfl fun b hb => by rw [ent_val hF ha hb]

/-- The form of a prepared matrix is never more than that of the loaded one on any extension of the vector that is zero
on the fixed parameters; for fixed nuisance parameters, if it is zero on them too. -/
theorem prepared_le {fixed : Finset N} {mode : NuisMode} {F P : FM N ℝ} (hF : PD F) (h : Prepared fixed mode F P)
    (x z : N → ℝ) (hz : ∀ a ∈ F.cosmo ∪ F.nuis, a ∈ fixed → z a = 0) (hx : ∀ a ∈ P.cosmo ∪ P.nuis, z a = x a)
    (hn : mode = .fixed → ∀ a ∈ F.nuis, z a = 0) :
    quad (P.cosmo ∪ P.nuis) P.matrix.ent x ≤ quad (F.cosmo ∪ F.nuis) F.matrix.ent z := by
  obtain ⟨wf, _, c, r⟩ := h
  have part : P.cosmo ∪ P.nuis ⊆ F.cosmo ∪ F.nuis →
      (∀ a ∈ P.cosmo ∪ P.nuis, ∀ b ∈ P.cosmo ∪ P.nuis, P.matrix.ent a b = F.matrix.ent a b) →
      (∀ a ∈ F.cosmo ∪ F.nuis, a ∉ P.cosmo ∪ P.nuis → z a = 0) →
      quad (P.cosmo ∪ P.nuis) P.matrix.ent x ≤ quad (F.cosmo ∪ F.nuis) F.matrix.ent z := by
    intro hs he h0
    have e : quad (F.cosmo ∪ F.nuis) F.matrix.ent z =
        quad (F.cosmo ∪ F.nuis) F.matrix.ent (fun a => if a ∈ P.cosmo ∪ P.nuis then x a else 0) := by
      have hv : ∀ a ∈ F.cosmo ∪ F.nuis, z a = if a ∈ P.cosmo ∪ P.nuis then x a else 0 := by
        intro a ha
        split
        · rename_i hp; exact hx a hp
        · rename_i hp; exact h0 a ha hp
      unfold quad
      exact Finset.sum_congr rfl fun a ha => Finset.sum_congr rfl fun b hb => by rw [hv a ha, hv b hb]
    rw [e, quad_part hs fun a ha b hb => (he a ha b hb).symm]
  cases mode with
  | fixed =>
    obtain ⟨n, e⟩ := r
    have hu : P.cosmo ∪ P.nuis = P.cosmo := by rw [n, Finset.union_empty]
    refine part (by rw [hu, c]; exact Finset.sdiff_subset.trans Finset.subset_union_left) (by rw [hu]; exact e) ?_
    intro a ha hp
    rw [hu, c, Finset.mem_sdiff] at hp
    rcases Finset.mem_union.mp ha with h1 | h1
    · exact hz a ha (by_contra fun h2 => hp ⟨h1, h2⟩)
    · exact hn rfl a h1
  | margAfter =>
    obtain ⟨n, e⟩ := r
    refine part (by rw [c, n]; exact Finset.union_subset_union Finset.sdiff_subset Finset.sdiff_subset) e ?_
    intro a ha hp
    rw [c, n, ← Finset.union_sdiff_distrib, Finset.mem_sdiff] at hp
    exact hz a ha (by_contra fun h2 => hp ⟨ha, h2⟩)
  | margBefore =>
    obtain ⟨n, V, i, j⟩ := r
    have hu : P.cosmo ∪ P.nuis = P.cosmo := by rw [n, Finset.union_empty]
    have hsub : P.cosmo ⊆ (F.cosmo ∪ F.nuis) \ fixed := by
      rw [c]; exact Finset.sdiff_subset_sdiff Finset.subset_union_left subset_rfl
    have := (least_value hsub (posDef_sub Finset.sdiff_subset hF.2) i j x).2 z fun a ha => hx a (by rw [hu]; exact ha)
    rw [← quad_val wf, hu]
    refine this.trans (le_of_eq ?_)
    rw [← quad_part (S := F.cosmo ∪ F.nuis) (v := F.matrix.ent) Finset.sdiff_subset fun a ha b hb =>
      ent_val hF.1 (Finset.mem_sdiff.mp ha).1 (Finset.mem_sdiff.mp hb).1]
    have hv : ∀ a ∈ F.cosmo ∪ F.nuis, (if a ∈ (F.cosmo ∪ F.nuis) \ fixed then z a else 0) = z a := by
      intro a ha
      split
      · rfl
      · rename_i hp
        exact (hz a ha (by_contra fun h2 => hp (Finset.mem_sdiff.mpr ⟨ha, h2⟩))).symm
    unfold quad
    exact Finset.sum_congr rfl fun a ha => Finset.sum_congr rfl fun b hb => by simp only [hv a ha, hv b hb]

/-- ... and it is reached by such an extension. -/
theorem prepared_reached {fixed : Finset N} {mode : NuisMode} {F P : FM N ℝ} (hF : PD F) (h : Prepared fixed mode F P)
    (x : N → ℝ) : ∃ z : N → ℝ, (∀ a, a ∈ fixed → z a = 0) ∧ (∀ a ∈ P.cosmo ∪ P.nuis, z a = x a) ∧
      (mode = .fixed → ∀ a, a ∉ P.cosmo → z a = 0) ∧ (mode = .margAfter → ∀ a, a ∉ P.cosmo ∪ P.nuis → z a = 0) ∧
      quad (F.cosmo ∪ F.nuis) F.matrix.ent z = quad (P.cosmo ∪ P.nuis) P.matrix.ent x := by
  obtain ⟨wf, _, c, r⟩ := h
  cases mode with
  | fixed =>
    obtain ⟨n, e⟩ := r
    have hu : P.cosmo ∪ P.nuis = P.cosmo := by rw [n, Finset.union_empty]
    refine ⟨fun a => if a ∈ P.cosmo then x a else 0, ?_, ?_, ?_, (by rintro ⟨⟩), ?_⟩
    · exact fun a ha => if_neg (by rw [c, Finset.mem_sdiff]; exact fun h => h.2 ha)
    · exact fun a ha => if_pos (by rw [hu] at ha; exact ha)
    · exact fun _ a ha => if_neg ha
    · rw [hu]
      exact quad_part (by rw [c]; exact Finset.sdiff_subset.trans Finset.subset_union_left)
        (fun a ha b hb => (e a ha b hb).symm) x
  | margAfter =>
    obtain ⟨n, e⟩ := r
    refine ⟨fun a => if a ∈ P.cosmo ∪ P.nuis then x a else 0, ?_, ?_, (by rintro ⟨⟩), ?_, ?_⟩
    · exact fun a ha => if_neg (by rw [c, n, ← Finset.union_sdiff_distrib, Finset.mem_sdiff]; exact fun h => h.2 ha)
    · exact fun a ha => if_pos ha
    · exact fun _ a ha => if_neg ha
    · exact quad_part (by rw [c, n]; exact Finset.union_subset_union Finset.sdiff_subset Finset.sdiff_subset)
        (fun a ha b hb => (e a ha b hb).symm) x
  | margBefore =>
    obtain ⟨n, V, i, j⟩ := r
    have hu : P.cosmo ∪ P.nuis = P.cosmo := by rw [n, Finset.union_empty]
    have hsub : P.cosmo ⊆ (F.cosmo ∪ F.nuis) \ fixed := by
      rw [c]; exact Finset.sdiff_subset_sdiff Finset.subset_union_left subset_rfl
    obtain ⟨z, hz, hq⟩ := (least_value hsub (posDef_sub Finset.sdiff_subset hF.2) i j x).1
    refine ⟨fun a => if a ∈ (F.cosmo ∪ F.nuis) \ fixed then z a else 0, ?_, ?_, (by rintro ⟨⟩), (by rintro ⟨⟩), ?_⟩
    · exact fun a ha => if_neg (by rw [Finset.mem_sdiff]; exact fun h => h.2 ha)
    · intro a ha; rw [hu] at ha; exact (if_pos (hsub ha)).trans (hz a ha)
    · rw [quad_part (S := F.cosmo ∪ F.nuis) (v := F.matrix.ent) Finset.sdiff_subset fun a ha b hb =>
        ent_val hF.1 (Finset.mem_sdiff.mp ha).1 (Finset.mem_sdiff.mp hb).1, hq, ← quad_val wf, hu]

/-- A more cautious treatment with fewer fixed parameters leaves no more information, on vectors that are zero where the
other treatment has no parameters. -/
theorem prepared_order {f₁ f₂ : Finset N} {m₁ m₂ : NuisMode} {F P Q : FM N ℝ} (hF : PD F)
    (hP : Prepared f₁ m₁ F P) (hQ : Prepared f₂ m₂ F Q) (hf : f₁ ⊆ f₂) (hm : m₁.rank ≤ m₂.rank) (x : N → ℝ)
    (hx2 : ∀ a ∈ f₂, x a = 0) (hxn : m₂ = .fixed → ∀ a ∈ F.nuis, x a = 0) :
    quad (P.cosmo ∪ P.nuis) P.matrix.ent x ≤ quad (Q.cosmo ∪ Q.nuis) Q.matrix.ent x := by
  obtain ⟨z, h1, h2, h3, h4, h5⟩ := prepared_reached hF hQ x
  rw [← h5]
  have cP : P.cosmo = F.cosmo \ f₁ := hP.2.2.1
  have cQ : Q.cosmo = F.cosmo \ f₂ := hQ.2.2.1
  have hcos : ∀ a ∈ F.cosmo, z a = x a := by
    intro a ha
    by_cases hb : a ∈ f₂
    · rw [h1 a hb, hx2 a hb]
    · exact h2 a (Finset.mem_union_left _ (by rw [cQ]; exact Finset.mem_sdiff.mpr ⟨ha, hb⟩))
  -- nuisance parameters are only compared where the more cautious treatment keeps them
  have hnuis : m₁ ≠ .margBefore → ∀ a ∈ F.nuis, z a = x a := by
    intro hne a ha
    by_cases hb : a ∈ f₂
    · rw [h1 a hb, hx2 a hb]
    cases m₂ with
    | fixed =>
      by_cases hc : a ∈ F.cosmo
      · exact hcos a hc
      · rw [h3 rfl a (by rw [cQ, Finset.mem_sdiff]; exact fun h => hc h.1), hxn rfl a ha]
    | margAfter =>
      refine h2 a (Finset.mem_union_right _ ?_)
      rw [hQ.2.2.2.1]
      exact Finset.mem_sdiff.mpr ⟨ha, hb⟩
    | margBefore => cases m₁ <;> simp_all [NuisMode.rank]
  refine prepared_le hF hP x z (fun a _ ha => h1 a (hf ha)) ?_ ?_
  · intro a ha
    rcases Finset.mem_union.mp ha with h | h
    · exact hcos a (by rw [cP] at h; exact (Finset.mem_sdiff.mp h).1)
    · cases m₁ with
      | fixed => rw [hP.2.2.2.1] at h; exact absurd h (Finset.notMem_empty _)
      | margBefore => rw [hP.2.2.2.1] at h; exact absurd h (Finset.notMem_empty _)
      | margAfter =>
        rw [hP.2.2.2.1] at h
        exact hnuis (by rintro ⟨⟩) a (Finset.mem_sdiff.mp h).1
  · rintro rfl a ha
    cases m₂ with
    | fixed => rw [hnuis (by rintro ⟨⟩) a ha]; exact hxn rfl a ha
    | margAfter => simp [NuisMode.rank] at hm
    | margBefore => simp [NuisMode.rank] at hm

theorem sum_subperm_le {l₁ l₂ : List Str} (h : l₁.Subperm l₂) {f g : Str → ℝ} (hfg : ∀ o ∈ l₁, f o ≤ g o)
    (hg : ∀ o ∈ l₂, 0 ≤ g o) : (l₁.map f).sum ≤ (l₂.map g).sum := by
  obtain ⟨l, hp, hs⟩ := h
  have e : (l₁.map f).sum = (l.map f).sum := ((hp.map f).sum_eq).symm
  rw [e]
  calc (l.map f).sum ≤ (l.map g).sum := List.sum_le_sum fun o ho => hfg o (hp.mem_iff.mp ho)
    _ ≤ (l₂.map g).sum := (hs.map g).sum_le_sum fun y hy => by
        obtain ⟨o, ho, rfl⟩ := List.mem_map.mp hy
        exact hg o ho

/-- The errors of two sums of prepared matrices. -/
theorem sums_better {w0 wa : N} (hw : w0 ≠ wa) {M : Str → FM N ℝ} {f₁ f₂ : Finset N} {m₁ m₂ : NuisMode}
    {ops₁ ops₂ : List Str} {P Q : Str → FM N ℝ} {R₁ R₂ : FM N ℝ} {out₁ out₂ : List (N × ℝ) × Option ℝ}
    (hM : ∀ o ∈ ops₂, PD (M o)) (hdis : m₂ = .fixed → ∀ a ∈ ops₂, ∀ b ∈ ops₂, Disjoint (M a).cosmo (M b).nuis)
    (hf : f₁ ⊆ f₂) (hm : m₁.rank ≤ m₂.rank) (hops : ops₁.Subperm ops₂)
    (hP : ∀ o ∈ ops₁, Prepared f₁ m₁ (M o) (P o)) (hQ : ∀ o ∈ ops₂, Prepared f₂ m₂ (M o) (Q o))
    (w₁ : R₁.WF) (w₂ : R₂.WF) (s₁ : IsSum P ops₁ R₁) (s₂ : IsSum Q ops₂ R₂)
    (e₁ : ErrorsOf Real.sqrt w0 wa (R₁.cosmo ∪ R₁.nuis) R₁.cosmo true R₁.matrix.val out₁)
    (e₂ : ErrorsOf Real.sqrt w0 wa (R₂.cosmo ∪ R₂.nuis) R₂.cosmo true R₂.matrix.val out₂) : Better out₂ out₁ := by
  have hsub : ∀ o ∈ ops₁, o ∈ ops₂ := fun o ho => hops.subset ho
  have p₁ : ∀ o ∈ ops₁, PD (P o) := fun o ho => prepared_PD (hM o (hsub o ho)) (hP o ho)
  have p₂ : ∀ o ∈ ops₂, PD (Q o) := fun o ho => prepared_PD (hM o ho) (hQ o ho)
  have hR₁ := s₁.posDef w₁ p₁
  have hR₂ := s₂.posDef w₂ p₂
  refine better_of hw hR₁.2 hR₂.2 Finset.subset_union_left Finset.subset_union_left e₁ e₂ ?_
  intro c hc x
  set T := R₂.cosmo ∪ R₂.nuis with hT
  set y : N → ℝ := fun a => if a ∈ T then x a else 0 with hy
  refine ⟨y, ?_, ?_⟩
  · have ex : quad T R₂.matrix.val x = quad T R₂.matrix.val y := by
      unfold quad
      exact Finset.sum_congr rfl fun a ha => Finset.sum_congr rfl fun b hb => by
        simp only [hy, if_pos ha, if_pos hb]
    rw [ex, hT, s₁.quad w₁ fun o ho => (p₁ o ho).1, s₂.quad w₂ fun o ho => (p₂ o ho).1]
    refine sum_subperm_le hops (fun o ho => ?_) fun o ho => quad_nonneg (p₂ o ho) subset_rfl y
    refine prepared_order (hM o (hsub o ho)) (hP o ho) (hQ o (hsub o ho)) hf hm y ?_ ?_
    · intro a ha
      rw [hy]
      refine if_neg fun hin => ?_
      rcases Finset.mem_union.mp hin with h | h
      · obtain ⟨o', ho', h'⟩ := (s₂.cosmo a).mp h
        rw [(hQ o' ho').2.2.1] at h'
        exact (Finset.mem_sdiff.mp h').2 ha
      · obtain ⟨o', ho', h'⟩ := (s₂.nuis a).mp h
        have hq := (hQ o' ho').2.2.2
        cases m₂ with
        | fixed => rw [hq.1] at h'; exact absurd h' (Finset.notMem_empty _)
        | margBefore => rw [hq.1] at h'; exact absurd h' (Finset.notMem_empty _)
        | margAfter => rw [hq.1] at h'; exact (Finset.mem_sdiff.mp h').2 ha
    · rintro rfl a ha
      rw [hy]
      refine if_neg fun hin => ?_
      rcases Finset.mem_union.mp hin with h | h
      · obtain ⟨o', ho', h'⟩ := (s₂.cosmo a).mp h
        rw [(hQ o' ho').2.2.1] at h'
        exact Finset.disjoint_left.mp (hdis rfl o' ho' o (hsub o ho)) (Finset.mem_sdiff.mp h').1 ha
      · obtain ⟨o', ho', h'⟩ := (s₂.nuis a).mp h
        rw [(hQ o' ho').2.2.2.1] at h'
        exact absurd h' (Finset.notMem_empty _)
  · have h1 : ∑ a ∈ R₁.cosmo ∪ R₁.nuis, c a * y a = ∑ a ∈ (R₁.cosmo ∪ R₁.nuis) ∩ T, c a * x a := by
      rw [← Finset.sum_subset Finset.inter_subset_left fun a _ ha => ?_]
      · exact Finset.sum_congr rfl fun a ha => by simp only [hy, if_pos (Finset.mem_inter.mp ha).2]
      · have : c a = 0 := by_contra fun h => ha (Finset.mem_inter.mpr (hc a h))
        rw [this, zero_mul]
    rw [h1]
    refine Finset.sum_subset Finset.inter_subset_right fun a _ ha => ?_
    have : c a = 0 := by_contra fun h => ha (Finset.mem_inter.mpr (hc a h))
    rw [this, zero_mul]

/-! ### The final results -/

/-- What is loaded before the results are created: `M k` is the matrix with the name `k`. -/
structure Loaded (h : Heap N ℝ) (d : Dict Str Ref) (M : Str → FM N ℝ) : Prop where
  keys : (d.map Prod.fst).Nodup
  refs : (d.map Prod.snd).Nodup
  names : ∀ k ∈ d.map Prod.fst, Operand k
  mats : ∀ k r, (k, r) ∈ d → h[r]? = some (M k) ∧ PD (M k) ∧ Disjoint (M k).cosmo (M k).nuis ∧ (M k).margFlag = true

theorem Loaded.pd {h : Heap N ℝ} {d : Dict Str Ref} {M : Str → FM N ℝ} (hl : Loaded h d M) {k : Str}
    (hk : k ∈ d.map Prod.fst) : PD (M k) ∧ Disjoint (M k).cosmo (M k).nuis := by
  obtain ⟨⟨k, r⟩, hx, rfl⟩ := List.mem_map.mp hk
  exact ⟨(hl.mats k r hx).2.1, (hl.mats k r hx).2.2.1⟩

/-- What is reported under a name. -/
theorem reported_result {en : Finset N → List N} (hen : Iteration en) {w0 wa : N} (hw : w0 ≠ wa) {h : Heap N ℝ}
    {d : Dict Str Ref} {M : Str → FM N ℝ} (hl : Loaded h d M) {fixed : Finset N} {mode : NuisMode} {cs : List Comb}
    (hcs : ∀ c ∈ cs, c.Valid ∧ c.terms ≠ []) {h' : Heap N ℝ} {Fs : Dict Str Ref}
    {errs : List (List (N × ℝ) × Option ℝ)}
    (hok : createResults en Real.sqrt w0 wa h d fixed mode (cs.map Comb.text) = (h', .ok (Fs, errs))) :
    (∀ k, (k ∈ d.map Prod.fst ∨ ∃ c ∈ cs, k = c.text ∧ ∀ o ∈ c.operands, o ∈ d.map Prod.fst) →
      ∃ out, Reported Fs errs k out) ∧
    ∀ k out, Reported Fs errs k out → ∃ R, R.WF ∧
      ErrorsOf Real.sqrt w0 wa (R.cosmo ∪ R.nuis) R.cosmo true R.matrix.val out ∧
      (k ∈ d.map Prod.fst → Prepared fixed mode (M k) R) ∧
      ∀ c ∈ cs, k = c.text → ∃ P : Str → FM N ℝ, (∀ o ∈ c.operands, Prepared fixed mode (M o) (P o)) ∧ IsComb P c R := by
  obtain ⟨f1, f2, f3, f4⟩ := final_results hen Real.sqrt hw h d M hl.keys hl.refs
    (fun k r hx => ⟨(hl.mats k r hx).1, (hl.mats k r hx).2.1.1, (hl.mats k r hx).2.2⟩) fixed mode cs hcs hok
  constructor
  · intro k hk
    have hin : k ∈ Fs.map Prod.fst := by
      rcases hk with hk | ⟨c, hc, rfl, ho⟩
      · exact f2 k hk
      · exact f3 c hc ho
    obtain ⟨⟨k, r⟩, hx, rfl⟩ := List.mem_map.mp hin
    obtain ⟨i, hi, he⟩ := List.mem_iff_getElem.mp hx
    exact ⟨errs[i]'(f1 ▸ hi), i, r, by rw [List.getElem?_eq_getElem hi, he], List.getElem?_eq_getElem _⟩
  · rintro k out ⟨i, r, hi, ho⟩
    obtain ⟨hlt, he⟩ := List.getElem?_eq_some_iff.mp hi
    obtain ⟨R, out', _, g2, wf, g3, g4⟩ := f4 i hlt
    rw [ho] at g2
    cases g2
    rw [he] at g4
    refine ⟨R, wf, g3, ?_, ?_⟩
    · intro hk
      rcases g4 with g4 | ⟨c, hc, hkc, _⟩
      · exact g4.2
      · exact absurd hkc (operand_ne_text (hcs c hc).2 (hl.names k hk))
    · intro c hc hkc
      rcases g4 with ⟨g4, _⟩ | ⟨c', hc', hkc', _, P, hP, hI⟩
      · exact absurd hkc (operand_ne_text (hcs c hc).2 (hl.names k g4))
      · have : c' = c := text_injective (hcs c' hc').1 (hcs c hc).1 (hkc'.symm.trans hkc)
        subst this
        exact ⟨P, hP, hI⟩

/-- C156. The final results of two configurations of the same loaded matrices. If the second one fixes at least the same
parameters, treats nuisance parameters no more cautiously, and its sum has at least the same matrices, no error of the second
is larger and its figure of merit is not lower. Both are in the results. -/
theorem results_ordered {en : Finset N → List N} (hen : Iteration en) {w0 wa : N} (hw : w0 ≠ wa) {M : Str → FM N ℝ}
    {h₁ h₂ : Heap N ℝ} {d₁ d₂ : Dict Str Ref} (l₁ : Loaded h₁ d₁ M) (l₂ : Loaded h₂ d₂ M)
    {f₁ f₂ : Finset N} {m₁ m₂ : NuisMode} {cs₁ cs₂ : List Comb}
    (hc₁ : ∀ c ∈ cs₁, c.Valid ∧ c.terms ≠ []) (hc₂ : ∀ c ∈ cs₂, c.Valid ∧ c.terms ≠ [])
    {h₁' h₂' : Heap N ℝ} {Fs₁ Fs₂ : Dict Str Ref} {errs₁ errs₂ : List (List (N × ℝ) × Option ℝ)}
    (ok₁ : createResults en Real.sqrt w0 wa h₁ d₁ f₁ m₁ (cs₁.map Comb.text) = (h₁', .ok (Fs₁, errs₁)))
    (ok₂ : createResults en Real.sqrt w0 wa h₂ d₂ f₂ m₂ (cs₂.map Comb.text) = (h₂', .ok (Fs₂, errs₂)))
    (hf : f₁ ⊆ f₂) (hm : m₁.rank ≤ m₂.rank) {k₁ k₂ : Str} {ops₁ ops₂ : List Str}
    (hk₁ : SumOf d₁ cs₁ k₁ ops₁) (hk₂ : SumOf d₂ cs₂ k₂ ops₂) (hops : ops₁.Subperm ops₂)
    (hdis : m₂ = .fixed → ∀ a ∈ ops₂, ∀ b ∈ ops₂, Disjoint (M a).cosmo (M b).nuis) :
    (∃ out, Reported Fs₁ errs₁ k₁ out) ∧ (∃ out, Reported Fs₂ errs₂ k₂ out) ∧
    ∀ out₁ out₂, Reported Fs₁ errs₁ k₁ out₁ → Reported Fs₂ errs₂ k₂ out₂ → Better out₂ out₁ := by
  obtain ⟨a1, a2⟩ := reported_result hen hw l₁ hc₁ ok₁
  obtain ⟨b1, b2⟩ := reported_result hen hw l₂ hc₂ ok₂
  have isin : ∀ {d : Dict Str Ref} {cs : List Comb} {k : Str} {ops : List Str}, SumOf d cs k ops →
      (k ∈ d.map Prod.fst ∨ ∃ c ∈ cs, k = c.text ∧ ∀ o ∈ c.operands, o ∈ d.map Prod.fst) ∧
      ∀ o ∈ ops, o ∈ d.map Prod.fst := by
    intro d cs k ops hk
    cases hk with
    | loaded hk => exact ⟨Or.inl hk, fun o ho => by rw [List.mem_singleton.mp ho]; exact hk⟩
    | comb hc _ ho => exact ⟨Or.inr ⟨_, hc, rfl, ho⟩, ho⟩
  have getSum : ∀ {d : Dict Str Ref} {cs : List Comb} {k : Str} {ops : List Str} {f : Finset N} {m : NuisMode}
      {R : FM N ℝ}, SumOf d cs k ops → (k ∈ d.map Prod.fst → Prepared f m (M k) R) →
      (∀ c ∈ cs, k = c.text → ∃ P : Str → FM N ℝ, (∀ o ∈ c.operands, Prepared f m (M o) (P o)) ∧ IsComb P c R) →
      ∃ P : Str → FM N ℝ, (∀ o ∈ ops, Prepared f m (M o) (P o)) ∧ IsSum P ops R := by
    intro d cs k ops f m R hk g1 g2
    cases hk with
    | loaded hk =>
      exact ⟨fun _ => R, fun o ho => by rw [List.mem_singleton.mp ho]; exact g1 hk, isSum_single R k⟩
    | comb hc hp _ =>
      obtain ⟨P, p1, p2⟩ := g2 _ hc rfl
      exact ⟨P, p1, isSum_comb p2 hp⟩
  refine ⟨a1 _ (isin hk₁).1, b1 _ (isin hk₂).1, fun out₁ out₂ r₁ r₂ => ?_⟩
  obtain ⟨R₁, w₁, e₁, g1, g2⟩ := a2 _ _ r₁
  obtain ⟨R₂, w₂, e₂, g3, g4⟩ := b2 _ _ r₂
  obtain ⟨P, hP, s₁⟩ := getSum hk₁ g1 g2
  obtain ⟨Q, hQ, s₂⟩ := getSum hk₂ g3 g4
  exact sums_better hw (fun o ho => (l₂.pd ((isin hk₂).2 o ho)).1) hdis hf hm hops hP hQ w₁ w₂ s₁ s₂ e₁ e₂

/-- C156. A difference behaves the other way round: marginalising in each of the two matrices before they are subtracted
reports errors that are no larger than marginalising in the difference, because what is subtracted is smaller. -/
theorem difference_reversed {en : Finset N → List N} (hen : Iteration en) {w0 wa : N} (hw : w0 ≠ wa) {M : Str → FM N ℝ}
    {h₁ h₂ : Heap N ℝ} {d₁ d₂ : Dict Str Ref} (l₁ : Loaded h₁ d₁ M) (l₂ : Loaded h₂ d₂ M)
    {f : Finset N} {cs₁ cs₂ : List Comb}
    (hc₁ : ∀ c ∈ cs₁, c.Valid ∧ c.terms ≠ []) (hc₂ : ∀ c ∈ cs₂, c.Valid ∧ c.terms ≠ [])
    {h₁' h₂' : Heap N ℝ} {Fs₁ Fs₂ : Dict Str Ref} {errs₁ errs₂ : List (List (N × ℝ) × Option ℝ)}
    (ok₁ : createResults en Real.sqrt w0 wa h₁ d₁ f .margAfter (cs₁.map Comb.text) = (h₁', .ok (Fs₁, errs₁)))
    (ok₂ : createResults en Real.sqrt w0 wa h₂ d₂ f .margBefore (cs₂.map Comb.text) = (h₂', .ok (Fs₂, errs₂)))
    {a b : Str} (k₁ : ⟨a, [(false, b)]⟩ ∈ cs₁) (k₂ : ⟨a, [(false, b)]⟩ ∈ cs₂)
    (ha : a ∈ d₁.map Prod.fst) (hb : b ∈ d₁.map Prod.fst) (hmore : MoreThan (M a) (M b))
    {out₁ out₂ : List (N × ℝ) × Option ℝ} (r₁ : Reported Fs₁ errs₁ (Comb.text ⟨a, [(false, b)]⟩) out₁)
    (r₂ : Reported Fs₂ errs₂ (Comb.text ⟨a, [(false, b)]⟩) out₂) : Better out₂ out₁ := by
  obtain ⟨R₁, w₁, e₁, _, g₁⟩ := (reported_result hen hw l₁ hc₁ ok₁).2 _ _ r₁
  obtain ⟨R₂, w₂, e₂, _, g₂⟩ := (reported_result hen hw l₂ hc₂ ok₂).2 _ _ r₂
  obtain ⟨P, hP, i₁⟩ := g₁ _ k₁ rfl
  obtain ⟨Q, hQ, i₂⟩ := g₂ _ k₂ rfl
  have pa := l₁.pd ha
  have pb := l₁.pd hb
  have oa : a ∈ Comb.operands ⟨a, [(false, b)]⟩ := List.mem_cons_self
  have ob : b ∈ Comb.operands ⟨a, [(false, b)]⟩ := by simp [Comb.operands]
  have hall : ∀ o ∈ Comb.operands ⟨a, [(false, b)]⟩, PD (M o) := by
    intro o ho
    simp only [Comb.operands, List.map_cons, List.map_nil, List.mem_cons, List.not_mem_nil, or_false] at ho
    rcases ho with rfl | rfl
    exacts [pa.1, pb.1]
  have m₁ := more_prepared pa.1 pb.1 hmore pa.2 (hP a oa) (hP b ob)
  have m₂ := more_prepared pa.1 pb.1 hmore pa.2 (hQ a oa) (hQ b ob)
  have hR₁ : PD R₁ := difference_posDef i₁ w₁ (b := b) (ts := []) rfl (by simp)
    (fun o ho => prepared_PD (hall o ho) (hP o ho)) m₁
  have hR₂ : PD R₂ := difference_posDef i₂ w₂ (b := b) (ts := []) rfl (by simp)
    (fun o ho => prepared_PD (hall o ho) (hQ o ho)) m₂
  -- the parameters of a difference are those of the first matrix
  have set : ∀ {P : Str → FM N ℝ} {R : FM N ℝ}, IsComb P ⟨a, [(false, b)]⟩ R → MoreThan (P a) (P b) →
      R.cosmo = (P a).cosmo ∧ R.nuis = (P a).nuis := by
    intro P R hI hmm
    constructor
    · ext p
      rw [hI.cosmo]
      simp only [Comb.operands, List.map_cons, List.map_nil, List.mem_cons, List.not_mem_nil, or_false, exists_eq_or_imp,
        exists_eq_left]
      exact ⟨fun h => h.elim id fun h => hmm.cosmo h, Or.inl⟩
    · ext p
      rw [hI.nuis]
      simp only [Comb.operands, List.map_cons, List.map_nil, List.mem_cons, List.not_mem_nil, or_false, exists_eq_or_imp,
        exists_eq_left]
      exact ⟨fun h => h.elim id fun h => hmm.nuis h, Or.inl⟩
  have form : ∀ {P : Str → FM N ℝ} {R : FM N ℝ}, IsComb P ⟨a, [(false, b)]⟩ R → R.WF → (P a).WF → (P b).WF →
      MoreThan (P a) (P b) → ∀ x, quad (R.cosmo ∪ R.nuis) R.matrix.val x =
        quad ((P a).cosmo ∪ (P a).nuis) (P a).matrix.ent x - quad ((P b).cosmo ∪ (P b).nuis) (P b).matrix.ent x := by
    intro P R hI hR ha hb hmm x
    obtain ⟨s1, s2⟩ := set hI hmm
    rw [quad_val hR, s1, s2, ← quad_ent_super hb (Finset.union_subset_union hmm.cosmo hmm.nuis)]
    unfold quad
    rw [← Finset.sum_sub_distrib]
    refine Finset.sum_congr rfl fun p _ => ?_
    rw [← Finset.sum_sub_distrib]
    refine Finset.sum_congr rfl fun q _ => ?_
    rw [hI.ent]
    simp only [List.map_cons, List.map_nil, List.sum_cons, List.sum_nil, Bool.false_eq_true, if_false]
    ring
  refine better_of hw hR₁.2 hR₂.2 Finset.subset_union_left Finset.subset_union_left e₁ e₂ ?_
  intro c hc x
  obtain ⟨z, z1, z2, _, _, z5⟩ := prepared_reached pa.1 (hQ a oa) x
  have wa1 := (hP a oa).1
  have cP : (P a).cosmo = (M a).cosmo \ f := (hP a oa).2.2.1
  have cQ : (Q a).cosmo = (M a).cosmo \ f := (hQ a oa).2.2.1
  have nQ : (Q a).nuis = ∅ := (hQ a oa).2.2.2.1
  refine ⟨z, ?_, ?_⟩
  · rw [form i₁ w₁ wa1 (hP b ob).1 m₁, form i₂ w₂ (hQ a oa).1 (hQ b ob).1 m₂, ← z5]
    have u1 : quad ((P a).cosmo ∪ (P a).nuis) (P a).matrix.ent z ≤
        quad ((M a).cosmo ∪ (M a).nuis) (M a).matrix.ent z :=
      prepared_le pa.1 (hP a oa) z z (fun p _ hp => z1 p hp) (fun _ _ => rfl) (by rintro ⟨⟩)
    have u2 : quad ((Q b).cosmo ∪ (Q b).nuis) (Q b).matrix.ent x ≤
        quad ((P b).cosmo ∪ (P b).nuis) (P b).matrix.ent z := by
      have v1 : quad ((Q b).cosmo ∪ (Q b).nuis) (Q b).matrix.ent x ≤
          quad ((M b).cosmo ∪ (M b).nuis) (M b).matrix.ent z := by
        refine prepared_le pb.1 (hQ b ob) x z (fun p _ hp => z1 p hp) ?_ (by rintro ⟨⟩)
        exact fun p hp => z2 p (Finset.union_subset_union m₂.cosmo m₂.nuis hp)
      obtain ⟨y, y1, y2, _, y4, y5⟩ := prepared_reached pb.1 (hP b ob) z
      have : quad ((M b).cosmo ∪ (M b).nuis) (M b).matrix.ent z = quad ((M b).cosmo ∪ (M b).nuis) (M b).matrix.ent y := by
        have hv : ∀ p ∈ (M b).cosmo ∪ (M b).nuis, z p = y p := by
          intro p hp
          by_cases hpf : p ∈ f
          · rw [z1 p hpf, y1 p hpf]
          · refine (y2 p ?_).symm
            rw [(hP b ob).2.2.1, (hP b ob).2.2.2.1, ← Finset.union_sdiff_distrib]
            exact Finset.mem_sdiff.mpr ⟨hp, hpf⟩
        unfold quad
        exact Finset.sum_congr rfl fun p hp => Finset.sum_congr rfl fun q hq => by rw [hv p hp, hv q hq]
      rw [← y5, ← this]
      exact v1
    linarith
  · obtain ⟨s1, s2⟩ := set i₁ m₁
    obtain ⟨s3, s4⟩ := set i₂ m₂
    have hT : R₂.cosmo ∪ R₂.nuis = (Q a).cosmo := by rw [s3, s4, nQ, Finset.union_empty]
    have hsub : R₂.cosmo ∪ R₂.nuis ⊆ R₁.cosmo ∪ R₁.nuis := by
      rw [hT, cQ, s1, cP]; exact Finset.subset_union_left
    rw [← Finset.sum_subset hsub fun p _ hp => ?_]
    · refine Finset.sum_congr rfl fun p hp => ?_
      rw [z2 p (Finset.mem_union_left _ (by rw [← hT]; exact hp))]
    · have : c p = 0 := by_contra fun h => hp (hc p h).2
      rw [this, zero_mul]

end Seyfert.Fisher
