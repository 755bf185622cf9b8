import Verif.Props.FinalResultsOk

/-!
C153, C59: differences of Fisher matrices. A matrix that has more information than another keeps it when parameters are
fixed, when nuisance parameters are fixed, and when they are marginalised over.
-/

namespace Seyfert.Fisher

variable {N : Type} [LinearOrder N]

/-- The first matrix has the parameters of the second and more information on all of them. -/
structure MoreThan (F G : FM N ℝ) : Prop where
  cosmo : G.cosmo ⊆ F.cosmo
  nuis : G.nuis ⊆ F.nuis
  more : ∀ x : N → ℝ, (∃ a ∈ F.cosmo ∪ F.nuis, x a ≠ 0) →
    quad (F.cosmo ∪ F.nuis) G.matrix.ent x < quad (F.cosmo ∪ F.nuis) F.matrix.ent x

theorem inverse_left {S : Finset N} {v V : N → N → ℝ} (h : Inverse S v V) {a b : N} (ha : a ∈ S) (hb : b ∈ S) :
    ∑ c ∈ S, V a c * v c b = if a = b then 1 else 0 :=
  inverse_sum.mp (by unfold Inverse at h ⊢; exact mul_eq_one_comm.mp h) a ha b hb

/-- Marginalising leaves the least value of the form over the parameters that are dropped. -/
theorem least_value {S C : Finset N} (hC : C ⊆ S) {v V w : N → N → ℝ} (hpd : (block S v).PosDef) (hV : Inverse S v V)
    (hw : Inverse C w V) (x : N → ℝ) :
    (∃ z, (∀ a ∈ C, z a = x a) ∧ quad S v z = quad C w x) ∧ ∀ z, (∀ a ∈ C, z a = x a) → quad C w x ≤ quad S v z := by
  obtain ⟨hsym, hpos⟩ := block_posDef_iff.mp hpd
  set u : N → ℝ := fun a => ∑ b ∈ C, w a b * x b with hu
  set z : N → ℝ := fun a => ∑ b ∈ C, V a b * u b with hz
  have hzx : ∀ a ∈ C, z a = x a := by
    intro a ha
    have : z a = ∑ c ∈ C, (∑ b ∈ C, V a b * w b c) * x c := by
      simp only [hz, hu, Finset.mul_sum, Finset.sum_mul]
      rw [Finset.sum_comm]
      exact Finset.sum_congr rfl fun c _ => Finset.sum_congr rfl fun b _ => by ring
    rw [this, Finset.sum_congr rfl fun c hc => by rw [inverse_left hw ha hc]]
    simp [ha]
  have hvz : ∀ a ∈ S, ∑ c ∈ S, v a c * z c = if a ∈ C then u a else 0 := by
    intro a ha
    have : ∑ c ∈ S, v a c * z c = ∑ b ∈ C, (∑ c ∈ S, v a c * V c b) * u b := by
      simp only [hz, Finset.mul_sum, Finset.sum_mul]
      rw [Finset.sum_comm]
      exact Finset.sum_congr rfl fun c _ => Finset.sum_congr rfl fun b _ => by ring
    rw [this, Finset.sum_congr rfl fun b hb => by rw [inverse_sum.mp hV a ha b (hC hb)]]
    simp
  have hlin : ∀ e : N → ℝ, ∑ a ∈ S, e a * ∑ c ∈ S, v a c * z c = ∑ a ∈ C, e a * u a := by
    intro e
    rw [Finset.sum_congr rfl fun a ha => by rw [hvz a ha]]
    rw [← Finset.sum_subset hC fun a _ ha => by rw [if_neg ha]; ring]
    exact Finset.sum_congr rfl fun a ha => by rw [if_pos ha]
  have hq : ∀ y : N → ℝ, quad S v y = ∑ a ∈ S, y a * ∑ c ∈ S, v a c * y c := by
    intro y
    unfold quad
    exact Finset.sum_congr rfl fun a _ => by rw [Finset.mul_sum]; exact Finset.sum_congr rfl fun b _ => by ring
  have hz0 : quad S v z = quad C w x := by
    rw [hq, hlin]
    unfold quad
    refine Finset.sum_congr rfl fun a ha => ?_
    rw [hzx a ha, hu, Finset.mul_sum]
    exact Finset.sum_congr rfl fun b _ => by ring
  refine ⟨⟨z, hzx, hz0⟩, fun y hy => ?_⟩
  have hcross : ∑ a ∈ S, (y a - z a) * ∑ c ∈ S, v a c * z c = 0 := by
    rw [hlin]
    exact Finset.sum_eq_zero fun a ha => by rw [hy a ha, hzx a ha]; ring
  have hcross' : ∑ a ∈ S, z a * ∑ c ∈ S, v a c * (y c - z c) = 0 := by
    rw [← hcross]
    simp only [Finset.mul_sum]
    rw [Finset.sum_comm]
    exact Finset.sum_congr rfl fun a ha => Finset.sum_congr rfl fun b hb => by rw [hsym b hb a ha]; ring
  have hsplit : quad S v y = quad S v z + quad S v (fun a => y a - z a) := by
    have e : quad S v y = quad S v z + (∑ a ∈ S, (y a - z a) * ∑ c ∈ S, v a c * z c) +
        (∑ a ∈ S, z a * ∑ c ∈ S, v a c * (y c - z c)) + quad S v (fun a => y a - z a) := by
      simp only [hq, Finset.mul_sum, ← Finset.sum_add_distrib]
      exact Finset.sum_congr rfl fun a _ => Finset.sum_congr rfl fun b _ => by ring
    rw [e, hcross, hcross']; ring
  have hnn : 0 ≤ quad S v (fun a => y a - z a) := by
    by_cases hne : ∃ a ∈ S, y a - z a ≠ 0
    · exact (hpos _ hne).le
    · push Not at hne
      unfold quad
      exact (Finset.sum_eq_zero fun a ha => Finset.sum_eq_zero fun b _ => by simp only [hne a ha]; ring).ge
  rw [hsplit, hz0]
  linarith

/-- A form on a vector that vanishes outside a part of the parameters. -/
theorem quad_part {S T : Finset N} (hT : T ⊆ S) {v v' : N → N → ℝ} (hv : ∀ a ∈ T, ∀ b ∈ T, v a b = v' a b) (x : N → ℝ) :
    quad S v (fun a => if a ∈ T then x a else 0) = quad T v' x := by
  unfold quad
  rw [← Finset.sum_subset hT fun a _ ha => Finset.sum_eq_zero fun b _ => by simp only [if_neg ha]; ring]
  refine Finset.sum_congr rfl fun a ha => ?_
  rw [← Finset.sum_subset hT fun b _ hb => by simp only [if_neg hb]; ring]
  exact Finset.sum_congr rfl fun b hb => by simp only [if_pos ha, if_pos hb, hv a ha b hb]

theorem ent_zero {F : FM N ℝ} (hF : F.WF) {a b : N} (h : a ∉ F.cosmo ∪ F.nuis ∨ b ∉ F.cosmo ∪ F.nuis) :
    F.matrix.ent a b = 0 := by
  rw [On.ent hF, if_neg]
  exact fun h' => h.elim (fun k => k h'.1) (fun k => k h'.2)

/-- C153. More information before the preparation is more information after it, for each of the three treatments of
nuisance parameters. -/
theorem more_prepared {F G F' G' : FM N ℝ} (hF : PD F) (hG : PD G) (hm : MoreThan F G) (hdF : Disjoint F.cosmo F.nuis)
    {fixed : Finset N} {mode : NuisMode} (pF : Prepared fixed mode F F') (pG : Prepared fixed mode G G') :
    MoreThan F' G' := by
  obtain ⟨wF, _, cF, rF⟩ := pF
  obtain ⟨wG, _, cG, rG⟩ := pG
  have hcos : G'.cosmo ⊆ F'.cosmo := by rw [cF, cG]; exact Finset.sdiff_subset_sdiff hm.cosmo (Finset.Subset.refl _)
  -- what has only to be restricted
  have restrict : G'.nuis ⊆ F'.nuis → F'.cosmo ∪ F'.nuis ⊆ F.cosmo ∪ F.nuis →
      (∀ a ∈ F'.cosmo ∪ F'.nuis, ∀ b ∈ F'.cosmo ∪ F'.nuis, F.matrix.ent a b = F'.matrix.ent a b) →
      (∀ a ∈ F'.cosmo ∪ F'.nuis, ∀ b ∈ F'.cosmo ∪ F'.nuis, G.matrix.ent a b = G'.matrix.ent a b) → MoreThan F' G' := by
    intro h0 h1 h2 h3
    refine ⟨hcos, h0, fun x ⟨a, ha, hx⟩ => ?_⟩
    rw [← quad_part h1 h2 x, ← quad_part h1 h3 x]
    exact hm.more _ ⟨a, h1 ha, by rw [if_pos ha]; exact hx⟩
  cases mode with
  | fixed =>
    obtain ⟨nF, eF⟩ := rF
    obtain ⟨nG, eG⟩ := rG
    have hset : F'.cosmo ∪ F'.nuis = F'.cosmo := by rw [nF, Finset.union_empty]
    refine restrict (by rw [nG]; exact Finset.empty_subset _) ?_ ?_ ?_
    · rw [hset, cF]; exact Finset.sdiff_subset.trans Finset.subset_union_left
    · rw [hset]; exact fun a ha b hb => (eF a ha b hb).symm
    · rw [hset]
      intro a ha b hb
      have out : ∀ c ∈ F'.cosmo, c ∉ G'.cosmo → c ∉ G.cosmo ∪ G.nuis := by
        intro c hc hn hin
        rw [cF, Finset.mem_sdiff] at hc
        rcases Finset.mem_union.mp hin with h | h
        · exact hn (by rw [cG, Finset.mem_sdiff]; exact ⟨h, hc.2⟩)
        · exact Finset.disjoint_left.mp hdF hc.1 (hm.nuis h)
      have out' : ∀ c, c ∉ G'.cosmo → c ∉ G'.cosmo ∪ G'.nuis := by
        intro c hc; rw [nG, Finset.union_empty]; exact hc
      by_cases h1 : a ∈ G'.cosmo
      · by_cases h2 : b ∈ G'.cosmo
        · exact (eG a h1 b h2).symm
        · rw [ent_zero hG.1 (Or.inr (out b hb h2)), ent_zero wG (Or.inr (out' b h2))]
      · rw [ent_zero hG.1 (Or.inl (out a ha h1)), ent_zero wG (Or.inl (out' a h1))]
  | margAfter =>
    obtain ⟨nF, eF⟩ := rF
    obtain ⟨nG, eG⟩ := rG
    refine restrict (by rw [nF, nG]; exact Finset.sdiff_subset_sdiff hm.nuis (Finset.Subset.refl _)) ?_ ?_ ?_
    · rw [cF, nF]; exact Finset.union_subset_union Finset.sdiff_subset Finset.sdiff_subset
    · exact fun a ha b hb => (eF a ha b hb).symm
    · intro a ha b hb
      have nfix : ∀ c ∈ F'.cosmo ∪ F'.nuis, c ∉ fixed := by
        intro c hc
        rw [cF, nF, ← Finset.union_sdiff_distrib] at hc
        exact (Finset.mem_sdiff.mp hc).2
      have out : ∀ c ∈ F'.cosmo ∪ F'.nuis, c ∉ G'.cosmo ∪ G'.nuis → c ∉ G.cosmo ∪ G.nuis := by
        intro c hc hn hin
        refine hn ?_
        rw [cG, nG, ← Finset.union_sdiff_distrib]
        exact Finset.mem_sdiff.mpr ⟨hin, nfix c hc⟩
      by_cases h1 : a ∈ G'.cosmo ∪ G'.nuis
      · by_cases h2 : b ∈ G'.cosmo ∪ G'.nuis
        · exact (eG a h1 b h2).symm
        · rw [ent_zero hG.1 (Or.inr (out b hb h2)), ent_zero wG (Or.inr h2)]
      · rw [ent_zero hG.1 (Or.inl (out a ha h1)), ent_zero wG (Or.inl h1)]
  | margBefore =>
    obtain ⟨nF, V, iF, jF⟩ := rF
    obtain ⟨nG, W, iG, jG⟩ := rG
    refine ⟨hcos, by rw [nG]; exact Finset.empty_subset _, ?_⟩
    rintro x ⟨a, ha, hx⟩
    have hset : F'.cosmo ∪ F'.nuis = F'.cosmo := by rw [nF, Finset.union_empty]
    have hsetG : G'.cosmo ∪ G'.nuis = G'.cosmo := by rw [nG, Finset.union_empty]
    set S := F.cosmo ∪ F.nuis with hS
    set T := G.cosmo ∪ G.nuis with hT
    have hCF : F'.cosmo ⊆ S \ fixed := by
      rw [cF]; exact Finset.sdiff_subset_sdiff Finset.subset_union_left (Finset.Subset.refl _)
    have hCG : G'.cosmo ⊆ T \ fixed := by
      rw [cG]; exact Finset.sdiff_subset_sdiff Finset.subset_union_left (Finset.Subset.refl _)
    have hTS : T ⊆ S := Finset.union_subset_union hm.cosmo hm.nuis
    obtain ⟨⟨z, hz, hzq⟩, _⟩ := least_value hCF (posDef_sub Finset.sdiff_subset hF.2) iF jF x
    obtain ⟨_, hmin⟩ := least_value hCG (posDef_sub Finset.sdiff_subset hG.2) iG jG x
    have hmore := hm.more (fun a => if a ∈ S \ fixed then z a else 0) ⟨a, ?_, ?_⟩
    · rw [quad_part Finset.sdiff_subset (v' := F.matrix.val) (fun a ha b hb => ent_val hF.1 (Finset.mem_sdiff.mp ha).1
        (Finset.mem_sdiff.mp hb).1), hzq] at hmore
      -- the form of the second matrix
      have e1 : quad S G.matrix.ent (fun a => if a ∈ S \ fixed then z a else 0) = quad (T \ fixed) G.matrix.val z := by
        rw [quad_ent_super hG.1 hTS]
        have : quad T G.matrix.ent (fun a => if a ∈ S \ fixed then z a else 0) =
            quad T G.matrix.ent (fun a => if a ∈ T \ fixed then z a else 0) := by
          have hi : ∀ a ∈ T, (a ∈ S \ fixed ↔ a ∈ T \ fixed) := fun a ha => by
            rw [Finset.mem_sdiff, Finset.mem_sdiff]
            exact ⟨fun h => ⟨ha, h.2⟩, fun h => ⟨hTS ha, h.2⟩⟩
          unfold quad
          refine Finset.sum_congr rfl fun a ha => Finset.sum_congr rfl fun b hb => ?_
          simp only [hi a ha, hi b hb]
        rw [← hT, this]
        exact quad_part Finset.sdiff_subset (fun a ha b hb => ent_val hG.1 (Finset.mem_sdiff.mp ha).1
          (Finset.mem_sdiff.mp hb).1) z
      rw [e1] at hmore
      have e2 := hmin z fun a ha => hz a (hcos ha)
      have e3 : quad (F'.cosmo ∪ F'.nuis) G'.matrix.ent x = quad G'.cosmo G'.matrix.val x := by
        rw [quad_ent_super wG (by rw [hset, hsetG]; exact hcos), hsetG]
        unfold quad
        refine Finset.sum_congr rfl fun a ha => Finset.sum_congr rfl fun b hb => ?_
        rw [ent_val wG (Finset.mem_union_left _ ha) (Finset.mem_union_left _ hb)]
      have e4 : quad (F'.cosmo ∪ F'.nuis) F'.matrix.ent x = quad F'.cosmo F'.matrix.val x := by
        rw [hset]
        unfold quad
        refine Finset.sum_congr rfl fun a ha => Finset.sum_congr rfl fun b hb => ?_
        rw [ent_val wF (Finset.mem_union_left _ ha) (Finset.mem_union_left _ hb)]
      rw [e3, e4]
      linarith
    · rw [hset] at ha
      exact (Finset.mem_sdiff.mp (hCF ha)).1
    · rw [hset] at ha
      rw [if_pos (hCF ha), hz a ha]
      exact hx

theorem quad_nonneg {F : FM N ℝ} (hF : PD F) {S : Finset N} (hS : F.cosmo ∪ F.nuis ⊆ S) (x : N → ℝ) :
    0 ≤ quad S F.matrix.ent x := by
  rw [quad_ent_super hF.1 hS]
  by_cases hz : ∃ a ∈ F.cosmo ∪ F.nuis, x a ≠ 0
  · exact ((block_posDef_iff.mp ((PD_iff hF.1).mp hF)).2 x hz).le
  · push Not at hz
    unfold quad
    exact (Finset.sum_eq_zero fun a ha => Finset.sum_eq_zero fun b _ => by rw [hz a ha]; ring).ge

/-- C153. A combination that subtracts from its first matrix one that has less information, and then adds others, is
positive definite. -/
theorem difference_posDef {M : Str → FM N ℝ} {c : Comb} {R : FM N ℝ} (h : IsComb M c R) (hR : R.WF) {b : Str}
    {ts : List (Bool × Str)} (hc : c.terms = (false, b) :: ts) (hplus : ∀ x ∈ ts, x.1 = true)
    (hM : ∀ o ∈ c.operands, PD (M o)) (hm : MoreThan (M c.first) (M b)) : PD R := by
  rw [PD_iff hR, block_posDef_iff]
  have hent : ∀ p q, R.matrix.ent p q = (M c.first).matrix.ent p q - (M b).matrix.ent p q +
      (ts.map fun x => (M x.2).matrix.ent p q).sum := by
    intro p q
    rw [h.ent, hc, List.map_cons, List.sum_cons]
    rw [show (ts.map fun x => if x.1 then (M x.2).matrix.ent p q else -(M x.2).matrix.ent p q) =
      ts.map fun x => (M x.2).matrix.ent p q from List.map_congr_left fun x hx => by simp [hplus x hx]]
    simp only [Bool.false_eq_true, if_false]
    ring
  have hfirst : c.first ∈ c.operands := List.mem_cons_self
  have hb : b ∈ c.operands := by unfold Comb.operands; rw [hc]; simp
  have hts : ∀ x ∈ ts, x.2 ∈ c.operands := by
    intro x hx; unfold Comb.operands; rw [hc]
    exact List.mem_cons_of_mem _ (List.mem_map_of_mem (List.mem_cons_of_mem _ hx))
  have hsub : ∀ o ∈ c.operands, (M o).cosmo ∪ (M o).nuis ⊆ R.cosmo ∪ R.nuis := by
    intro o ho a ha
    rw [Finset.mem_union] at ha ⊢
    exact ha.imp (fun h1 => (h.cosmo a).mpr ⟨o, ho, h1⟩) (fun h1 => (h.nuis a).mpr ⟨o, ho, h1⟩)
  have hpd := fun o ho => block_posDef_iff.mp ((PD_iff (hM o ho).1).mp (hM o ho))
  have hsymm : ∀ o ∈ c.operands, ∀ p q, (M o).matrix.ent p q = (M o).matrix.ent q p := by
    intro o ho p q
    by_cases hab : p ∈ (M o).cosmo ∪ (M o).nuis ∧ q ∈ (M o).cosmo ∪ (M o).nuis
    · exact (hpd o ho).1 p hab.1 q hab.2
    · rw [On.ent (hM o ho).1, On.ent (hM o ho).1, if_neg hab, if_neg (fun h => hab h.symm)]
  constructor
  · intro p _ q _
    rw [hent, hent, hsymm _ hfirst p q, hsymm _ hb p q]
    congr 2
    exact List.map_congr_left fun x hx => hsymm _ (hts x hx) p q
  · rintro x ⟨a, ha, hx⟩
    have hq : quad (R.cosmo ∪ R.nuis) R.matrix.ent x = quad (R.cosmo ∪ R.nuis) (M c.first).matrix.ent x -
        quad (R.cosmo ∪ R.nuis) (M b).matrix.ent x +
        (ts.map fun t => quad (R.cosmo ∪ R.nuis) (M t.2).matrix.ent x).sum := by
      rw [← quad_list (R.cosmo ∪ R.nuis) x (fun t : Bool × Str => (M t.2).matrix.ent) ts]
      unfold quad
      rw [← Finset.sum_sub_distrib, ← Finset.sum_add_distrib]
      refine Finset.sum_congr rfl fun p _ => ?_
      rw [← Finset.sum_sub_distrib, ← Finset.sum_add_distrib]
      exact Finset.sum_congr rfl fun q _ => by rw [hent]; ring
    have hbf : (M b).cosmo ∪ (M b).nuis ⊆ (M c.first).cosmo ∪ (M c.first).nuis :=
      Finset.union_subset_union hm.cosmo hm.nuis
    have hbq : quad (R.cosmo ∪ R.nuis) (M b).matrix.ent x = quad ((M c.first).cosmo ∪ (M c.first).nuis) (M b).matrix.ent x := by
      rw [quad_ent_super (hM b hb).1 (hsub b hb), quad_ent_super (hM b hb).1 hbf]
    rw [hq, quad_ent_super (hM _ hfirst).1 (hsub _ hfirst), hbq]
    have hsum : ∀ y ∈ ts.map (fun t => quad (R.cosmo ∪ R.nuis) (M t.2).matrix.ent x), 0 ≤ y := by
      intro y hy
      obtain ⟨t, ht, rfl⟩ := List.mem_map.mp hy
      exact quad_nonneg (hM _ (hts t ht)) (hsub _ (hts t ht)) x
    by_cases hf : ∃ a ∈ (M c.first).cosmo ∪ (M c.first).nuis, x a ≠ 0
    · have h1 := hm.more x hf
      have h2 := List.sum_nonneg hsum
      linarith
    · push Not at hf
      have z1 : ∀ v : N → N → ℝ, quad ((M c.first).cosmo ∪ (M c.first).nuis) v x = 0 := fun v => by
        unfold quad
        exact Finset.sum_eq_zero fun p hp => Finset.sum_eq_zero fun q _ => by rw [hf p hp]; ring
      rw [z1, z1]
      have hmem : ∃ o ∈ c.operands, a ∈ (M o).cosmo ∪ (M o).nuis := by
        rcases Finset.mem_union.mp ha with h1 | h1
        · obtain ⟨o, ho, h2⟩ := (h.cosmo a).mp h1; exact ⟨o, ho, Finset.mem_union_left _ h2⟩
        · obtain ⟨o, ho, h2⟩ := (h.nuis a).mp h1; exact ⟨o, ho, Finset.mem_union_right _ h2⟩
      obtain ⟨o, ho, hao⟩ := hmem
      have : ∃ t ∈ ts, t.2 = o := by
        unfold Comb.operands at ho
        rw [hc] at ho
        rcases List.mem_cons.mp ho with rfl | ho
        · exact absurd (hf a hao) hx
        · rw [List.map_cons] at ho
          rcases List.mem_cons.mp ho with rfl | ho
          · exact absurd (hf a (hbf hao)) hx
          · exact List.mem_map.mp ho
      obtain ⟨t, ht, rfl⟩ := this
      have hpos : 0 < quad (R.cosmo ∪ R.nuis) (M t.2).matrix.ent x := by
        rw [quad_ent_super (hM _ ho).1 (hsub _ ho)]
        exact (hpd _ ho).2 x ⟨a, hao, hx⟩
      have := List.single_le_sum hsum _ (List.mem_map.mpr ⟨t, ht, rfl⟩)
      linarith

end Seyfert.Fisher
