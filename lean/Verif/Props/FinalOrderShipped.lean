import Verif.Props.FinalOrder
import Verif.Props.Combos

/-! C156: the three treatments of nuisance parameters for the shipped combinations. -/

namespace Seyfert.Combos

open Fisher

variable {N : Type} [LinearOrder N]

/-- C156. For the shipped list all three treatments give results. For every sum of the list, and for every loaded matrix, the
errors are largest when nuisance parameters are marginalised in each matrix, smaller when they are marginalised in the sum, and
smallest when they are fixed; in each of the treatments a sum has no larger errors than each of its matrices. -/
theorem shipped_treatments {en : Finset N → List N} (hen : Iteration en) {w0 wa : N} (hw : w0 ≠ wa) {h : Heap N ℝ}
    {d : Dict Str Ref} {M : Str → FM N ℝ} (hl : Loaded h d M) {fixed : Finset N}
    (hfix : ∀ k ∈ d.map Prod.fst, fixed ⊆ (M k).cosmo ∪ (M k).nuis)
    (hdis : ∀ a ∈ d.map Prod.fst, ∀ b ∈ d.map Prod.fst, Disjoint (M a).cosmo (M b).nuis)
    (hmore : ∀ c ∈ shipped, (false, [Obs.sp]) ∈ c.terms → label c.first ∈ d.map Prod.fst → label [.sp] ∈ d.map Prod.fst →
      MoreThan (M (label c.first)) (M (label [.sp]))) :
    ∃ (h' : NuisMode → Heap N ℝ) (Fs : NuisMode → Dict Str Ref) (errs : NuisMode → List (List (N × ℝ) × Option ℝ)),
      (∀ m, createResults en Real.sqrt w0 wa h d fixed m (loadCombs combLines) = (h' m, .ok (Fs m, errs m))) ∧
      ∀ k ops, SumOf d (shipped.map OComb.comb) k ops →
        (∀ m, ∃ out, Reported (Fs m) (errs m) k out) ∧
        (∀ b a f, Reported (Fs .margBefore) (errs .margBefore) k b → Reported (Fs .margAfter) (errs .margAfter) k a →
          Reported (Fs .fixed) (errs .fixed) k f → Better a b ∧ Better f a) ∧
        ∀ m, ∀ o ∈ ops, ∀ s l, Reported (Fs m) (errs m) k s → Reported (Fs m) (errs m) o l → Better s l := by
  have hmap : (shipped.map OComb.comb).map Comb.text = loadCombs combLines := by
    rw [shipped_read, List.map_map]; rfl
  have hex : ∀ m, ∃ h' Fs errs, createResults en Real.sqrt w0 wa h d fixed m (loadCombs combLines) = (h', .ok (Fs, errs)) :=
    fun m => results_succeed hen Real.sqrt hw h d M hl.keys hl.refs fixed
      (fun k r hx => ⟨(hl.mats k r hx).1, (hl.mats k r hx).2.1, (hl.mats k r hx).2.2.1, (hl.mats k r hx).2.2.2,
        hfix k (List.mem_map.mpr ⟨_, hx, rfl⟩)⟩) hmore m
  choose h' Fs errs hok using hex
  refine ⟨h', Fs, errs, hok, fun k ops hk => ?_⟩
  have hin : ∀ o ∈ ops, o ∈ d.map Prod.fst := by
    cases hk with
    | loaded hk => exact fun o ho => by rw [List.mem_singleton.mp ho]; exact hk
    | comb _ _ ho => exact ho
  have hd : ∀ a ∈ ops, ∀ b ∈ ops, Disjoint (M a).cosmo (M b).nuis := fun a ha b hb => hdis a (hin a ha) b (hin b hb)
  have hok' : ∀ m, createResults en Real.sqrt w0 wa h d fixed m ((shipped.map OComb.comb).map Comb.text) =
      (h' m, .ok (Fs m, errs m)) := fun m => by rw [hmap]; exact hok m
  have main : ∀ (m₁ m₂ : NuisMode), m₁.rank ≤ m₂.rank → _ := fun m₁ m₂ hm =>
    results_ordered hen hw hl hl shipped_valid shipped_valid (hok' m₁) (hok' m₂) subset_rfl hm hk hk
      (List.Perm.refl _).subperm fun _ => hd
  refine ⟨fun m => (main m m le_rfl).1, fun b a f rb ra rf => ⟨?_, ?_⟩, fun m o ho s l rs rl => ?_⟩
  · exact (main .margBefore .margAfter (by decide)).2.2 b a rb ra
  · exact (main .margAfter .fixed (by decide)).2.2 a f ra rf
  · exact (results_ordered hen hw hl hl shipped_valid shipped_valid (hok' m) (hok' m) subset_rfl le_rfl
      (SumOf.loaded (hin o ho)) hk (List.singleton_subperm_iff.mpr ho) fun _ => hd).2.2 l s rl rs

/-- Three matrices of a run, of which `[WL]` and `[GCph]` are added. -/
def exKeys : Dict Str Ref := [("[WL]".toList, 0), ("[GCph]".toList, 1), ("[GCsp]".toList, 2)]

noncomputable def exMats (k : Str) : FM ℕ ℝ :=
  if k = "[WL]".toList then exM 1 "[WL]".toList else if k = "[GCph]".toList then exM 3 "[GCph]".toList
  else exM 4 "[GCsp]".toList

theorem exMats_cases (k : Str) : ∃ j n, 0 < j ∧ exMats k = exM j n := by
  unfold exMats
  split
  · exact ⟨1, _, by decide, rfl⟩
  · split
    · exact ⟨3, _, by decide, rfl⟩
    · exact ⟨4, _, by decide, rfl⟩

theorem exLoaded : Loaded [exM 1 "[WL]".toList, exM 3 "[GCph]".toList, exM 4 "[GCsp]".toList] exKeys exMats := by
  refine ⟨by decide +kernel, by decide +kernel, ?_, ?_⟩
  · intro k hk
    have : ∀ k ∈ exKeys.map Prod.fst, ' ' ∉ k ∧ k ≠ ['+'] ∧ k ≠ ['-'] := by decide +kernel
    exact this k hk
  · intro k r hkr
    have hd : ∀ k, Disjoint (exMats k).cosmo (exMats k).nuis ∧ (exMats k).margFlag = true ∧ PD (exMats k) := by
      intro k
      obtain ⟨j, n, hj, e⟩ := exMats_cases k
      rw [e]
      exact ⟨by simp [exM], rfl, exM_PD hj n⟩
    refine ⟨?_, (hd k).2.2, (hd k).1, (hd k).2.1⟩
    unfold exKeys at hkr
    simp only [List.mem_cons, List.not_mem_nil, or_false, Prod.mk.injEq] at hkr
    rcases hkr with ⟨rfl, rfl⟩ | ⟨rfl, rfl⟩ | ⟨rfl, rfl⟩
    · unfold exMats; rw [if_pos rfl]; rfl
    · unfold exMats; rw [if_neg (by decide +kernel), if_pos rfl]; rfl
    · unfold exMats; rw [if_neg (by decide +kernel), if_neg (by decide +kernel)]; rfl

/-- The combination `[WL] + [GCph]` of a run with these matrices: all three treatments report it, in order. -/
example : ∃ Fs : NuisMode → Dict Str Ref, ∃ errs : NuisMode → List (List (ℕ × ℝ) × Option ℝ), ∃ b a f,
    Reported (Fs .margBefore) (errs .margBefore) "[WL] + [GCph]".toList b ∧
    Reported (Fs .margAfter) (errs .margAfter) "[WL] + [GCph]".toList a ∧
    Reported (Fs .fixed) (errs .fixed) "[WL] + [GCph]".toList f ∧ Better a b ∧ Better f a := by
  have hs : SumOf exKeys (shipped.map OComb.comb) "[WL] + [GCph]".toList ["[WL]".toList, "[GCph]".toList] := by
    have : OComb.comb ⟨[.wl], [(true, [.ph])]⟩ ∈ shipped.map OComb.comb := List.mem_map_of_mem (by decide +kernel)
    have h2 := SumOf.comb (d := exKeys) this (by decide +kernel) (by decide +kernel)
    have e1 : (OComb.comb ⟨[.wl], [(true, [.ph])]⟩).text = "[WL] + [GCph]".toList := by decide +kernel
    have e2 : (OComb.comb ⟨[.wl], [(true, [.ph])]⟩).operands = ["[WL]".toList, "[GCph]".toList] := by decide +kernel
    rw [e1, e2] at h2
    exact h2
  have hpar : ∀ k, (exMats k).cosmo = {0, 1, 2} ∧ (exMats k).nuis = {3} := by
    intro k
    obtain ⟨j, n, _, e⟩ := exMats_cases k
    rw [e]
    exact ⟨rfl, rfl⟩
  obtain ⟨_, Fs, errs, _, hmain⟩ := shipped_treatments (en := fun s : Finset ℕ => s.sort (· ≤ ·)) sortedIteration
    (w0 := 1) (wa := 2) (by decide) exLoaded (fixed := {0})
    (fun k _ => by rw [(hpar k).1, (hpar k).2]; decide)
    (fun a _ b _ => by rw [(hpar a).1, (hpar b).2]; decide)
    (by
      intro c hc hm h1 _
      have hsel : shipped.all (fun c => !decide ((false, [Obs.sp]) ∈ c.terms) ||
          !decide (label c.first ∈ exKeys.map Prod.fst)) = true := by decide +kernel
      have := List.all_eq_true.mp hsel c hc
      rw [Bool.or_eq_true, Bool.not_eq_true', Bool.not_eq_true', decide_eq_false_iff_not, decide_eq_false_iff_not] at this
      exact this.elim (fun h => absurd hm h) (fun h => absurd h1 h))
  obtain ⟨g1, g2, _⟩ := hmain _ _ hs
  obtain ⟨b, hb⟩ := g1 .margBefore
  obtain ⟨a, ha⟩ := g1 .margAfter
  obtain ⟨f, hf⟩ := g1 .fixed
  exact ⟨Fs, errs, b, a, f, hb, ha, hf, g2 b a f hb ha hf⟩

/-! ### A difference -/

/-- A matrix with a cosmological parameter 0 and a nuisance parameter 1. -/
def exD (p q r : ℝ) (n : Str) : FM ℕ ℝ :=
  { matrix := ⟨[0, 1], [0, 1], fun a b => if a = 0 ∧ b = 0 then p else if a = 1 ∧ b = 1 then r else q⟩, name := n,
    cosmo := {0}, nuis := {1} }

theorem exD_pars (p q r : ℝ) (n : Str) : (exD p q r n).cosmo ∪ (exD p q r n).nuis = {0, 1} := by
  show ({0} : Finset ℕ) ∪ {1} = {0, 1}
  decide

theorem exD_WF (p q r : ℝ) (n : Str) : (exD p q r n).WF := by
  unfold FM.WF
  rw [exD_pars]
  exact ⟨rfl, (by decide : ([0, 1] : List ℕ).Nodup), fun a => by simp [exD]⟩

theorem exD_quad (p q r : ℝ) (n : Str) (x : ℕ → ℝ) :
    quad {0, 1} (exD p q r n).matrix.val x = p * x 0 ^ 2 + 2 * q * (x 0 * x 1) + r * x 1 ^ 2 := by
  unfold quad
  rw [Finset.sum_pair (by decide), Finset.sum_pair (by decide), Finset.sum_pair (by decide)]
  simp [exD]
  ring

def exDKeys : Dict Str Ref := [("[GCsp]".toList, 0), ("[WL+GCsp+XC(WL,GCsp)]".toList, 1)]

noncomputable def exDMats (k : Str) : FM ℕ ℝ :=
  if k = "[GCsp]".toList then exD 1 0 1 "[GCsp]".toList else exD 3 1 2 "[WL+GCsp+XC(WL,GCsp)]".toList

theorem exD_pos {x : ℕ → ℝ} (h : ∃ a ∈ ({0, 1} : Finset ℕ), x a ≠ 0) : 0 < x 0 ^ 2 + x 1 ^ 2 := by
  obtain ⟨a, ha, hx⟩ := h
  simp only [Finset.mem_insert, Finset.mem_singleton] at ha
  rcases ha with rfl | rfl <;> positivity

theorem exD_PD1 (n : Str) : PD (exD 1 0 1 n) := by
  refine ⟨exD_WF _ _ _ _, ?_⟩
  rw [exD_pars, block_posDef_iff]
  refine ⟨fun a _ b _ => by simp only [exD, and_comm], fun x hx => ?_⟩
  rw [exD_quad]
  have := exD_pos hx
  linarith

theorem exD_PD3 (n : Str) : PD (exD 3 1 2 n) := by
  refine ⟨exD_WF _ _ _ _, ?_⟩
  rw [exD_pars, block_posDef_iff]
  refine ⟨fun a _ b _ => by simp only [exD, and_comm], fun x hx => ?_⟩
  rw [exD_quad]
  have := exD_pos hx
  nlinarith [sq_nonneg (x 0 + x 1)]

theorem exD_more (m n : Str) : MoreThan (exD 3 1 2 n) (exD 1 0 1 m) := by
  refine ⟨subset_rfl, subset_rfl, fun x hx => ?_⟩
  have e : ∀ p q r l, quad ({0, 1} : Finset ℕ) (exD p q r l).matrix.ent x = quad {0, 1} (exD p q r l).matrix.val x := by
    intro p q r l
    unfold quad
    refine Finset.sum_congr rfl fun a ha => Finset.sum_congr rfl fun b hb => ?_
    rw [ent_val (exD_WF p q r l) (by rw [exD_pars]; exact ha) (by rw [exD_pars]; exact hb)]
  rw [exD_pars] at hx ⊢
  rw [e, e, exD_quad, exD_quad]
  have := exD_pos hx
  rcases eq_or_ne (x 0) 0 with h0 | h0
  · rw [h0] at this ⊢
    nlinarith
  · have : 0 < x 0 ^ 2 := by positivity
    nlinarith [sq_nonneg (x 0 + x 1)]

theorem exDLoaded : Loaded [exD 1 0 1 "[GCsp]".toList, exD 3 1 2 "[WL+GCsp+XC(WL,GCsp)]".toList] exDKeys exDMats := by
  refine ⟨by decide +kernel, by decide +kernel, ?_, ?_⟩
  · intro k hk
    have : ∀ k ∈ exDKeys.map Prod.fst, ' ' ∉ k ∧ k ≠ ['+'] ∧ k ≠ ['-'] := by decide +kernel
    exact this k hk
  · intro k r hkr
    unfold exDKeys at hkr
    simp only [List.mem_cons, List.not_mem_nil, or_false, Prod.mk.injEq] at hkr
    unfold exDMats
    rcases hkr with ⟨rfl, rfl⟩ | ⟨rfl, rfl⟩
    · rw [if_pos rfl]
      exact ⟨rfl, exD_PD1 _, by simp [exD], rfl⟩
    · rw [if_neg (by decide +kernel)]
      exact ⟨rfl, exD_PD3 _, by simp [exD], rfl⟩

theorem exDMats_sp : exDMats "[GCsp]".toList = exD 1 0 1 "[GCsp]".toList := if_pos rfl

theorem exDMats_all : exDMats "[WL+GCsp+XC(WL,GCsp)]".toList = exD 3 1 2 "[WL+GCsp+XC(WL,GCsp)]".toList :=
  if_neg (by decide +kernel)

/-- The shipped difference of the two matrices. -/
def exDComb : Comb := ⟨"[WL+GCsp+XC(WL,GCsp)]".toList, [(false, "[GCsp]".toList)]⟩

theorem exDComb_mem : exDComb ∈ shipped.map OComb.comb := by
  have : OComb.comb ⟨[.wl, .sp, .wlsp], [(false, [.sp])]⟩ ∈ shipped.map OComb.comb := List.mem_map_of_mem (by decide +kernel)
  have e : OComb.comb ⟨[.wl, .sp, .wlsp], [(false, [.sp])]⟩ = exDComb := by
    have h1 : label [Obs.wl, .sp, .wlsp] = "[WL+GCsp+XC(WL,GCsp)]".toList := by decide +kernel
    have h2 : label [Obs.sp] = "[GCsp]".toList := by decide +kernel
    unfold OComb.comb exDComb
    simp only [List.map_cons, List.map_nil, h1, h2]
  rw [← e]; exact this

theorem mem_difference {a b : Str} {X : Str → FM ℕ ℝ} {p : ℕ} {g : FM ℕ ℝ → Finset ℕ} :
    (∃ o ∈ Comb.operands ⟨a, [(false, b)]⟩, p ∈ g (X o)) ↔ p ∈ g (X a) ∨ p ∈ g (X b) := by
  simp only [Comb.operands, List.map_cons, List.map_nil, List.mem_cons, List.not_mem_nil, or_false,
    exists_eq_or_imp, exists_eq_left]

theorem ent_difference {a b : Str} {X : Str → FM ℕ ℝ} {Y : FM ℕ ℝ} (hI : IsComb X ⟨a, [(false, b)]⟩ Y) (p q : ℕ) :
    Y.matrix.ent p q = (X a).matrix.ent p q - (X b).matrix.ent p q := by
  rw [hI.ent]
  simp only [List.map_cons, List.map_nil, List.sum_cons, List.sum_nil, Bool.false_eq_true, if_false, add_zero]
  rw [sub_eq_add_neg]

/-- C156. The order of the treatments fails for differences: here a shipped difference has a strictly smaller error when
nuisance parameters are marginalised in each matrix than when they are marginalised in the difference. -/
theorem order_fails_for_differences :
    ∃ (h' : NuisMode → Heap ℕ ℝ) (Fs : NuisMode → Dict Str Ref) (errs : NuisMode → List (List (ℕ × ℝ) × Option ℝ)),
      (∀ m, createResults (fun s : Finset ℕ => s.sort (· ≤ ·)) Real.sqrt 8 9
        [exD 1 0 1 "[GCsp]".toList, exD 3 1 2 "[WL+GCsp+XC(WL,GCsp)]".toList] exDKeys ∅ m (loadCombs combLines) =
          (h' m, .ok (Fs m, errs m))) ∧
      ∃ b a, Reported (Fs .margBefore) (errs .margBefore) exDComb.text b ∧
        Reported (Fs .margAfter) (errs .margAfter) exDComb.text a ∧ Better b a ∧ ¬ Better a b := by
  have hmap : (shipped.map OComb.comb).map Comb.text = loadCombs combLines := by
    rw [shipped_read, List.map_map]; rfl
  have hex : ∀ m, ∃ h' Fs errs, createResults (fun s : Finset ℕ => s.sort (· ≤ ·)) Real.sqrt 8 9
      [exD 1 0 1 "[GCsp]".toList, exD 3 1 2 "[WL+GCsp+XC(WL,GCsp)]".toList] exDKeys ∅ m (loadCombs combLines) =
        (h', .ok (Fs, errs)) := by
    refine fun m => results_succeed sortedIteration Real.sqrt (by decide) _ _ exDMats exDLoaded.keys exDLoaded.refs ∅
      (fun k r hx => ⟨(exDLoaded.mats k r hx).1, (exDLoaded.mats k r hx).2.1, (exDLoaded.mats k r hx).2.2.1,
        (exDLoaded.mats k r hx).2.2.2, Finset.empty_subset _⟩) ?_ m
    intro c hc hm h1 _
    have hsel : shipped.all (fun c => !decide ((false, [Obs.sp]) ∈ c.terms) ||
        !decide (label c.first ∈ exDKeys.map Prod.fst) ||
        decide (label c.first = "[WL+GCsp+XC(WL,GCsp)]".toList)) = true := by decide +kernel
    have := List.all_eq_true.mp hsel c hc
    rw [Bool.or_eq_true, Bool.or_eq_true, Bool.not_eq_true', Bool.not_eq_true', decide_eq_false_iff_not,
      decide_eq_false_iff_not, decide_eq_true_iff] at this
    rcases this with (h | h) | h
    · exact absurd hm h
    · exact absurd h1 h
    · rw [h, show label [Obs.sp] = "[GCsp]".toList from by decide +kernel, exDMats_sp, exDMats_all]
      exact exD_more _ _
  choose h' Fs errs hok using hex
  refine ⟨h', Fs, errs, hok, ?_⟩
  have hok' : ∀ m, createResults (fun s : Finset ℕ => s.sort (· ≤ ·)) Real.sqrt 8 9
      [exD 1 0 1 "[GCsp]".toList, exD 3 1 2 "[WL+GCsp+XC(WL,GCsp)]".toList] exDKeys ∅ m
        ((shipped.map OComb.comb).map Comb.text) = (h' m, .ok (Fs m, errs m)) := fun m => by rw [hmap]; exact hok m
  have hops : ∀ o ∈ exDComb.operands, o ∈ exDKeys.map Prod.fst := by decide +kernel
  have res := fun m => reported_result sortedIteration (by decide) exDLoaded shipped_valid (hok' m)
  obtain ⟨b, hb⟩ := (res .margBefore).1 _ (Or.inr ⟨_, exDComb_mem, rfl, hops⟩)
  obtain ⟨a, ha⟩ := (res .margAfter).1 _ (Or.inr ⟨_, exDComb_mem, rfl, hops⟩)
  refine ⟨b, a, hb, ha, ?_, ?_⟩
  · exact difference_reversed sortedIteration (by decide) exDLoaded exDLoaded shipped_valid shipped_valid (hok' .margAfter)
      (hok' .margBefore) exDComb_mem exDComb_mem (by decide +kernel) (by decide +kernel)
      (by rw [exDMats_sp, exDMats_all]; exact exD_more _ _) ha hb
  · intro hbet
    have oa : "[WL+GCsp+XC(WL,GCsp)]".toList ∈ exDComb.operands := by decide +kernel
    have ob : "[GCsp]".toList ∈ exDComb.operands := by decide +kernel
    obtain ⟨R, wR, eR, _, gR⟩ := (res .margBefore).2 _ _ hb
    obtain ⟨Q, hQ, iR⟩ := gR _ exDComb_mem rfl
    obtain ⟨T, wT, eT, _, gT⟩ := (res .margAfter).2 _ _ ha
    obtain ⟨P, hP, iT⟩ := gT _ exDComb_mem rfl
    change IsComb Q ⟨"[WL+GCsp+XC(WL,GCsp)]".toList, [(false, "[GCsp]".toList)]⟩ R at iR
    change IsComb P ⟨"[WL+GCsp+XC(WL,GCsp)]".toList, [(false, "[GCsp]".toList)]⟩ T at iT
    have qa := hQ _ oa
    have qb := hQ _ ob
    have pa := hP _ oa
    have pb := hP _ ob
    rw [exDMats_all] at qa pa
    rw [exDMats_sp] at qb pb
    generalize "[WL+GCsp+XC(WL,GCsp)]".toList = na at *
    generalize "[GCsp]".toList = nb at *
    obtain ⟨wqa, _, cqa, nqa, Va, ia, ja⟩ := qa
    obtain ⟨wqb, _, cqb, nqb, Vb, ib, jb⟩ := qb
    obtain ⟨wpa, _, cpa, npa, epa⟩ := pa
    obtain ⟨wpb, _, cpb, npb, epb⟩ := pb
    have hset : ∀ p q r n, ((exD p q r n).cosmo ∪ (exD p q r n).nuis) \ ∅ = {0, 1} := by
      intro p q r n; rw [exD_pars, Finset.sdiff_empty]
    have hc0 : ∀ p q r n, (exD p q r n).cosmo \ ∅ = {0} := fun p q r n => Finset.sdiff_empty
    have hn0 : ∀ p q r n, (exD p q r n).nuis \ ∅ = {1} := fun p q r n => Finset.sdiff_empty
    rw [hset] at ia ib
    rw [hc0] at cqa cqb cpa cpb
    rw [hn0] at npa npb
    rw [cqa] at ja
    rw [cqb] at jb
    have two : ∀ {v V : ℕ → ℕ → ℝ}, Inverse {0, 1} v V → (v 0 0 * V 0 0 + v 0 1 * V 1 0 = 1 ∧
        v 1 0 * V 0 0 + v 1 1 * V 1 0 = 0) := by
      intro v V hi
      have e1 := inverse_sum.mp hi 0 (by decide) 0 (by decide)
      have e2 := inverse_sum.mp hi 1 (by decide) 0 (by decide)
      rw [Finset.sum_pair (by decide)] at e1 e2
      rw [if_pos rfl] at e1
      rw [if_neg (by decide)] at e2
      exact ⟨e1, e2⟩
    have one : ∀ {v V : ℕ → ℕ → ℝ}, Inverse {0} v V → v 0 0 * V 0 0 = 1 := by
      intro v V hi
      have e1 := inverse_sum.mp hi 0 (by decide) 0 (by decide)
      rwa [Finset.sum_singleton, if_pos rfl] at e1
    -- before
    have ta := two ia
    have tb := two ib
    have oa' := one ja
    have ob' := one jb
    have hR0 : R.cosmo = {0} := by
      ext p; rw [iR.cosmo, mem_difference (g := FM.cosmo), cqa, cqb, or_self]
    have hR1 : R.nuis = ∅ := by
      ext p; rw [iR.nuis, mem_difference (g := FM.nuis), nqa, nqb, or_self]
    obtain ⟨V, hV, _, d1, e1, _⟩ := eR
    rw [hR0] at d1
    rw [hR0, hR1, Finset.union_empty] at hV
    have oV := one hV
    have in0 : ∀ {F : FM ℕ ℝ}, F.cosmo = {0} → 0 ∈ F.cosmo ∪ F.nuis := fun h => by
      rw [h]; exact Finset.mem_union_left _ (by decide)
    have r00 : R.matrix.val 0 0 = 3 / 2 := by
      rw [← ent_val wR (in0 hR0) (in0 hR0), ent_difference iR, ent_val wqa (in0 cqa) (in0 cqa), ent_val wqb (in0 cqb) (in0 cqb)]
      simp [exD] at ta tb
      have h1 : Va 0 0 = 2 / 5 := by linarith [ta.1, ta.2]
      have h2 : Vb 0 0 = 1 := by linarith [tb.1, tb.2]
      rw [h1] at oa'
      rw [h2] at ob'
      linarith
    have v00 : V 0 0 = 2 / 3 := by rw [r00] at oV; linarith
    -- after
    have hT0 : T.cosmo = {0} := by
      ext p; rw [iT.cosmo, mem_difference (g := FM.cosmo), cpa, cpb, or_self]
    have hT1 : T.nuis = {1} := by
      ext p; rw [iT.nuis, mem_difference (g := FM.nuis), npa, npb, or_self]
    obtain ⟨W, hW, _, d2, e2, _⟩ := eT
    rw [hT0] at d2
    have hu : T.cosmo ∪ T.nuis = {0, 1} := by rw [hT0, hT1]; decide
    have hua : (P na).cosmo ∪ (P na).nuis = {0, 1} := by rw [cpa, npa]; decide
    have hub : (P nb).cosmo ∪ (P nb).nuis = {0, 1} := by rw [cpb, npb]; decide
    have tW := two (hu ▸ hW)
    have tval : ∀ p ∈ ({0, 1} : Finset ℕ), ∀ q ∈ ({0, 1} : Finset ℕ), T.matrix.val p q =
        (exD 3 1 2 na).matrix.val p q - (exD 1 0 1 nb).matrix.val p q := by
      intro p hp q hq
      rw [← ent_val wT (hu ▸ hp) (hu ▸ hq), ent_difference iT, epa p (hua ▸ hp) q (hua ▸ hq), epb p (hub ▸ hp) q (hub ▸ hq),
        ent_val (exD_WF _ _ _ _) (by rw [exD_pars]; exact hp) (by rw [exD_pars]; exact hq),
        ent_val (exD_WF _ _ _ _) (by rw [exD_pars]; exact hp) (by rw [exD_pars]; exact hq)]
    rw [tval 0 (by decide) 0 (by decide), tval 0 (by decide) 1 (by decide), tval 1 (by decide) 0 (by decide),
      tval 1 (by decide) 1 (by decide)] at tW
    have w00 : W 0 0 = 1 := by
      simp [exD] at tW
      linarith [tW.1, tW.2]
    -- the two errors
    obtain ⟨⟨p, e⟩, hpe, hp⟩ := List.mem_map.mp ((d1 0).mpr (by decide))
    obtain ⟨⟨p', e'⟩, hpe', hp'⟩ := List.mem_map.mp ((d2 0).mpr (by decide))
    simp only at hp hp'
    subst hp hp'
    have hle := hbet.1 0 e e' hpe hpe'
    have h1 : e = Real.sqrt (V 0 0) := e1 _ hpe
    have h2 : e' = Real.sqrt (W 0 0) := e2 _ hpe'
    rw [h1, h2, v00, w00] at hle
    have := (Real.sqrt_le_sqrt_iff (by norm_num)).mp hle
    norm_num at this

end Seyfert.Combos
