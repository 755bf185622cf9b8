import Verif.Props.FisherOrder

/-!
C75: comparison and consistency check of Fisher matrices; C77: priors; C10: marginalising nuisance parameters into a
copy.
-/

set_option linter.unusedSectionVars false

namespace Seyfert.Fisher

variable {N K : Type} [LinearOrder N] [Field K] [DecidableEq K]

theorem sortLabels_eq {l l' : List N} (h : l.Nodup) (h' : l'.Nodup) (hm : ∀ a, a ∈ l ↔ a ∈ l') :
    sortLabels l = sortLabels l' := by
  have hp : l.Perm l' := (List.perm_ext_iff_of_nodup h h').mpr hm
  have hs : ∀ l : List N, (sortLabels l).Pairwise (· ≤ ·) := by
    intro l
    have := List.pairwise_mergeSort (le := fun a b : N => decide (a ≤ b))
      (fun a b c h1 h2 => by simp only [decide_eq_true_eq] at *; exact le_trans h1 h2)
      (fun a b => by simp only [Bool.or_eq_true, decide_eq_true_eq]; exact le_total a b) l
    exact this.imp (fun h => by simpa using h)
  refine List.Perm.eq_of_pairwise (le := (· ≤ ·)) (fun a b _ _ h1 h2 => le_antisymm h1 h2) (hs l) (hs l') ?_
  exact ((List.mergeSort_perm l _).trans hp).trans (List.mergeSort_perm l' _).symm

/-! ### C75 -/

/-- C75. Two well-formed matrices with the same parameters compare equal exactly when they have the same name and the
same entry for every pair of parameters, in whatever order their rows are. Matrices with different parameters are not
compared: an exception is raised instead of the answer `False` (this is what is missing for C75), and how the parameters
are divided into cosmological and nuisance parameters does not enter. -/
theorem fisher_equality_partial {F G : FM N K} (hF : F.WF) (hG : G.WF) :
    (F.cosmo ∪ F.nuis = G.cosmo ∪ G.nuis → ∃ b, F.eq G = .ok b ∧
      (b = true ↔ F.name = G.name ∧ ∀ p q, F.matrix.ent p q = G.matrix.ent p q)) ∧
    (F.cosmo ∪ F.nuis ≠ G.cosmo ∪ G.nuis → F.eq G = .error .valueError) := by
  have hF' : F.matrix.On (F.cosmo ∪ F.nuis) := hF
  have hG' : G.matrix.On (G.cosmo ∪ G.nuis) := hG
  constructor
  · intro hS
    have hr : F.matrix.sortIndex.rows = G.matrix.sortIndex.rows :=
      sortLabels_eq hF'.nodup hG'.nodup (fun a => by rw [hF'.mem, hG'.mem, hS])
    have hcF : F.matrix.sortIndex.cols = F.matrix.sortIndex.rows := by simp [DF.sortIndex, hF'.same]
    have hcG : G.matrix.sortIndex.cols = G.matrix.sortIndex.rows := by simp [DF.sortIndex, hG'.same]
    refine ⟨_, by unfold FM.eq; rw [if_pos ⟨hr, by rw [hcF, hcG, hr]⟩], ?_⟩
    have hphys : F.phys = G.phys := by unfold FM.phys; rw [Finset.union_comm, hS, Finset.union_comm]
    simp only [Bool.and_eq_true, decide_eq_true_eq, List.all_eq_true, hphys, and_true]
    rw [and_comm]
    refine and_congr_right (fun _ => ?_)
    have hm : ∀ a, a ∈ F.matrix.sortIndex.rows ↔ a ∈ F.cosmo ∪ F.nuis := fun a => (On.sortIndex hF').mem a
    constructor
    · intro h p q
      rw [On.ent hF', On.ent hG', ← hS]
      split
      · rename_i hpq
        exact h p ((hm p).mpr hpq.1) q (by rw [hcF]; exact (hm q).mpr hpq.2)
      · rfl
    · intro h p hp q hq
      rw [hcF] at hq
      have := h p q
      rw [On.ent hF', On.ent hG', ← hS, if_pos ⟨(hm p).mp hp, (hm q).mp hq⟩,
        if_pos ⟨(hm p).mp hp, (hm q).mp hq⟩] at this
      exact this
  · intro hS
    unfold FM.eq
    rw [if_neg]
    rintro ⟨hr, _⟩
    apply hS
    ext a
    rw [← hF'.mem, ← hG'.mem, ← mem_sortLabels F.matrix.rows, ← mem_sortLabels G.matrix.rows]
    have : sortLabels F.matrix.rows = sortLabels G.matrix.rows := hr
    rw [this]

/-- C75. Comparison is reflexive, symmetric and transitive on well-formed matrices. -/
theorem fisher_equality_equivalence {F G H : FM N K} (hF : F.WF) (hG : G.WF) (hH : H.WF) :
    F.eq F = .ok true ∧ (F.eq G = .ok true → G.eq F = .ok true) ∧
      (F.eq G = .ok true → G.eq H = .ok true → F.eq H = .ok true) := by
  have key : ∀ {F G : FM N K}, F.WF → G.WF → (F.eq G = .ok true ↔ F.cosmo ∪ F.nuis = G.cosmo ∪ G.nuis ∧
      F.name = G.name ∧ ∀ p q, F.matrix.ent p q = G.matrix.ent p q) := by
    intro F G hF hG
    obtain ⟨h1, h2⟩ := fisher_equality_partial hF hG
    by_cases hS : F.cosmo ∪ F.nuis = G.cosmo ∪ G.nuis
    · obtain ⟨b, hb, hb'⟩ := h1 hS
      rw [hb, ← hb']
      simp [hS]
    · rw [h2 hS]; simp [hS]
  refine ⟨(key hF hF).mpr ⟨rfl, rfl, fun _ _ => rfl⟩, fun h => ?_, fun h h' => ?_⟩
  · obtain ⟨a, b, c⟩ := (key hF hG).mp h
    exact (key hG hF).mpr ⟨a.symm, b.symm, fun p q => (c p q).symm⟩
  · obtain ⟨a, b, c⟩ := (key hF hG).mp h
    obtain ⟨a', b', c'⟩ := (key hG hH).mp h'
    exact (key hF hH).mpr ⟨a.trans a', b.trans b', fun p q => (c p q).trans (c' p q)⟩

/-- C75. Objects that compare equal have one name and the same declared parameters, also when a matrix does not have
the labels it declares (after entries were edited by hand). -/
theorem equal_same_declared {F G : FM N K} (h : F.eq G = .ok true) :
    F.name = G.name ∧ F.cosmo ∪ F.nuis = G.cosmo ∪ G.nuis ∧
      ∀ x ∈ F.matrix.rows, ∀ y ∈ F.matrix.cols, F.matrix.val x y = G.matrix.val x y := by
  unfold FM.eq at h
  simp only at h
  split at h
  · have h' := Except.ok.inj h
    simp only [Bool.and_eq_true, decide_eq_true_eq, List.all_eq_true] at h'
    obtain ⟨⟨h1, h2⟩, h3⟩ := h'
    refine ⟨h2, ?_, fun x hx y hy => h1 x ?_ y ?_⟩
    · have := h3
      unfold FM.phys at this
      rw [Finset.union_comm, this, Finset.union_comm]
    · exact (mem_sortLabels F.matrix.rows x).mpr hx
    · exact (mem_sortLabels F.matrix.cols y).mpr hy
  · cases h

/-- C75 is false in the direction "equal objects behave the same": two matrices that compare equal, one of which loses a
parameter when nuisance parameters are marginalised while the other keeps it. -/
theorem equal_but_different : ∃ F G : FM ℕ ℚ, F.WF ∧ G.WF ∧ F.eq G = .ok true ∧
    F.nuis = {1} ∧ G.nuis = ∅ := by
  let m : DF ℕ ℚ := ⟨[0, 1], [0, 1], fun a b => if a = b then 2 else 1⟩
  let F : FM ℕ ℚ := { matrix := m, name := [], cosmo := {0}, nuis := {1} }
  let G : FM ℕ ℚ := { matrix := m, name := [], cosmo := {0, 1}, nuis := ∅ }
  have hF : F.WF := ⟨rfl, by decide, by intro a; simp [F, m]⟩
  have hG : G.WF := ⟨rfl, by decide, by intro a; simp [G, m]⟩
  refine ⟨F, G, hF, hG, ?_, rfl, rfl⟩
  obtain ⟨b, h1, h2⟩ := (fisher_equality_partial hF hG).1 (by decide)
  rw [h1, h2.mpr ⟨rfl, fun _ _ => rfl⟩]

/-- C75. The consistency check accepts every well-formed matrix, and what it accepts has the declared parameters as
labels of rows and of columns. -/
theorem check_spec (F : FM N K) :
    (F.WF → F.check = .ok ()) ∧
    (F.check = .ok () → ∀ a, (a ∈ F.matrix.rows ↔ a ∈ F.cosmo ∪ F.nuis) ∧
      (a ∈ F.matrix.cols ↔ a ∈ F.cosmo ∪ F.nuis)) ∧
    (F.check ≠ .ok () → ∃ a, ¬ (a ∈ F.matrix.rows ↔ a ∈ F.cosmo ∪ F.nuis) ∨
      ¬ (a ∈ F.matrix.rows ↔ a ∈ F.matrix.cols)) := by
  have hph : F.phys = F.cosmo ∪ F.nuis := by unfold FM.phys; rw [Finset.union_comm]
  refine ⟨fun h => ?_, fun h a => ?_, fun h => ?_⟩
  · have hF' : F.matrix.On (F.cosmo ∪ F.nuis) := h
    unfold FM.check
    rw [if_neg (by rw [hF'.same, not_not]), if_neg (by rw [On.toFinset hF', hph, not_not])]
  · unfold FM.check at h
    split at h
    · cases h
    · rename_i h1
      split at h
      · cases h
      · rename_i h2
        rw [not_not] at h1 h2
        rw [← hph, ← h2, List.mem_toFinset]
        exact ⟨Iff.rfl, by rw [← List.mem_toFinset, ← h1, List.mem_toFinset]⟩
  · by_contra hn
    push Not at hn
    apply h
    unfold FM.check
    rw [if_neg, if_neg]
    · rw [not_not, hph]; ext a; rw [List.mem_toFinset]; exact (hn a).1
    · rw [not_not]; ext a; rw [List.mem_toFinset, List.mem_toFinset]; exact (hn a).2

/-- The check does not look at the order of the columns: a matrix whose columns are permuted is accepted, and its
unmarginalised errors are then read off the diagonal by position, from entries that are not on the diagonal. -/
theorem check_accepts_permuted : ∃ F : FM ℕ ℚ, F.check = .ok () ∧ ¬ F.WF ∧
    ∀ (en : Finset ℕ → List ℕ), F.unmargErrors en id false = .ok [(0, 1 / F.matrix.val 0 1), (1, 1 / F.matrix.val 1 0)] :=
  ⟨{ matrix := ⟨[0, 1], [1, 0], fun a b => if a = b then 2 else 1⟩, name := [], cosmo := {0}, nuis := {1} },
    by decide +kernel, fun h => absurd h.same (by decide), fun _ => rfl⟩

/-- Both cases of `fisher_equality_partial`: rows in another order, and another set of parameters. -/
example : exF.eq { exF with matrix := ⟨[0, 2], [0, 2], exF.matrix.val⟩ } = .ok true ∧ exF.eq exG = .error .valueError := by
  have h : FM.WF { exF with matrix := ⟨[0, 2], [0, 2], exF.matrix.val⟩ } :=
    ⟨rfl, by decide, by intro a; simp [exF]⟩
  refine ⟨?_, (fisher_equality_partial exF_WF exG_WF).2 (by decide)⟩
  obtain ⟨b, h1, h2⟩ := (fisher_equality_partial exF_WF h).1 rfl
  rw [h1, h2.mpr ⟨rfl, fun p q => ?_⟩]
  simp only [DF.ent, exF, List.mem_cons, List.not_mem_nil, or_false]
  congr 1
  simp only [eq_iff_iff]
  tauto

/-! ### C10: nuisance parameters marginalised into a copy -/

/-- C10. For a positive definite matrix, marginalising the nuisance parameters into a copy gives a matrix of the other
parameters whose inverse is the old inverse restricted to them; the original keeps its entries and parameters. When the
flag says that nuisance parameters are not to be marginalised the copy has the content of the original. -/
theorem marg_nuisance_copy {en : Finset N → List N} (hen : Iteration en) {F : FM N ℝ} (hF : PD F) :
    ∃ F' R, F.margNuisCopy en = (F', .ok R) ∧ F'.matrix = F.matrix ∧ F'.cosmo = F.cosmo ∧ F'.nuis = F.nuis ∧
      F'.name = F.name ∧ R.WF ∧ R.name = F.name ∧
      (F.margFlag = true → R.cosmo = F.cosmo \ F.nuis ∧ R.nuis = ∅ ∧
        ∃ V, Inverse (F.cosmo ∪ F.nuis) F.matrix.val V ∧ Inverse (R.cosmo ∪ R.nuis) R.matrix.val V) ∧
      (F.margFlag = false → F' = F ∧ SameContent R F) := by
  unfold FM.margNuisCopy
  cases hm : F.margFlag with
  | false =>
    refine ⟨F, F.copy, rfl, rfl, rfl, rfl, rfl, FM.copy_WF hF.1, rfl, by simp, fun _ => ⟨rfl, rfl, rfl, fun _ _ => rfl⟩⟩
  | true =>
    obtain ⟨V, hV, hVpd⟩ := posDef_inverse hF.2
    obtain ⟨W, hW, _⟩ := posDef_inverse (posDef_sub (T := (F.cosmo ∪ F.nuis) \ F.nuis) Finset.sdiff_subset hVpd)
    obtain ⟨F', R, I, J, h1, ⟨h2, _, _⟩, h3, h4, _, _, h5, h6, _, _, h7, _⟩ :=
      margCopy_spec hen hF.1 Finset.subset_union_right hV hW
    rw [if_pos rfl, h1]
    subst h2
    exact ⟨_, R, rfl, rfl, rfl, rfl, rfl, h3, h4, fun _ => ⟨h5, by rw [h6, Finset.sdiff_self], V, hV, h7⟩, by simp⟩

/-! ### C77: priors -/

theorem lookup_nodup {d : List (N × K)} (h : (d.map Prod.fst).Nodup) {p : N} {v : K} (hp : (p, v) ∈ d) :
    d.lookup p = some v := by
  induction d with
  | nil => simp at hp
  | cons x d ih =>
    rw [List.map_cons, List.nodup_cons] at h
    rcases List.mem_cons.mp hp with rfl | hp'
    · exact List.lookup_cons_self
    · have : p ≠ x.1 := fun e => h.1 (e ▸ List.mem_map_of_mem (f := Prod.fst) hp')
      rw [show x = (x.1, x.2) from rfl, List.lookup_cons]
      rw [show (p == x.1) = false from beq_false_of_ne this]
      exact ih h.2 hp'

theorem lookup_not_mem {d : List (N × K)} {p : N} (hp : p ∉ d.map Prod.fst) : d.lookup p = none := by
  induction d with
  | nil => rfl
  | cons x d ih =>
    rw [List.map_cons, List.mem_cons, not_or] at hp
    rw [show x = (x.1, x.2) from rfl, List.lookup_cons]
    rw [show (p == x.1) = false from beq_false_of_ne hp.1]
    exact ih hp.2

/-- C77. Adding priors changes exactly the diagonal entries of the given parameters, each by the inverse square of
`frac` times the given value, and nothing else; an already evaluated inverse is kept (so the errors reported next may
be those without the prior, see `stale_errors`). -/
theorem prior_spec {F : FM N K} (hF : F.WF) {fid : List (N × K)} {frac : K} (hn : (fid.map Prod.fst).Nodup)
    (h0 : ∀ nv ∈ fid, frac * nv.2 ≠ 0) (hm : ∀ nv ∈ fid, nv.1 ∈ F.cosmo ∪ F.nuis) :
    ∃ R, F.addPrior fid frac = (R, .ok ()) ∧ R.WF ∧ R.cosmo = F.cosmo ∧ R.nuis = F.nuis ∧ R.name = F.name ∧
      R.margFlag = F.margFlag ∧ R.inverse = F.inverse ∧
      (∀ p v, (p, v) ∈ fid → R.matrix.ent p p = F.matrix.ent p p + 1 / (frac * v) ^ 2) ∧
      ∀ p q, (p ≠ q ∨ p ∉ fid.map Prod.fst) → R.matrix.ent p q = F.matrix.ent p q := by
  have hF' : F.matrix.On (F.cosmo ∪ F.nuis) := hF
  have hadd : F.addPrior fid frac = ({ F with matrix := { F.matrix with
      val := fun a b => F.matrix.val a b + (if a = b then priorAt fid frac a else 0) } }, .ok ()) := by
    unfold FM.addPrior
    rw [if_neg (by rintro ⟨nv, h1, h2⟩; exact h0 nv h1 h2), if_neg]
    rintro ⟨nv, h1, h2⟩
    rw [hF'.same, hF'.mem] at h2
    exact h2.elim (fun h => h (hm nv h1)) (fun h => h (hm nv h1))
  have hR : DF.On ({ F.matrix with
      val := fun a b => F.matrix.val a b + (if a = b then priorAt fid frac a else 0) } : DF N K)
      (F.cosmo ∪ F.nuis) := ⟨hF'.same, hF'.nodup, hF'.mem⟩
  refine ⟨_, hadd, hR, rfl, rfl, rfl, rfl, rfl, ?_, ?_⟩
  · intro p v hp
    have hpm := hm _ hp
    rw [On.ent hR, On.ent hF', if_pos ⟨hpm, hpm⟩, if_pos ⟨hpm, hpm⟩]
    show F.matrix.val p p + (if p = p then priorAt fid frac p else 0) = _
    rw [if_pos rfl, priorAt, lookup_nodup hn hp]
  · intro p q hpq
    rw [On.ent hR, On.ent hF']
    split
    · show F.matrix.val p q + (if p = q then priorAt fid frac p else 0) = _
      split
      · rename_i hq
        rw [priorAt, lookup_not_mem (hpq.resolve_left (fun h => h hq))]
        simp
      · rw [add_zero]
    · rfl

/-- C77. A value of zero (or a zero fraction) is refused and changes nothing. -/
theorem prior_zero (F : FM N K) (fid : List (N × K)) (frac : K) (h : ∃ nv ∈ fid, frac * nv.2 = 0) :
    F.addPrior fid frac = (F, .error .zeroDivision) := by
  unfold FM.addPrior; rw [if_pos h]

/-- C77. For a positive definite matrix whose inverse has not been evaluated, after adding priors no reported error is
larger than before, the figure of merit is not smaller, and the error of every parameter with a prior is at most the
width of that prior. -/
theorem prior_errors_partial {en : Finset N → List N} (hen : Iteration en) {w0 wa : N} (hw : w0 ≠ wa) (fom oc : Bool)
    {F : FM N ℝ} (hF : PD F) (hi : F.inverse = none) {fid : List (N × ℝ)} {frac : ℝ}
    (hn : (fid.map Prod.fst).Nodup) (h0 : ∀ nv ∈ fid, frac * nv.2 ≠ 0)
    (hm : ∀ nv ∈ fid, nv.1 ∈ F.cosmo ∪ F.nuis) :
    ∃ R F' R' out out', F.addPrior fid frac = (R, .ok ()) ∧ PD R ∧
      F.margErrors en Real.sqrt w0 wa fom oc = (F', .ok out) ∧
      R.margErrors en Real.sqrt w0 wa fom oc = (R', .ok out') ∧ Better out' out ∧
      ∀ p v e, (p, v) ∈ fid → (p, e) ∈ out'.1 → e ≤ |frac * v| := by
  obtain ⟨R, h1, wf, c, n, _, _, hinv, hd, ho⟩ := prior_spec hF.1 hn h0 hm
  set S := F.cosmo ∪ F.nuis with hS
  have hSR : R.cosmo ∪ R.nuis = S := by rw [c, n]
  have hex : ∀ a, ∃ r : ℝ, 0 ≤ r ∧ R.matrix.ent a a = F.matrix.ent a a + r ∧
      ∀ v, (a, v) ∈ fid → r = 1 / (frac * v) ^ 2 := by
    intro a
    by_cases ha : a ∈ fid.map Prod.fst
    · obtain ⟨⟨_, v⟩, hv, rfl⟩ := List.mem_map.mp ha
      refine ⟨1 / (frac * v) ^ 2, by positivity, hd _ _ hv, fun v' hv' => ?_⟩
      have := lookup_nodup hn hv
      rw [lookup_nodup hn hv'] at this
      cases this; rfl
    · refine ⟨0, le_rfl, by rw [ho a a (Or.inr ha), add_zero], fun v hv => ?_⟩
      exact absurd (List.mem_map_of_mem (f := Prod.fst) hv) ha
  choose r hr0 hr1 hr2 using hex
  have hent : ∀ a b, R.matrix.ent a b = F.matrix.ent a b + if a = b then r a else 0 := by
    intro a b
    split
    · rename_i h; subst h; exact hr1 a
    · rename_i h; rw [ho a b (Or.inl h), add_zero]
  have hqF : ∀ x, quad S F.matrix.val x = quad S F.matrix.ent x := fun x =>
    Finset.sum_congr rfl (fun a ha => Finset.sum_congr rfl (fun b hb => by rw [ent_val hF.1 ha hb]))
  have hq : ∀ x, quad S R.matrix.val x = quad S F.matrix.val x + ∑ a ∈ S, r a * (x a * x a) := by
    intro x
    rw [hqF]
    unfold quad
    rw [← Finset.sum_add_distrib]
    refine Finset.sum_congr rfl (fun a ha => ?_)
    have : ∀ b ∈ S, x a * R.matrix.val a b * x b =
        x a * F.matrix.ent a b * x b + if a = b then r a * (x a * x b) else 0 := by
      intro b hb
      rw [← ent_val wf (hSR ▸ ha) (hSR ▸ hb), hent]
      split <;> ring
    rw [Finset.sum_congr rfl this, Finset.sum_add_distrib]
    simp [ha]
  have hnn : ∀ x : N → ℝ, 0 ≤ ∑ a ∈ S, r a * (x a * x a) := fun x =>
    Finset.sum_nonneg (fun a _ => mul_nonneg (hr0 a) (mul_self_nonneg _))
  obtain ⟨hsym, hpos⟩ := block_posDef_iff.mp hF.2
  have hR : PD R := by
    refine ⟨wf, ?_⟩
    rw [hSR, block_posDef_iff]
    refine ⟨fun a ha b hb => ?_, fun x hx => ?_⟩
    · rw [← ent_val wf (hSR ▸ ha) (hSR ▸ hb), ← ent_val wf (hSR ▸ hb) (hSR ▸ ha), hent, hent,
        ent_val hF.1 ha hb, ent_val hF.1 hb ha, hsym a ha b hb]
      by_cases h : a = b
      · subst h; rfl
      · rw [if_neg h, if_neg (fun h' => h h'.symm)]
    · rw [hq]; linarith [hpos x hx, hnn x]
  obtain ⟨F', out, h2, h3⟩ := errors_of_new hen hw fom oc hF hi
  obtain ⟨R', out', h4, h5⟩ := errors_of_new hen hw fom oc hR (by rw [hinv, hi])
  refine ⟨R, F', R', out, out', h1, hR, h2, h4, better_of hw hF.2 hR.2 (by split; exacts [Finset.subset_union_left,
    subset_rfl]) (by split; exacts [Finset.subset_union_left, subset_rfl]) h3 h5 ?_, ?_⟩
  · intro d _ x
    refine ⟨x, ?_, by rw [hSR]⟩
    rw [hSR, hq]; linarith [hnn x]
  · intro p v e hp he
    obtain ⟨W, hW, _, _, e1, _⟩ := h5
    have h6 : e = Real.sqrt (W p p) := e1 _ he
    rw [h6, ← Real.sqrt_sq_eq_abs]
    apply Real.sqrt_le_sqrt
    have hpS : p ∈ S := hm _ hp
    have hfv : 0 < (frac * v) ^ 2 := by have := h0 _ hp; positivity
    have hv1 : (block {p} (fun _ _ : N => 1 / (frac * v) ^ 2)).PosDef := by
      rw [block_posDef_iff]
      refine ⟨fun _ _ _ _ => rfl, fun x hx => ?_⟩
      obtain ⟨a, ha, hxa⟩ := hx
      rw [Finset.mem_singleton] at ha
      subst ha
      unfold quad
      simp only [Finset.sum_singleton]
      have : 0 < x a * x a := mul_self_pos.mpr hxa
      have h7 : x a * (1 / (frac * v) ^ 2) * x a = (x a * x a) * (1 / (frac * v) ^ 2) := by ring
      rw [h7]; positivity
    have hV1 : Inverse {p} (fun _ _ : N => 1 / (frac * v) ^ 2) (fun _ _ => (frac * v) ^ 2) := by
      rw [inverse_sum]
      intro a ha b hb
      rw [Finset.mem_singleton] at ha hb
      subst ha hb
      simp only [Finset.sum_singleton, if_true]
      exact one_div_mul_cancel hfv.ne'
    have := inverse_le hv1 hV1 hW (fun a => if a = p then 1 else 0) (by
      intro x
      refine ⟨x, ?_, ?_⟩
      · rw [hSR, hq]
        have h8 : quad {p} (fun _ _ : N => 1 / (frac * v) ^ 2) x = r p * (x p * x p) := by
          unfold quad; simp only [Finset.sum_singleton]; rw [hr2 p v hp]; ring
        have h9 : r p * (x p * x p) ≤ ∑ a ∈ S, r a * (x a * x a) :=
          Finset.single_le_sum (f := fun a => r a * (x a * x a))
            (fun a _ => mul_nonneg (hr0 a) (mul_self_nonneg _)) hpS
        have h10 : 0 ≤ quad S F.matrix.val x := by
          by_cases h : ∃ a ∈ S, x a ≠ 0
          · exact (hpos x h).le
          · push Not at h
            apply le_of_eq
            unfold quad
            symm
            exact Finset.sum_eq_zero (fun a ha => Finset.sum_eq_zero (fun b _ => by rw [h a ha]; ring))
        rw [h8]; linarith
      · rw [hSR]; simp [hpS])
    rwa [quad_single _ (Finset.mem_singleton_self p), quad_single W (hSR ▸ hpS)] at this

/-- A positive definite matrix `[[2, 1], [1, 2]]` of a cosmological and a nuisance parameter. -/
noncomputable def exPD : FM ℕ ℝ :=
  { matrix := ⟨[0, 1], [0, 1], fun a b => if a = b then 2 else 1⟩, name := [], cosmo := {0}, nuis := {1} }

theorem exPD_PD : PD exPD := by
  refine ⟨⟨rfl, by decide, by intro a; simp [exPD]⟩, ?_⟩
  have hu : exPD.cosmo ∪ exPD.nuis = {0, 1} := by decide
  rw [hu, block_posDef_iff]
  refine ⟨fun a _ b _ => by simp only [exPD, eq_comm], fun x hx => ?_⟩
  have e : quad {0, 1} exPD.matrix.val x = x 0 ^ 2 + x 1 ^ 2 + (x 0 + x 1) ^ 2 := by
    unfold quad
    simp only [exPD, Finset.sum_insert (show (0 : ℕ) ∉ ({1} : Finset ℕ) by decide), Finset.sum_singleton]
    norm_num; ring
  rw [e]
  obtain ⟨a, ha, hxa⟩ := hx
  rw [Finset.mem_insert, Finset.mem_singleton] at ha
  rcases ha with rfl | rfl
  · have : 0 < x 0 ^ 2 := by positivity
    nlinarith [sq_nonneg (x 1), sq_nonneg (x 0 + x 1)]
  · have : 0 < x 1 ^ 2 := by positivity
    nlinarith [sq_nonneg (x 0), sq_nonneg (x 0 + x 1)]

/-- The hypotheses of `fix_errors_le`, `add_errors_le`, `unmarg_le_marg`, `marg_nuisance_copy` and `prior_errors_partial` are
met by `exPD`. -/
example : ∃ R F' R' out out', exPD.fix {1} = (R, .ok ()) ∧
    exPD.margErrors (fun s => s.sort (· ≤ ·)) Real.sqrt 0 1 true true = (F', .ok out) ∧
    R.margErrors (fun s => s.sort (· ≤ ·)) Real.sqrt 0 1 true true = (R', .ok out') ∧ Better out' out :=
  fix_errors_le sortedIteration (by decide) _ _ exPD_PD rfl (by decide)

example : ∃ R, exPD.add (fun s => s.sort (· ≤ ·)) exPD = .ok R ∧ PD R := by
  obtain ⟨R, h1, wf, _, c, n, _, _, _, hv⟩ := add_spec sortedIteration exPD_PD.1 exPD_PD.1
  refine ⟨R, h1, ?_⟩
  rw [PD_iff wf]
  have hc : R.cosmo ∪ R.nuis = exPD.cosmo ∪ exPD.nuis := by rw [c, n, Finset.union_self, Finset.union_self]
  have := (PD_iff exPD_PD.1).mp exPD_PD
  rw [hc]
  have e : block (exPD.cosmo ∪ exPD.nuis) R.matrix.ent =
      block (exPD.cosmo ∪ exPD.nuis) exPD.matrix.ent + block (exPD.cosmo ∪ exPD.nuis) exPD.matrix.ent := by
    ext a b; exact hv a b
  rw [e]
  exact this.add this

example : ∃ R F' R' out out', exPD.addPrior [(1, 3)] (1 / 10) = (R, .ok ()) ∧ PD R ∧
    exPD.margErrors (fun s => s.sort (· ≤ ·)) Real.sqrt 0 1 true false = (F', .ok out) ∧
    R.margErrors (fun s => s.sort (· ≤ ·)) Real.sqrt 0 1 true false = (R', .ok out') ∧ Better out' out ∧
    ∀ p v e, (p, v) ∈ [((1 : ℕ), (3 : ℝ))] → (p, e) ∈ out'.1 → e ≤ |1 / 10 * v| :=
  prior_errors_partial sortedIteration (by decide) _ _ exPD_PD rfl (by simp) (by simp) (by simp [exPD])

end Seyfert.Fisher
