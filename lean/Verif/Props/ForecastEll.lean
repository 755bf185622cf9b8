import Verif.Model.ForecastLoad
import Verif.Props.Multipoles
import Verif.Lemmas.PyDict

/-!
C113: the multipoles of a spectrum are those that both probes have, each with its bin width.

`Incr l`: the list is strictly increasing.
-/

namespace Seyfert.FLoad

open Ells

section
variable {K : Type} [LinearOrder K]

omit [LinearOrder K] in
theorem masked_zip {A : Type} (P : A → Bool) (l : List A) (m : List K) (h : l.length = m.length) :
    masked m (l.map P) = ((l.zip m).filter (fun x => P x.1)).map (·.2) := by
  induction l generalizing m with
  | nil => cases m with
    | nil => rfl
    | cons => cases h
  | cons a l ih => cases m with
    | nil => cases h
    | cons b m =>
      rw [List.map_cons, masked, List.zip_cons_cons, List.filter_cons]
      have := ih m (by simpa using h)
      cases hP : P a <;> simp [this]

theorem fst_zip_filter {A B : Type} (P : A → Bool) (l : List A) (m : List B) (h : l.length = m.length) :
    ((l.zip m).filter (fun x => P x.1)).map (·.1) = l.filter P := by
  induction l generalizing m with
  | nil => rfl
  | cons a l ih => cases m with
    | nil => cases h
    | cons b m =>
      rw [List.zip_cons_cons, List.filter_cons, List.filter_cons]
      have := ih m (by simpa using h)
      cases hP : P a <;> simp [this]

theorem intersect_filter {a : List K} (ha : a.Pairwise (· < ·)) (b : List K) :
    intersect1d a b = a.filter (fun x => decide (x ∈ b)) := by
  apply sorted_ext (intersect1d_sorted a b)
  · exact ha.sublist List.filter_sublist
  · intro x
    rw [mem_intersect1d, List.mem_filter, decide_eq_true_eq]

theorem mask_eq (p q : PCfg K) : p.centers.map (fun x => decide (x ∈ intersect1d p.centers q.centers))
    = p.centers.map (fun x => decide (x ∈ q.centers)) := by
  apply List.map_congr_left
  intro x hx
  rw [decide_eq_decide, mem_intersect1d]
  exact ⟨fun h => h.2, fun h => ⟨hx, h⟩⟩

/-- C113. If the multipoles of the first probe increase, the multipoles of the combination with their widths are the
pairs of the first probe whose multipole the second probe has, in order. -/
theorem common_pairs {p q : PCfg K} (hs : p.centers.Pairwise (· < ·)) (hl : p.centers.length = p.widths.length)
    {c w : List K} (h : commonEll p q = .ok (c, w)) :
    c.zip w = (p.centers.zip p.widths).filter (fun x => decide (x.1 ∈ q.centers)) ∧ c.length = w.length ∧
      c.Pairwise (· < ·) ∧ c ≠ [] := by
  unfold commonEll at h
  simp only at h
  split at h
  · cases h
  · next hne =>
    injection h with h
    injection h with h1 h2
    have hc : c = ((p.centers.zip p.widths).filter (fun x => decide (x.1 ∈ q.centers))).map (·.1) := by
      rw [fst_zip_filter (fun x => decide (x ∈ q.centers)) _ _ hl, ← h1, intersect_filter hs]
    have hw : w = ((p.centers.zip p.widths).filter (fun x => decide (x.1 ∈ q.centers))).map (·.2) := by
      rw [← h2, mask_eq, masked_zip _ _ _ hl]
    refine ⟨?_, ?_, ?_, ?_⟩
    · rw [hc, hw, List.zip_map', ]
      exact List.map_id _
    · rw [hc, hw, List.length_map, List.length_map]
    · rw [← h1]; exact intersect1d_sorted _ _
    · intro e
      rw [← h1] at e
      exact hne (by rw [e]; rfl)

/-- C113. A combination is refused exactly if the probes have no multipole in common. -/
theorem common_refused_iff (p q : PCfg K) :
    commonEll p q = .error .noCommon ↔ ∀ x ∈ p.centers, x ∉ q.centers := by
  unfold commonEll
  simp only
  have : (intersect1d p.centers q.centers).length = 0 ↔ ∀ x ∈ p.centers, x ∉ q.centers := by
    rw [List.length_eq_zero_iff, List.eq_nil_iff_forall_not_mem]
    simp only [mem_intersect1d, not_and]
  split
  · next h => exact iff_of_true rfl (this.mp h)
  · next h => exact iff_of_false (by intro h; cases h) (fun h' => h (this.mpr h'))

theorem common_ok_or (p q : PCfg K) : commonEll p q = .error .noCommon ∨ ∃ r, commonEll p q = .ok r := by
  unfold commonEll
  simp only
  split
  · exact .inl rfl
  · exact .inr ⟨_, rfl⟩

/-- C113. The order of the two probes does not matter for the multipoles; the widths are those of the first probe, so
it does not matter for them exactly if the probes agree on the width of every common multipole. -/
theorem common_swap {p q : PCfg K} (hp : p.centers.Pairwise (· < ·)) (hq : q.centers.Pairwise (· < ·))
    (hlp : p.centers.length = p.widths.length) (hlq : q.centers.length = q.widths.length) {c w c' w' : List K}
    (h : commonEll p q = .ok (c, w)) (h' : commonEll q p = .ok (c', w')) :
    c = c' ∧ (w = w' ↔ ∀ x a b, (x, a) ∈ p.centers.zip p.widths → (x, b) ∈ q.centers.zip q.widths → a = b) := by
  have hcc : c = c' := by
    have h1 : c = intersect1d p.centers q.centers := by
      unfold commonEll at h; simp only at h; split at h
      · cases h
      · injection h with h; injection h with h _; exact h.symm
    have h2 : c' = intersect1d q.centers p.centers := by
      unfold commonEll at h'; simp only at h'; split at h'
      · cases h'
      · injection h' with h'; injection h' with h' _; exact h'.symm
    rw [h1, h2]
    exact sorted_ext (intersect1d_sorted _ _) (intersect1d_sorted _ _) (fun x => by
      rw [mem_intersect1d, mem_intersect1d, and_comm])
  subst hcc
  refine ⟨rfl, ?_⟩
  obtain ⟨e1, l1, s1, _⟩ := common_pairs hp hlp h
  obtain ⟨e2, l2, _, _⟩ := common_pairs hq hlq h'
  have memP : ∀ x a, (x, a) ∈ c.zip w ↔ (x, a) ∈ p.centers.zip p.widths ∧ x ∈ q.centers := by
    intro x a; rw [e1, List.mem_filter, decide_eq_true_eq]
  have memQ : ∀ x a, (x, a) ∈ c.zip w' ↔ (x, a) ∈ q.centers.zip q.widths ∧ x ∈ p.centers := by
    intro x a; rw [e2, List.mem_filter, decide_eq_true_eq]
  constructor
  · rintro rfl x a b ha hb
    have ha' := (memP x a).mpr ⟨ha, (List.of_mem_zip hb).1⟩
    have hb' := (memQ x b).mpr ⟨hb, (List.of_mem_zip ha).1⟩
    have hk : ((c.zip w).map (·.1)).Nodup := by
      rw [List.map_fst_zip l1.le]
      exact s1.imp (fun h => h.ne)
    have i1 := PyDict.lookup_of_mem (p := (x, a)) _ hk ha'
    have i2 := PyDict.lookup_of_mem (p := (x, b)) _ hk hb'
    exact Option.some.inj (i1.symm.trans i2)
  · intro hagree
    apply List.ext_getElem (l1.symm.trans l2)
    intro i hi hi'
    have hi0 : i < c.length := l1 ▸ hi
    have m1 : (c[i], w[i]) ∈ c.zip w := by
      have : (c.zip w)[i]'(by simp [hi0, hi]) = (c[i], w[i]) := by simp
      rw [← this]; exact List.getElem_mem _
    have m2 : (c[i], w'[i]) ∈ c.zip w' := by
      have : (c.zip w')[i]'(by simp [hi0, hi']) = (c[i], w'[i]) := by simp
      rw [← this]; exact List.getElem_mem _
    exact hagree _ _ _ ((memP _ _).mp m1).1 ((memQ _ _).mp m2).1

/-- C113. An auto-correlation has the multipoles and widths of its probe, in whatever order they are; a probe without
multipoles is refused. -/
theorem auto_own (f : Forecast K) (a : Str) {p : PCfg K} (h : f.cfgs.lookup a = some p) :
    (p.centers ≠ [] → spectrumEll f a a = .ok (p.centers, p.widths)) ∧
      (p.centers = [] → spectrumEll f a a = .error .noCommon) := by
  have hc : commonFor f a a = commonEll p p := by unfold commonFor; rw [h]
  constructor
  · intro hne
    unfold spectrumEll
    rw [hc]
    rcases common_ok_or p p with e | ⟨r, e⟩
    · obtain ⟨x, hx⟩ := List.exists_mem_of_ne_nil _ hne
      exact absurd hx ((common_refused_iff p p).mp e x hx)
    · rw [e]
      simp only [ne_eq, not_true, if_false, h]
  · intro he
    unfold spectrumEll
    rw [hc, (common_refused_iff p p).mpr (by rw [he]; simp)]

/-- C113. A cross-correlation has the common multipoles. -/
theorem cross_common (f : Forecast K) {a b : Str} (hab : a ≠ b) {p q : PCfg K} (ha : f.cfgs.lookup a = some p)
    (hb : f.cfgs.lookup b = some q) : spectrumEll f a b = commonEll p q := by
  have hc : commonFor f a b = commonEll p q := by unfold commonFor; rw [ha, hb]
  unfold spectrumEll
  rw [hc]
  rcases common_ok_or p q with e | ⟨r, e⟩ <;> rw [e]
  simp only [ne_eq, hab, not_false_eq_true, if_true]

/-- For increasing multipoles it would make no difference to ask for the common ones of a probe with itself. -/
theorem auto_same {p : PCfg K} (hs : p.centers.Pairwise (· < ·)) (hl : p.centers.length = p.widths.length)
    {c w : List K} (h : commonEll p p = .ok (c, w)) : c = p.centers ∧ w = p.widths := by
  obtain ⟨e, l, _, _⟩ := common_pairs hs hl h
  have hfil : (p.centers.zip p.widths).filter (fun x => decide (x.1 ∈ p.centers)) = p.centers.zip p.widths := by
    rw [List.filter_eq_self]
    rintro ⟨x, y⟩ hx
    exact decide_eq_true (List.of_mem_zip hx).1
  rw [hfil] at e
  constructor
  · rw [← List.map_fst_zip (l₁ := c) (l₂ := w) l.le, e, List.map_fst_zip hl.le]
  · rw [← List.map_snd_zip (l₁ := c) (l₂ := w) l.ge, e, List.map_snd_zip hl.ge]

theorem interArrays_two (a b x : List K) : interArrays [a, b] = .ok x →
    (x.length = 0 ↔ ∀ y ∈ a, y ∉ b) := by
  intro h
  unfold interArrays at h
  injection h with h
  rw [List.length_eq_zero_iff, List.eq_nil_iff_forall_not_mem, ← h]
  simp only [List.foldl, mem_intersect1d, not_and]
  constructor
  · intro h y hy hb; exact h y ⟨hy, hb⟩ hb
  · intro h y hy _; exact h y hy.1 hy.2

/-- C113. The check of the multipoles of all combinations accepts a configuration exactly if the multipoles of all
spectra can be set. -/
theorem check_iff (f : Forecast K) (l : List (Str × Str)) :
    checkMultipoles f l = none ↔ ∃ r, allEll f l = .ok r := by
  induction l with
  | nil => exact iff_of_true rfl ⟨_, rfl⟩
  | cons x l ih =>
    obtain ⟨a, b⟩ := x
    rw [checkMultipoles, allEll]
    cases ha : f.cfgs.lookup a with
    | none =>
      have : spectrumEll f a b = .error .keyError := by unfold spectrumEll commonFor; rw [ha]
      rw [this]
      exact iff_of_false (by intro h; cases h) (by rintro ⟨r, h⟩; cases h)
    | some p =>
      cases hb : f.cfgs.lookup b with
      | none =>
        have : spectrumEll f a b = .error .keyError := by unfold spectrumEll commonFor; rw [ha, hb]
        rw [this]
        exact iff_of_false (by intro h; cases h) (by rintro ⟨r, h⟩; cases h)
      | some q =>
        have hspec : (∀ y ∈ p.centers, y ∉ q.centers) → spectrumEll f a b = .error .noCommon := by
          intro h
          unfold spectrumEll commonFor
          rw [ha, hb]
          simp only [(common_refused_iff p q).mpr h]
        have hok : (¬ ∀ y ∈ p.centers, y ∉ q.centers) → ∃ r, spectrumEll f a b = .ok r := by
          intro h
          have : ∃ r, commonFor f a b = .ok r := by
            unfold commonFor; rw [ha, hb]
            rcases common_ok_or p q with e | e
            · exact absurd ((common_refused_iff p q).mp e) h
            · exact e
          obtain ⟨r, hr⟩ := this
          unfold spectrumEll
          rw [hr]
          by_cases hab : a = b
          · simp only [hab, ne_eq, not_true, if_false]
            rw [← hab, ha]; exact ⟨_, rfl⟩
          · simp only [hab, ne_eq, not_false_eq_true, if_true]; exact ⟨_, rfl⟩
        cases hi : interArrays [p.centers, q.centers] with
        | error e => unfold interArrays at hi; cases hi
        | ok x =>
          have hx := interArrays_two _ _ _ hi
          simp only [hi]
          by_cases h0 : x.length = 0
          · rw [if_pos h0, hspec (hx.mp h0)]
            exact iff_of_false (by intro h; cases h) (by rintro ⟨r, h⟩; cases h)
          · rw [if_neg h0, ih]
            obtain ⟨r, hr⟩ := hok (fun h => h0 (hx.mpr h))
            rw [hr]
            simp only
            constructor
            · rintro ⟨r', h'⟩; rw [h']; exact ⟨_, rfl⟩
            · rintro ⟨r', h'⟩
              cases hr' : allEll f l with
              | error e => simp only [hr'] at h'; cases h'
              | ok y => exact ⟨y, rfl⟩

/-- C113. There is one grid per combination, under its key and in order, and it is the grid of that combination. -/
theorem all_grids (f : Forecast K) (l : List (Str × Str)) {r : List (Str × (List K × List K))}
    (h : allEll f l = .ok r) : List.Forall₂ (fun ab g => g.1 = Keys.combKey ab.1 ab.2 ∧
      spectrumEll f ab.1 ab.2 = .ok g.2) l r := by
  induction l generalizing r with
  | nil => rw [allEll] at h; cases h; exact .nil
  | cons x l ih =>
    obtain ⟨a, b⟩ := x
    rw [allEll] at h
    cases hs : spectrumEll f a b with
    | error e => simp only [hs] at h; cases h
    | ok g =>
      simp only [hs] at h
      cases hr : allEll f l with
      | error e => simp only [hr] at h; cases h
      | ok r' =>
        simp only [hr] at h
        cases h
        exact .cons ⟨rfl, hs⟩ (ih hr)

end

/-! ### Grids made from the configuration -/

theorem map_range_incr (g : ℕ → ℝ) (n : ℕ) (h : ∀ i j, i < j → j < n → g i < g j) :
    ((List.range n).map g).Pairwise (· < ·) := by
  rw [List.pairwise_map]
  refine (List.pairwise_lt_range (n := n)).imp_of_mem ?_
  intro i j _ hj hij
  exact h i j hij (List.mem_range.mp hj)

/-- C113. The multipoles that the code computes from limits of integer distance with linear spacing, or from positive
limits and a positive number with logarithmic spacing, increase, and there are as many widths as multipoles. -/
theorem binning_increasing {lmin lmax : ℝ} (h : lmin < lmax) {logSel : Bool} {nEll : NEll} {c w : List ℝ}
    (hlin : logSel = false → ∃ n : ℕ, lmax - lmin = n)
    (hlog : logSel = true → 0 < lmin ∧ ∃ n : ℕ, 0 < n ∧ nEll = .num n)
    (hb : binning none lmin lmax logSel nEll = .ok (c, w)) :
    c.Pairwise (· < ·) ∧ c.length = w.length ∧ c ≠ [] := by
  unfold binning at hb
  simp only at hb
  cases logSel with
  | false =>
    obtain ⟨n, hn⟩ := hlin rfl
    have hpos : 0 < n := by
      rcases Nat.eq_zero_or_pos n with rfl | h'
      · simp at hn; linarith
      · exact h'
    obtain ⟨cs, ws, hm, hc, hw, _⟩ := lin_spec lmin lmax n hn hpos "Linear".toList (.inr (.inr rfl)) nEll
    simp only [Bool.false_eq_true, if_false, hm] at hb
    injection hb with hb
    injection hb with h1 h2
    rw [← h1, ← h2, hc, hw]
    refine ⟨map_range_incr _ _ ?_, by simp, ?_⟩
    · intro i j hij _
      have : (i : ℝ) < j := by exact_mod_cast hij
      linarith
    · intro e
      rw [List.map_eq_nil_iff, List.range_eq_nil] at e
      omega
  | true =>
    obtain ⟨h0, n, hn, rfl⟩ := hlog rfl
    obtain ⟨es, cs, ws, hm, hc, hw, _, _, q, hq, hk⟩ := log_spec lmin lmax n hn h0 h "Logarithmic".toList (.inr (.inr rfl))
    have he : es = (List.range (n + 1)).map (logEdge lmin lmax n) := by
      have hns : ¬ ("Logarithmic".toList = "lin".toList ∨ "Logarithmic".toList = "linear".toList
        ∨ "Logarithmic".toList = "Linear".toList) := by decide
      unfold multipoles at hm
      rw [if_neg (not_le.mpr h), if_neg hns, if_pos (.inr (.inr rfl))] at hm
      simp only at hm
      rw [if_neg (by omega), if_neg (by omega), Int.toNat_natCast] at hm
      injection hm with hm
      injection hm with hm _
      exact hm.symm
    simp only [if_true, hm] at hb
    injection hb with hb
    injection hb with h1 h2
    rw [← h1, ← h2]
    refine ⟨?_, by rw [hc, hw], by intro e; rw [e] at hc; simp at hc; omega⟩
    have hcs : cs = (List.range n).map (fun k => (logEdge lmin lmax n k + logEdge lmin lmax n (k + 1)) / 2) := by
      apply List.ext_getElem?
      intro k
      by_cases hkn : k < n
      · obtain ⟨a, b, ha, hb, _, hck⟩ := hk k hkn
        rw [hck]
        rw [he, List.getElem?_map, List.getElem?_range (by omega)] at ha hb
        simp only [Option.map_some, Option.some.injEq] at ha hb
        rw [← ha, ← hb]
        simp [List.getElem?_range hkn]
      · rw [List.getElem?_eq_none (by omega), List.getElem?_eq_none (by simp; omega)]
    rw [hcs]
    apply map_range_incr
    intro i j hij _
    have h3 := logEdge_mono lmin lmax n hn h0 h hij
    have h4 := logEdge_mono lmin lmax n hn h0 h (show i + 1 < j + 1 by omega)
    linarith

/-- The multipoles of a linear grid between natural numbers. -/
theorem linear_grid {a b : ℕ} (h : a < b) (nEll : NEll) : binning none a b false nEll =
    .ok ((List.range (b - a)).map (fun k : ℕ => (a : ℝ) + k + 1 / 2), List.replicate (b - a) 1) := by
  obtain ⟨cs, ws, hm, hc, hw, _⟩ := lin_spec (a : ℝ) b (b - a) (by rw [Nat.cast_sub h.le]) (by omega) "Linear".toList
    (.inr (.inr rfl)) nEll
  unfold binning
  simp only [Bool.false_eq_true, if_false, hm, hc, hw]

/-- C113. Two probes with linear grids between natural numbers: a combination has one multipole of width one for every
unit interval in both ranges, and is refused exactly if the ranges do not overlap. -/
theorem linear_common {a b a' b' : ℕ} (h : a < b) (h' : a' < b') {nEll nEll' : NEll} {p q : PCfg ℝ}
    (hp : binning none a b false nEll = .ok (p.centers, p.widths))
    (hq : binning none a' b' false nEll' = .ok (q.centers, q.widths)) :
    (min b b' ≤ max a a' → commonEll p q = .error .noCommon) ∧
    (max a a' < min b b' → commonEll p q =
      .ok ((List.range (min b b' - max a a')).map (fun k : ℕ => ((max a a' : ℕ) : ℝ) + k + 1 / 2),
        List.replicate (min b b' - max a a') 1)) := by
  rw [linear_grid h] at hp
  rw [linear_grid h'] at hq
  injection hp with hp
  injection hp with hp1 hp2
  injection hq with hq
  injection hq with hq1 hq2
  have mem : ∀ (a b : ℕ) (x : ℝ), x ∈ (List.range (b - a)).map (fun k : ℕ => (a : ℝ) + k + 1 / 2) ↔
      ∃ m : ℕ, a ≤ m ∧ m < b ∧ x = m + 1 / 2 := by
    intro a b x
    rw [List.mem_map]
    constructor
    · rintro ⟨k, hk, rfl⟩
      rw [List.mem_range] at hk
      exact ⟨a + k, by omega, by omega, by push_cast; ring⟩
    · rintro ⟨m, h1, h2, rfl⟩
      refine ⟨m - a, List.mem_range.mpr (by omega), ?_⟩
      rw [Nat.cast_sub h1]; ring
  have both : ∀ x : ℝ, (x ∈ p.centers ∧ x ∈ q.centers) ↔ ∃ m : ℕ, max a a' ≤ m ∧ m < min b b' ∧ x = m + 1 / 2 := by
    intro x
    rw [← hp1, ← hq1, mem, mem]
    constructor
    · rintro ⟨⟨m, h1, h2, e⟩, ⟨m', h1', h2', e'⟩⟩
      have : m = m' := by
        have : (m : ℝ) = m' := by linarith
        exact_mod_cast this
      subst this
      exact ⟨m, by omega, by omega, e⟩
    · rintro ⟨m, h1, h2, e⟩
      exact ⟨⟨m, by omega, by omega, e⟩, ⟨m, by omega, by omega, e⟩⟩
  have incr : ∀ (a n : ℕ), ((List.range n).map (fun k : ℕ => (a : ℝ) + k + 1 / 2)).Pairwise (· < ·) := by
    intro a n
    apply map_range_incr
    intro i j hij _
    have : (i : ℝ) < j := by exact_mod_cast hij
    linarith
  constructor
  · intro hle
    rw [common_refused_iff]
    intro x hx hx'
    obtain ⟨m, h1, h2, _⟩ := (both x).mp ⟨hx, hx'⟩
    omega
  · intro hlt
    rcases common_ok_or p q with e | ⟨⟨c, w⟩, e⟩
    · have := (common_refused_iff p q).mp e
      obtain ⟨h1, h2⟩ := (both ((max a a' : ℕ) + 1 / 2)).mpr ⟨max a a', le_rfl, hlt, rfl⟩
      exact absurd h2 (this _ h1)
    · rw [e]
      have hs : p.centers.Pairwise (· < ·) := by rw [← hp1]; exact incr a _
      have hl : p.centers.length = p.widths.length := by rw [← hp1, ← hp2]; simp
      obtain ⟨ez, el, es, _⟩ := common_pairs hs hl e
      have hc : c = (List.range (min b b' - max a a')).map (fun k : ℕ => ((max a a' : ℕ) : ℝ) + k + 1 / 2) := by
        apply sorted_ext es (incr _ _)
        intro x
        rw [mem]
        rw [← both]
        have : c = (c.zip w).map (·.1) := (List.map_fst_zip el.le).symm
        rw [this, ez, fst_zip_filter (fun x => decide (x ∈ q.centers)) _ _ hl, List.mem_filter, decide_eq_true_eq]
      have hw : w = List.replicate (min b b' - max a a') 1 := by
        rw [List.eq_replicate_iff]
        refine ⟨by rw [← el, hc]; simp, ?_⟩
        intro y hy
        have : w = (c.zip w).map (·.2) := (List.map_snd_zip el.ge).symm
        rw [this, ez] at hy
        obtain ⟨x, hx, rfl⟩ := List.mem_map.mp hy
        have := (List.of_mem_zip (List.mem_filter.mp hx).1).2
        rw [← hp2] at this
        exact List.eq_of_mem_replicate this
      rw [hc, hw]

/-- C113. A file of multipoles gives its first two columns, and needs at least two lines of at least two columns. -/
theorem file_grid (rows : List (List ℝ)) (lmin lmax : ℝ) (logSel : Bool) (nEll : NEll) :
    (2 ≤ rows.length ∧ (∀ r ∈ rows, 2 ≤ r.length) → ∃ c w, binning (some rows) lmin lmax logSel nEll = .ok (c, w) ∧
      c.length = rows.length ∧ w.length = rows.length ∧
      ∀ (i : ℕ) (x y : ℝ) (t : List ℝ), rows[i]? = some (x :: y :: t) → c[i]? = some x ∧ w[i]? = some y) ∧
    (¬ (2 ≤ rows.length ∧ ∀ r ∈ rows, 2 ≤ r.length) →
      binning (some rows) lmin lmax logSel nEll = .error (.ell .indexError)) := by
  have aux : ∀ (j : ℕ) (l : List (List ℝ)), (∀ r ∈ l, j < r.length) →
      l.filterMap (fun r => r[j]?) = l.map (fun r => r[j]?.getD 0) := by
    intro j l hl
    induction l with
    | nil => rfl
    | cons r l ih =>
      rw [List.filterMap_cons, List.map_cons, ih (fun x hx => hl x (List.mem_cons_of_mem _ hx)),
        List.getElem?_eq_getElem (hl r (by simp))]
      rfl
  unfold binning columns
  simp only
  constructor
  · rintro ⟨h1, h2⟩
    rw [if_neg (by omega), if_pos (by simpa using h2)]
    refine ⟨_, _, rfl, ?_, ?_, ?_⟩
    · rw [aux 0 rows (fun r hr => by have := h2 r hr; omega), List.length_map]
    · rw [aux 1 rows (fun r hr => by have := h2 r hr; omega), List.length_map]
    · intro i x y t hi
      rw [aux 0 rows (fun r hr => by have := h2 r hr; omega), aux 1 rows (fun r hr => by have := h2 r hr; omega),
        List.getElem?_map, List.getElem?_map, hi]
      exact ⟨rfl, rfl⟩
  · intro h
    by_cases h1 : rows.length < 2
    · rw [if_pos h1]
    · rw [if_neg h1, if_neg]
      intro h2
      exact h ⟨by omega, by simpa using h2⟩

/-! ### Cases -/

/-- A probe with the given multipoles and widths. -/
def grid (c w : List ℚ) : PCfg ℚ := ⟨c, w, none, none, none, []⟩

/-- Two increasing grids with two multipoles in common. -/
example : commonEll (grid [10, 20, 30] [1, 2, 3]) (grid [20, 30, 40] [5, 6, 7]) = .ok ([20, 30], [2, 3]) := by
  decide +kernel

/-- C113 fails for multipoles that do not increase, which a file may contain: the multipoles come out sorted, the widths
in the order of the file, so they belong to other multipoles. -/
theorem common_unsorted : ∃ p q : PCfg ℚ, p.centers.Nodup ∧ p.centers.length = p.widths.length ∧
    ∃ c w, commonEll p q = .ok (c, w) ∧ (20, 2) ∈ p.centers.zip p.widths ∧ (20, 1) ∈ c.zip w :=
  ⟨grid [30, 20] [1, 2], grid [20, 30] [5, 6], by decide, rfl, [20, 30], [1, 2], by decide +kernel, by decide,
    by decide⟩

/-- For a repeated multipole there are more widths than multipoles. -/
theorem common_repeated : ∃ p q : PCfg ℚ, p.centers.length = p.widths.length ∧
    ∃ c w, commonEll p q = .ok (c, w) ∧ c.length < w.length :=
  ⟨grid [10, 10, 20] [1, 2, 3], grid [10, 20] [5, 6], rfl, [10, 20], [1, 2, 3], by decide +kernel, by decide⟩

/-- The widths depend on which probe comes first. -/
theorem common_asymmetric : ∃ p q : PCfg ℚ, p.centers.Pairwise (· < ·) ∧ q.centers.Pairwise (· < ·) ∧
    (∃ c w w', commonEll p q = .ok (c, w) ∧ commonEll q p = .ok (c, w') ∧ w ≠ w') :=
  ⟨grid [10, 20] [1, 2], grid [20, 30] [5, 6], by decide, by decide, [20], [2], [5], by decide +kernel,
    by decide +kernel, by decide⟩

end Seyfert.FLoad
