import Verif.Spec.Contours
import Verif.Lemmas.PyDict
import Verif.Lemmas.PyStr
import Mathlib.Algebra.Order.Field.Basic

/-! Choice of an analysis, files of the plots of its contours, bar plots. -/

namespace Seyfert.Contour
open Collector (Cell Analysis Matches query subsetAnalysis)

/-! ### Choice of an analysis -/

section Choice

variable {F E : Type}

theorem filter_one {α : Type} (p : α → Bool) (r : α) : ∀ l : List α, l.filter p = [r] ↔
    ∃ pre post, l = pre ++ r :: post ∧ p r = true ∧ ∀ x ∈ pre ++ post, p x = false := by
  intro l
  constructor
  · intro h
    induction l with
    | nil => cases h
    | cons x l ih =>
      rw [List.filter_cons] at h
      by_cases hx : p x = true
      · rw [if_pos hx] at h
        obtain ⟨rfl, hl⟩ := List.cons.inj h
        refine ⟨[], l, rfl, hx, fun y hy => ?_⟩
        have := List.filter_eq_nil_iff.1 hl y hy
        simpa using this
      · rw [if_neg hx] at h
        obtain ⟨pre, post, rfl, h1, h2⟩ := ih h
        refine ⟨x :: pre, post, rfl, h1, fun y hy => ?_⟩
        rcases List.mem_cons.1 hy with rfl | hy
        · simpa using hx
        · exact h2 y hy
  · rintro ⟨pre, post, rfl, h1, h2⟩
    have e1 : pre.filter p = [] := List.filter_eq_nil_iff.2 fun x hx => by
      rw [h2 x (List.mem_append_left _ hx)]; simp
    have e2 : post.filter p = [] := List.filter_eq_nil_iff.2 fun x hx => by
      rw [h2 x (List.mem_append_right _ hx)]; simp
    rw [List.filter_append, List.filter_cons, if_pos h1, e1, e2]
    rfl

/-- A query by numbers and truth values leaves one row exactly if one row fits. -/
theorem query_one {columns : List Str} {rows : List (ARow F E)} {sel : Dict Str Cell} (ht : ∀ q ∈ sel, ∀ s, q.2 ≠ .str s)
    (r : ARow F E) : query columns rows sel = .ok [r] ↔ sel ≠ [] ∧ (∀ q ∈ sel, q.1 ∈ columns) ∧ OnlyRow rows sel r := by
  unfold query OnlyRow
  have key : ∀ x : ARow F E, (sel.all fun q => match x.1.lookup q.1, Collector.operand x.1 q.2 with
      | some a, some b => Collector.pyEq a b
      | _, _ => false) = true ↔ ∀ q ∈ sel, Matches x.1 q := by
    intro x
    rw [List.all_eq_true]
    refine forall_congr' fun q => forall_congr' fun hq => ?_
    have ho : Collector.operand x.1 q.2 = some q.2 := by
      cases e : q.2 with
      | num => rfl
      | bool => rfl
      | str s => exact absurd e (ht q hq s)
    unfold Matches
    rw [ho]
    cases e : x.1.lookup q.1 with
    | none => simp
    | some a => simp [Collector.pyEq_iff]
  by_cases h1 : sel = []
  · rw [if_pos h1]
    exact ⟨nofun, fun h => absurd h1 h.1⟩
  rw [if_neg h1]
  by_cases h2 : ∃ q ∈ sel, q.1 ∉ columns ∨ Collector.undefined columns q.2 = true
  · rw [if_pos h2]
    refine ⟨nofun, fun h => ?_⟩
    obtain ⟨q, hq, hc | hc⟩ := h2
    · exact absurd (h.2.1 q hq) hc
    · cases e : q.2 with
      | num => rw [e] at hc; cases hc
      | bool => rw [e] at hc; cases hc
      | str s => exact absurd e (ht q hq s)
  · rw [if_neg h2]
    have h3 : ∀ q ∈ sel, q.1 ∈ columns := fun q hq => by
      by_contra hc
      exact h2 ⟨q, hq, Or.inl hc⟩
    rw [Except.ok.injEq, filter_one]
    constructor
    · rintro ⟨pre, post, e, a, b⟩
      refine ⟨h1, h3, pre, post, e, (key r).1 a, fun x hx hm => ?_⟩
      exact absurd ((key x).2 hm) (by
        have := b x hx
        exact fun hc => Bool.false_ne_true (this.symm.trans hc))
    · rintro ⟨_, _, pre, post, e, a, b⟩
      refine ⟨pre, post, e, (key r).2 a, fun x hx => ?_⟩
      exact Bool.eq_false_iff.2 fun hc => b x hx ((key x).1 hc)

theorem chooseAll_one {fishers : List Str} {rs : List (ARow F E)} {r' : ARow F E} :
    chooseAll fishers rs = .ok [r'] ↔ ∃ r a, rs = [r] ∧ subsetAnalysis r.2.1 fishers = .ok a ∧ r' = (r.1, a, r.2.2) := by
  constructor
  · intro h
    cases rs with
    | nil => cases h
    | cons r rs =>
      unfold chooseAll at h
      split at h
      · cases h
      rename_i a ha
      split at h
      · cases h
      rename_i l hl
      cases h
      cases rs with
      | nil => exact ⟨r, a, rfl, ha, rfl⟩
      | cons s rs =>
        unfold chooseAll at hl
        split at hl
        · cases hl
        split at hl <;> cases hl
  · rintro ⟨r, a, rfl, ha, rfl⟩
    unfold chooseAll
    rw [ha]
    rfl

theorem forFishers_ok {columns : List Str} {rows : List (ARow F E)} {sel : Dict Str Cell} {fishers : List Str}
    {add : Dict Str Cell} {c : Chosen F E} : forFishers columns rows sel fishers add = .ok c ↔
      ∃ r a run, query columns rows sel = .ok [r] ∧ subsetAnalysis r.2.1 fishers = .ok a ∧ r.1.lookup kRun = some (.str run) ∧
        c = ⟨run, a, newInfo run r.2.2 sel add⟩ := by
  constructor
  · intro h
    unfold forFishers at h
    split at h
    · cases h
    rename_i rs hq
    split at h
    · cases h
    · rename_i r' hc
      obtain ⟨r, a, rfl, ha, rfl⟩ := chooseAll_one.1 hc
      dsimp only at h
      split at h
      · cases h
      · rename_i run hrun
        cases h
        exact ⟨r, a, run, hq, ha, hrun, rfl⟩
      · cases h
    · cases h
  · rintro ⟨r, a, run, hq, ha, hrun, rfl⟩
    unfold forFishers
    rw [hq]
    dsimp only
    rw [chooseAll_one.2 ⟨r, a, rfl, ha, rfl⟩]
    dsimp only
    rw [hrun]

/-- An analysis is returned exactly if one row of the table fits, has all the matrices and a text as run id. -/
theorem chosen_iff {columns : List Str} {rows : List (ARow F E)} {sel : Dict Str Cell} {fishers : List Str}
    {add : Dict Str Cell} (ht : ∀ q ∈ sel, ∀ s, q.2 ≠ .str s) : (∃ c, forFishers columns rows sel fishers add = .ok c) ↔
      sel ≠ [] ∧ (∀ q ∈ sel, q.1 ∈ columns) ∧ ∃ r run, OnlyRow rows sel r ∧ Complete r.2.1 fishers ∧
        r.1.lookup "run_id".toList = some (.str run) := by
  constructor
  · rintro ⟨c, h⟩
    obtain ⟨r, a, run, hq, ha, hrun, _⟩ := forFishers_ok.1 h
    obtain ⟨h1, h2, h3⟩ := (query_one ht r).1 hq
    exact ⟨h1, h2, r, run, h3, (Collector.subset_refused _ _).1 ⟨a, ha⟩, hrun⟩
  · rintro ⟨h1, h2, r, run, h3, h4, h5⟩
    obtain ⟨a, ha⟩ := (Collector.subset_refused _ _).2 h4
    exact ⟨_, forFishers_ok.2 ⟨r, a, run, (query_one ht r).2 ⟨h1, h2, h3⟩, ha, h5, rfl⟩⟩

theorem firstPart_split (run : Str) : FirstPart run ((splitChar '_' run).headD []) := by
  have key : ∀ p : Str, ∀ l, splitChar '_' run = p :: l → FirstPart run p := by
    induction run with
    | nil =>
      intro p l h
      rw [splitChar_no_sep '_' [] (by simp)] at h
      cases h
      exact ⟨by simp, Or.inl rfl⟩
    | cons x xs ih =>
      intro p l h
      unfold splitChar at h
      by_cases hx : x = '_'
      · rw [if_pos hx] at h
        cases h
        exact ⟨by simp, Or.inr ⟨xs, by rw [hx]; rfl⟩⟩
      · rw [if_neg hx] at h
        cases e : splitChar '_' xs with
        | nil => exact absurd e (splitChar_ne_nil _ _)
        | cons q rest =>
          rw [e] at h
          obtain ⟨rfl, _⟩ := List.cons.inj h
          obtain ⟨a, b⟩ := ih q rest e
          refine ⟨?_, ?_⟩
          · intro hm
            rcases List.mem_cons.1 hm with hm | hm
            · exact hx hm.symm
            · exact a hm
          · rcases b with rfl | ⟨r, rfl⟩
            · exact Or.inl rfl
            · exact Or.inr ⟨r, rfl⟩
  cases e : splitChar '_' run with
  | nil => exact absurd e (splitChar_ne_nil _ _)
  | cons p l => exact key p l e

/-- The analysis returned: of the row that fits, with the matrices asked for and their errors. Its metadata are those of the
analysis but for the run id, the scenario, which is the beginning of the run id, and the values selected by and added. -/
theorem chosen {columns : List Str} {rows : List (ARow F E)} {sel : Dict Str Cell} {fishers : List Str}
    {add : Dict Str Cell} {c : Chosen F E} (ht : ∀ q ∈ sel, ∀ s, q.2 ≠ .str s) (hs : (sel.map (·.1)).Nodup)
    (ha : (add.map (·.1)).Nodup) (h : forFishers columns rows sel fishers add = .ok c) :
    ∃ r p, OnlyRow rows sel r ∧ r.1.lookup "run_id".toList = some (.str c.name) ∧ FirstPart c.name p ∧
      (∀ q, q ∈ c.an.fishers ↔ q ∈ r.2.1.fishers ∧ q.1 ∈ fishers) ∧ (∀ n ∈ fishers, n ∈ c.an.fishers.map (·.1)) ∧
      (∀ q ∈ c.an.errs, r.2.1.errs.lookup q.1 = some q.2) ∧ (∀ q ∈ c.an.relErrs, r.2.1.relErrs.lookup q.1 = some q.2) ∧
      ∀ k, c.info.lookup k = (add.lookup k).or ((sel.lookup k).or
        (if k = "scenario".toList then some (.str p) else if k = "run_id".toList then some (.str c.name) else r.2.2.lookup k)) := by
  obtain ⟨r, a, run, hq, hsub, hrun, rfl⟩ := forFishers_ok.1 h
  obtain ⟨_, _, h3⟩ := (query_one ht r).1 hq
  obtain ⟨s1, _, s3, _, s5, s6⟩ := Collector.subset_analysis _ _ _ hsub
  refine ⟨r, (splitChar '_' run).headD [], h3, hrun, firstPart_split run, s1, fun n hn => (s6 n).2 hn, s3, s5, fun k => ?_⟩
  unfold newInfo
  rw [PyDict.lookup_update, PyDict.lookup_update, PyDict.lookup_reverse _ ha, PyDict.lookup_reverse _ hs, PyDict.lookup_set,
    PyDict.lookup_set]
  rfl

/-- The collection of the results of runs whose configurations have the options of the editor has no run ids, so that no
analysis can be chosen from it. -/
theorem collected_never {columns : List Str} {rows : List (ARow F E)} (h : ∀ r ∈ rows, ∀ k ∈ r.1.map (·.1), k ∈ accepted)
    (sel : Dict Str Cell) (fishers : List Str) (add : Dict Str Cell) :
    ∃ e, forFishers columns rows sel fishers add = .error e := by
  cases e : forFishers columns rows sel fishers add with
  | error x => exact ⟨x, rfl⟩
  | ok c =>
    exfalso
    obtain ⟨r, a, run, hq, _, hrun, _⟩ := forFishers_ok.1 e
    have hr : r ∈ rows := by
      unfold query at hq
      split at hq
      · cases hq
      split at hq
      · cases hq
      rw [Except.ok.injEq] at hq
      have : r ∈ [r] := List.mem_singleton.2 rfl
      rw [← hq] at this
      exact (List.mem_filter.1 this).1
    have hk : kRun ∈ accepted := h r hr kRun ((PyDict.lookup_isSome_iff _ _).1 (by rw [hrun]; rfl))
    exact absurd hk (by decide +kernel)

/-! ### The plot -/

theorem triPlot_ok {fmt : Cell → Str} {root dir : Path} {pars : List Str} {given : Dict Str Opt} {c : Chosen F E}
    {ps : List Path} : triPlot fmt root dir pars given c = .ok ps ↔ ∃ scenario case sub bins,
      c.info.lookup kScenario = some scenario ∧ c.info.lookup kCase = some (.str case) ∧ c.info.lookup kSub = some (.str sub) ∧
      c.info.lookup kBins = some bins ∧ case ∈ texNames ∧ sub ∈ texNames ∧
      ps = rangesFile root (fmt scenario) (fmt (.str case)) (fmt (.str sub)) (fmt bins) ::
        if ((options given).lookup "save".toList).any Opt.truth then
          [plotFile dir (fmt (.str case)) (fmt (.str sub)) (fmt bins) pars] else [] := by
  constructor
  · intro h
    unfold triPlot at h
    split at h
    · rename_i scenario case sub bins h1 h2 h3 h4
      by_cases hc : (∃ s ∈ texNames, Cell.str s = case) ∧ ∃ s ∈ texNames, Cell.str s = sub
      · rw [if_pos hc] at h
        obtain ⟨⟨s, hs, rfl⟩, ⟨s', hs', rfl⟩⟩ := hc
        exact ⟨scenario, s, s', bins, h1, h2, h3, h4, hs, hs', (Except.ok.inj h).symm⟩
      · rw [if_neg hc] at h
        cases h
    · cases h
  · rintro ⟨scenario, case, sub, bins, h1, h2, h3, h4, h5, h6, rfl⟩
    unfold triPlot
    rw [h1, h2, h3, h4]
    dsimp only
    rw [if_pos ⟨⟨case, h5, rfl⟩, ⟨sub, h6, rfl⟩⟩]

/-- A table without a column `n_bins`, as the collection of results, gives no plot of a case. -/
theorem bins_never {defs : Dict Str (Dict Str (List Str))} {columns : List Str} {rows : List (ARow F E)} {sel : Dict Str Cell}
    {case sub : Str} {c : Chosen F E} (hc : "n_bins".toList ∉ columns) (hr : ∀ r ∈ rows, r.2.2.lookup "n_bins".toList = none)
    (h : forCase defs columns rows sel case sub = .ok c) (fmt : Cell → Str) (root dir : Path) (pars : List Str)
    (given : Dict Str Opt) : triPlot fmt root dir pars given c = .error .keyError := by
  have hn : c.info.lookup kBins = none := by
    unfold forCase at h
    split at h
    · cases h
    rename_i fishers _
    obtain ⟨r, a, run, hq, _, _, rfl⟩ := forFishers_ok.1 h
    have hsel : sel.reverse.lookup kBins = none := by
      rw [PyDict.lookup_none_iff, List.map_reverse, List.mem_reverse]
      intro hm
      obtain ⟨q, hq', e⟩ := List.mem_map.1 hm
      unfold query at hq
      split at hq
      · cases hq
      split at hq
      · cases hq
      rename_i hbad
      exact hbad ⟨q, hq', Or.inl (by rw [e]; exact hc)⟩
    have hmem : r ∈ rows := by
      unfold query at hq
      split at hq
      · cases hq
      split at hq
      · cases hq
      rw [Except.ok.injEq] at hq
      have : r ∈ [r] := List.mem_singleton.2 rfl
      rw [← hq] at this
      exact (List.mem_filter.1 this).1
    show (newInfo run r.2.2 sel _).lookup kBins = none
    unfold newInfo
    rw [PyDict.lookup_update, PyDict.lookup_update, hsel, PyDict.lookup_set, PyDict.lookup_set,
      if_neg (by decide +kernel), if_neg (by decide +kernel)]
    have hd : List.lookup kBins (List.reverse [(kCase, Cell.str case), (kSub, Cell.str sub)]) = none := by
      rw [PyDict.lookup_none_iff]
      show kBins ∉ [kSub, kCase]
      decide +kernel
    rw [hd]
    exact hr r hmem
  unfold triPlot
  rw [hn]
  split
  · rename_i h4
    cases h4
  · rfl

/-- The file of the ranges is written whatever the options say, and does not depend on the parameters: a plot of others replaces
it. -/
theorem ranges_shared {fmt : Cell → Str} {root dir dir' : Path} {pars pars' : List Str} {given given' : Dict Str Opt}
    {c : Chosen F E} {ps ps' : List Path} (h : triPlot fmt root dir pars given c = .ok ps)
    (h' : triPlot fmt root dir' pars' given' c = .ok ps') : ∃ f rest rest', ps = f :: rest ∧ ps' = f :: rest' := by
  obtain ⟨s, ca, su, b, h1, h2, h3, h4, _, _, rfl⟩ := triPlot_ok.1 h
  obtain ⟨s', ca', su', b', h1', h2', h3', h4', _, _, rfl⟩ := triPlot_ok.1 h'
  rw [h1] at h1'; rw [h2] at h2'; rw [h3] at h3'; rw [h4] at h4'
  cases h1'; cases h2'; cases h3'; cases h4'
  exact ⟨_, _, _, rfl, rfl⟩

/-- Plots of two analyses with the same case, subcase and number of bins go to the same file, whatever else they differ in. -/
theorem plots_shared {fmt : Cell → Str} {root dir : Path} {pars : List Str} {given : Dict Str Opt} {c c' : Chosen F E}
    {f : Path} {ps ps' : List Path} (h : triPlot fmt root dir pars given c = .ok ps) (h' : triPlot fmt root dir pars given c' = .ok ps')
    (hk : ∀ k ∈ ["case".toList, "subcase".toList, "n_bins".toList], c.info.lookup k = c'.info.lookup k) (hf : f ∈ ps.tail) :
    f ∈ ps'.tail := by
  obtain ⟨s, ca, su, b, h1, h2, h3, h4, _, _, rfl⟩ := triPlot_ok.1 h
  obtain ⟨s', ca', su', b', h1', h2', h3', h4', _, _, rfl⟩ := triPlot_ok.1 h'
  rw [← hk kCase (by decide +kernel), h2] at h2'
  rw [← hk kSub (by decide +kernel), h3] at h3'
  rw [← hk kBins (by decide +kernel), h4] at h4'
  cases h2'; cases h3'; cases h4'
  exact hf

/-- The name of a plot tells case, subcase, number of bins and parameters, up to their order, if names have no underscore. -/
theorem plot_file_iff (dir : Path) (ca ca' su su' b b' : Str) (pars pars' : List Str) (hp : pars ≠ []) (hp' : pars' ≠ [])
    (h : ∀ n ∈ b :: pars, '_' ∉ n) (h' : ∀ n ∈ b' :: pars', '_' ∉ n) :
    plotFile dir ca su b pars = plotFile dir ca' su' b' pars' ↔ ca = ca' ∧ su = su' ∧ b = b' ∧ pars.Perm pars' := by
  have key : ∀ (l : List Str) (x : Str), l ≠ [] → (∀ n ∈ x :: l, '_' ∉ n) →
      splitChar '_' (joinStr ['_'] l ++ '_' :: x) = l ++ [x] := by
    intro l x hl hn
    have : joinStr ['_'] l ++ '_' :: x = joinStr ['_'] (l ++ [x]) := by
      clear hn
      induction l with
      | nil => exact absurd rfl hl
      | cons p l ih =>
        cases l with
        | nil => show p ++ '_' :: x = p ++ ['_'] ++ x; simp
        | cons q l =>
          show p ++ ['_'] ++ joinStr ['_'] (q :: l) ++ '_' :: x = p ++ ['_'] ++ joinStr ['_'] (q :: l ++ [x])
          rw [← ih (by simp)]
          simp
    rw [this]
    refine splitChar_join '_' _ (by simp) ?_
    intro n hm
    rcases List.mem_append.1 hm with hm | hm
    · exact hn n (List.mem_cons_of_mem _ hm)
    · exact hn n (List.mem_singleton.1 hm ▸ List.mem_cons_self)
  unfold plotFile
  constructor
  · intro e
    have e := List.append_cancel_left e
    obtain ⟨hca, e⟩ := List.cons.inj e
    obtain ⟨hsu, e⟩ := List.cons.inj e
    have e := (List.cons.inj e).1
    have e := List.append_cancel_right e
    rw [List.append_assoc, List.append_assoc] at e
    have e := List.append_cancel_left e
    have e := congrArg (splitChar '_') e
    have ne : ∀ l : List Str, l ≠ [] → l.insertionSort (· ≤ ·) ≠ [] := by
      intro l hl hc
      exact hl ((hc ▸ List.perm_insertionSort (· ≤ ·) l).nil_eq).symm
    rw [key _ _ (ne _ hp) (fun n hn => h n (by
        rcases List.mem_cons.1 hn with rfl | hn
        · exact List.mem_cons_self
        · exact List.mem_cons_of_mem _ ((List.perm_insertionSort _ _).mem_iff.1 hn))),
      key _ _ (ne _ hp') (fun n hn => h' n (by
        rcases List.mem_cons.1 hn with rfl | hn
        · exact List.mem_cons_self
        · exact List.mem_cons_of_mem _ ((List.perm_insertionSort _ _).mem_iff.1 hn)))] at e
    obtain ⟨e1, e2⟩ := List.append_inj' e rfl
    refine ⟨hca, hsu, (List.cons.inj e2).1, ?_⟩
    exact (List.perm_insertionSort (· ≤ ·) pars).symm.trans (e1 ▸ List.perm_insertionSort (· ≤ ·) pars')
  · rintro ⟨rfl, rfl, rfl, hperm⟩
    rw [List.Perm.eq_of_pairwise (le := (· ≤ ·)) (fun a b _ _ h1 h2 => List.le_antisymm h1 h2)
      (List.pairwise_insertionSort (· ≤ ·) pars) (List.pairwise_insertionSort (· ≤ ·) pars')
      ((List.perm_insertionSort _ _).trans (hperm.trans (List.perm_insertionSort _ _).symm))]

/-- An option that the plot knows has the value given, or else its default; others are dropped. -/
theorem options_iff (given : Dict Str Opt) (hn : (given.map (·.1)).Nodup) (k : Str) :
    (options given).lookup k = if k ∈ defaults.map (·.1) then (given.lookup k).or (defaults.lookup k) else none := by
  unfold options
  have hn' : ((given.filter fun p => p.1 ∈ defaults.map (·.1)).map (·.1)).Nodup := hn.sublist (List.filter_sublist.map _)
  rw [PyDict.lookup_update, PyDict.lookup_reverse _ hn']
  by_cases hk : k ∈ defaults.map (·.1)
  · rw [if_pos hk]
    congr 1
    clear hn hn'
    induction given with
    | nil => rfl
    | cons p l ih =>
      rw [List.filter_cons]
      by_cases hp : k = p.1
      · rw [if_pos (by rw [← hp]; exact decide_eq_true hk), List.lookup_cons, List.lookup_cons, hp]
        simp
      · have hb : (k == p.1) = false := beq_false_of_ne hp
        split
        · rw [List.lookup_cons, List.lookup_cons, hb]
          exact ih
        · rw [List.lookup_cons, hb]
          exact ih
  · rw [if_neg hk, (PyDict.lookup_none_iff _ _).2 hk, (PyDict.lookup_none_iff _ _).2]
    · rfl
    · intro hm
      obtain ⟨q, hq, rfl⟩ := List.mem_map.1 hm
      exact hk (of_decide_eq_true (List.mem_filter.1 hq).2)

/-- A plot which is made writes its ranges to the file named after scenario, case, subcase and number of bins, and itself to a file
named after case, subcase, parameters and number of bins, unless `save` is given as something false. -/
theorem files_written {fmt : Cell → Str} {root dir : Path} {pars : List Str} {given : Dict Str Opt}
    (hn : (given.map (·.1)).Nodup) {c : Chosen F E} {scenario case sub bins : Cell}
    (h1 : c.info.lookup "scenario".toList = some scenario) (h2 : c.info.lookup "case".toList = some case)
    (h3 : c.info.lookup "subcase".toList = some sub) (h4 : c.info.lookup "n_bins".toList = some bins) {ps : List Path}
    (h : triPlot fmt root dir pars given c = .ok ps) :
    ps.head? = some (root ++ ["configs".toList, "ranges".toList, fmt scenario,
      fmt case ++ "_".toList ++ fmt sub ++ "_".toList ++ fmt bins ++ "_bins_ranges.json".toList]) ∧
    ((∀ v, given.lookup "save".toList = some v → v.truth = true) → ps.tail = [plotFile dir (fmt case) (fmt sub) (fmt bins) pars]) ∧
    (∀ v, given.lookup "save".toList = some v → v.truth = false → ps.tail = []) := by
  obtain ⟨s, ca, su, b, g1, g2, g3, g4, _, _, rfl⟩ := triPlot_ok.1 h
  have g1 := g1.symm.trans h1
  have g2 := g2.symm.trans h2
  have g3 := g3.symm.trans h3
  have g4 := g4.symm.trans h4
  cases g1; cases g2; cases g3; cases g4
  have ho := options_iff given hn "save".toList
  rw [if_pos (by decide +kernel), show defaults.lookup "save".toList = some (.bool true) from rfl] at ho
  refine ⟨?_, ?_, ?_⟩
  · simp [rangesFile]
  · intro hv
    have : ((options given).lookup "save".toList).any Opt.truth = true := by
      rw [ho]
      cases e : given.lookup "save".toList with
      | none => rfl
      | some v => exact hv v e
    rw [this]
    rfl
  · intro v e hv
    have : ((options given).lookup "save".toList).any Opt.truth = false := by
      rw [ho, e]
      exact hv
    rw [this]
    rfl

/-- The file of ranges tells scenario, case, subcase and number of bins, if case and number have no underscore. -/
theorem ranges_file_iff (root : Path) (sc sc' ca ca' su su' b b' : Str) (hc : '_' ∉ ca) (hc' : '_' ∉ ca') (hb : '_' ∉ b)
    (hb' : '_' ∉ b') : rangesFile root sc ca su b = rangesFile root sc' ca' su' b' ↔ sc = sc' ∧ ca = ca' ∧ su = su' ∧ b = b' := by
  constructor
  · intro e
    unfold rangesFile at e
    have e := List.append_cancel_left e
    have e := (List.cons.inj (List.cons.inj e).2).2
    obtain ⟨hsc, e⟩ := List.cons.inj e
    have e := List.append_cancel_right (List.cons.inj e).1
    rw [List.append_assoc, List.append_assoc, List.cons_append, List.cons_append] at e
    have f := congrArg (splitChar '_') e
    rw [splitChar_append _ _ _ hc, splitChar_append _ _ _ hc'] at f
    have hca := (List.cons.inj f).1
    rw [hca] at e
    have e := (List.cons.inj (List.append_cancel_left e)).2
    have r := congrArg List.reverse e
    simp only [List.reverse_append, List.reverse_cons, List.append_assoc, List.singleton_append] at r
    have f := congrArg (splitChar '_') r
    rw [splitChar_append _ _ _ (by rwa [List.mem_reverse]), splitChar_append _ _ _ (by rwa [List.mem_reverse])] at f
    have hbb := List.reverse_injective (List.cons.inj f).1
    rw [hbb] at e
    exact ⟨hsc, hca, List.append_cancel_right e, hbb⟩
  · rintro ⟨rfl, rfl, rfl, rfl⟩
    rfl

/-- The analysis for a case has exactly the matrices that the file of definitions lists for it, and is labelled with it. -/
theorem case_matrices {defs : Dict Str (Dict Str (List Str))} {columns : List Str} {rows : List (ARow F E)} {sel : Dict Str Cell}
    {case sub : Str} {c : Chosen F E} (h : forCase defs columns rows sel case sub = .ok c) :
    (∃ d fishers, defs.lookup case = some d ∧ d.lookup sub = some fishers ∧ ∀ n, n ∈ c.an.fishers.map (·.1) ↔ n ∈ fishers) ∧
      c.info.lookup "case".toList = some (.str case) ∧ c.info.lookup "subcase".toList = some (.str sub) := by
  unfold forCase at h
  split at h
  · cases h
  rename_i fishers hd
  obtain ⟨d, h1, h2⟩ := Option.bind_eq_some_iff.1 hd
  obtain ⟨r, a, run, _, ha, _, rfl⟩ := forFishers_ok.1 h
  refine ⟨⟨d, fishers, h1, h2, (Collector.subset_analysis _ _ _ ha).2.2.2.2.2⟩, ?_, ?_⟩
  · show (newInfo run r.2.2 sel _).lookup kCase = _
    unfold newInfo
    rw [PyDict.lookup_update]
    rfl
  · show (newInfo run r.2.2 sel _).lookup kSub = _
    unfold newInfo
    rw [PyDict.lookup_update]
    rfl

/-- A list of colours is used only if it has enough for all matrices; a smooth map given as object stops the plot. -/
theorem colours_enough (k : Nat) (m : CMap) :
    (∀ n, colours k m = .ok (some (.listed n)) ↔ m = .listed n ∧ k ≤ n) ∧
    ((∃ e, colours k m = .error e) ↔ m = .smooth) := by
  constructor
  · intro n
    cases m with
    | listed j =>
      show (if j < k then _ else _) = _ ↔ _
      by_cases h : j < k
      · rw [if_pos h]
        refine ⟨nofun, ?_⟩
        rintro ⟨e, hk⟩
        cases e
        omega
      · rw [if_neg h]
        constructor
        · intro e; cases e; exact ⟨rfl, by omega⟩
        · rintro ⟨e, _⟩; cases e; rfl
    | smooth => exact ⟨nofun, nofun⟩
    | named b j => cases b <;> exact ⟨nofun, nofun⟩
    | none => exact ⟨nofun, nofun⟩
  · cases m with
    | listed j =>
      refine ⟨?_, nofun⟩
      rintro ⟨e, h⟩
      replace h : (if j < k then Except.ok (some CMap.smooth) else .ok (some (.listed j))) = Except.error e := h
      by_cases hj : j < k
      · rw [if_pos hj] at h; cases h
      · rw [if_neg hj] at h; cases h
    | smooth => exact ⟨fun _ => rfl, fun _ => ⟨_, rfl⟩⟩
    | named b j => cases b <;> exact ⟨fun ⟨_, h⟩ => (nomatch h), nofun⟩
    | none => exact ⟨fun ⟨_, h⟩ => (nomatch h), nofun⟩

/-! ### Names without spaces -/

/-- The choice for all numbers of bins succeeds exactly if each analysis has the matrices with the names without spaces. -/
theorem subset_all_iff (names : List Str) (l : Dict Nat (Analysis F E)) : (∃ r, subsetAll names l = .ok r) ↔
    ∀ p ∈ l, Complete p.2 (names.map removeSpaces) := by
  induction l with
  | nil => exact ⟨fun _ => nofun, fun _ => ⟨_, rfl⟩⟩
  | cons p l ih =>
    obtain ⟨n, a⟩ := p
    unfold subsetAll
    rw [List.forall_mem_cons, ← ih]
    have hs := Collector.subset_refused a (names.map removeSpaces)
    unfold Complete
    rw [← hs]
    cases e : subsetAnalysis a (names.map removeSpaces) with
    | error x => exact ⟨fun ⟨_, h⟩ => (nomatch h), fun ⟨⟨_, h⟩, _⟩ => (nomatch h)⟩
    | ok b =>
      dsimp only
      cases e' : subsetAll names l with
      | error x => exact ⟨fun ⟨_, h⟩ => (nomatch h), fun ⟨_, ⟨_, h⟩⟩ => (nomatch h)⟩
      | ok r => exact ⟨fun _ => ⟨⟨_, rfl⟩, ⟨_, rfl⟩⟩, fun _ => ⟨_, rfl⟩⟩

/-- A matrix with a space in its name, such as a sum, is never chosen. -/
theorem spaced_never (names : List Str) (l r : Dict Nat (Analysis F E)) (h : subsetAll names l = .ok r) :
    ∀ p ∈ r, ∀ q ∈ p.2.fishers, ∀ ch ∈ q.1, Batch.isSpace ch = false := by
  induction l generalizing r with
  | nil => cases h; nofun
  | cons p l ih =>
    obtain ⟨n, a⟩ := p
    unfold subsetAll at h
    split at h
    · cases h
    rename_i b hb
    split at h
    · cases h
    rename_i r' hr'
    cases h
    intro p hp q hq ch hch
    rcases List.mem_cons.1 hp with rfl | hp
    · obtain ⟨m, _, hm⟩ := List.mem_map.1 (((Collector.subset_analysis _ _ _ hb).1 q).1 hq).2
      rw [← hm] at hch
      have := (List.mem_filter.1 hch).2
      simpa using this
    · exact ih r' hr' p hp q hq ch hch

end Choice

/-! ### Bar plots -/

section Bars

variable {K E : Type} [Field K] [LinearOrder K] [IsStrictOrderedRing K]

omit [Field K] [IsStrictOrderedRing K] in
theorem foldl_max (l : List K) (a : K) : (l.foldl max a = a ∨ l.foldl max a ∈ l) ∧ a ≤ l.foldl max a ∧ ∀ x ∈ l, x ≤ l.foldl max a := by
  induction l generalizing a with
  | nil => exact ⟨Or.inl rfl, le_refl a, nofun⟩
  | cons x l ih =>
    obtain ⟨h1, h2, h3⟩ := ih (max a x)
    rw [List.foldl_cons]
    refine ⟨?_, le_trans (le_max_left a x) h2, ?_⟩
    · rcases h1 with h1 | h1
      · rcases max_choice a x with h | h
        · left; rw [h1, h]
        · right; rw [h1, h]; exact List.mem_cons_self
      · right; exact List.mem_cons_of_mem _ h1
    · intro y hy
      rcases List.mem_cons.1 hy with rfl | hy
      · exact le_trans (le_max_right a y) h2
      · exact h3 y hy

omit [IsStrictOrderedRing K] in
/-- The bars: for each matrix asked for with this number of bins the errors as they are, and the figure of merit relative to the
largest among them. The largest is 1. -/
theorem slice_iff (t : List (Str × Nat × K × E)) (fishers : List Str) (bins : Nat) (out : List (Str × K × E)) :
    slice t fishers bins = .ok out ↔
      ∃ best ∈ t, best.1 ∈ fishers ∧ best.2.1 = bins ∧ (∀ r ∈ t, r.1 ∈ fishers → r.2.1 = bins → r.2.2.1 ≤ best.2.2.1) ∧
        out = (t.filter fun r => r.1 ∈ fishers ∧ r.2.1 = bins).map fun r => (r.1, r.2.2.1 / best.2.2.1, r.2.2.2) := by
  have hm : ∀ r, r ∈ (t.filter fun r => r.1 ∈ fishers ∧ r.2.1 = bins) ↔ r ∈ t ∧ r.1 ∈ fishers ∧ r.2.1 = bins := fun r => by
    rw [List.mem_filter, decide_eq_true_eq]
  unfold slice
  dsimp only
  cases e : (t.filter fun r => r.1 ∈ fishers ∧ r.2.1 = bins) with
  | nil =>
    refine ⟨nofun, ?_⟩
    rintro ⟨best, h1, h2, h3, _⟩
    have := (hm best).2 ⟨h1, h2, h3⟩
    rw [e] at this
    cases this
  | cons r rs =>
    dsimp only
    obtain ⟨f1, f2, f3⟩ := foldl_max (rs.map (·.2.2.1)) r.2.2.1
    have hb : ∃ best ∈ r :: rs, best.2.2.1 = (rs.map (·.2.2.1)).foldl max r.2.2.1 := by
      rcases f1 with f1 | f1
      · exact ⟨r, List.mem_cons_self, f1.symm⟩
      · obtain ⟨b, hb, e⟩ := List.mem_map.1 f1
        exact ⟨b, List.mem_cons_of_mem _ hb, e⟩
    have hle : ∀ x ∈ r :: rs, x.2.2.1 ≤ (rs.map (·.2.2.1)).foldl max r.2.2.1 := by
      intro x hx
      rcases List.mem_cons.1 hx with rfl | hx
      · exact f2
      · exact f3 _ (List.mem_map.2 ⟨x, hx, rfl⟩)
    rw [← e] at hb hle
    constructor
    · intro h
      obtain ⟨best, hbm, hbe⟩ := hb
      obtain ⟨g1, g2, g3⟩ := (hm best).1 hbm
      refine ⟨best, g1, g2, g3, fun x hx h1 h2 => hbe ▸ hle x ((hm x).2 ⟨hx, h1, h2⟩), ?_⟩
      rw [hbe]
      exact (Except.ok.inj h).symm
    · rintro ⟨best, g1, g2, g3, g4, rfl⟩
      have : best.2.2.1 = (rs.map (·.2.2.1)).foldl max r.2.2.1 := by
        apply le_antisymm
        · exact hle best ((hm best).2 ⟨g1, g2, g3⟩)
        · obtain ⟨b, hbm, hbe⟩ := hb
          obtain ⟨k1, k2, k3⟩ := (hm b).1 hbm
          exact hbe ▸ g4 b k1 k2 k3
      rw [this]

/-- All bars of the figure of merit are at most 1, and one is 1. -/
theorem slice_bounds (t : List (Str × Nat × K × E)) (fishers : List Str) (bins : Nat) (out : List (Str × K × E))
    (hpos : ∀ r ∈ t, 0 < r.2.2.1) (h : slice t fishers bins = .ok out) : (∀ r ∈ out, r.2.1 ≤ 1) ∧ ∃ r ∈ out, r.2.1 = 1 := by
  obtain ⟨best, h1, h2, h3, h4, rfl⟩ := (slice_iff t fishers bins out).1 h
  have hb := hpos best h1
  constructor
  · intro r hr
    obtain ⟨x, hx, rfl⟩ := List.mem_map.1 hr
    rw [List.mem_filter, decide_eq_true_eq] at hx
    exact (div_le_one hb).2 (h4 x hx.1 hx.2.1 hx.2.2)
  · refine ⟨_, List.mem_map.2 ⟨best, List.mem_filter.2 ⟨h1, decide_eq_true ⟨h2, h3⟩⟩, rfl⟩, ?_⟩
    exact div_self (ne_of_gt hb)

/-- A pair of panels has one legend if it is asked for, unless both show the same number of bins: then two. -/
theorem pair_legends (n1 n2 : Nat) (legend : Bool) : ((pairLegends n1 n2 legend).map (·.1) = [n1, n2]) ∧
    ((pairLegends n1 n2 legend).filter (·.2)).length = if legend then (if n1 = n2 then 2 else 1) else 0 := by
  refine ⟨rfl, ?_⟩
  unfold pairLegends
  cases legend with
  | false => simp
  | true =>
    by_cases h : n1 = n2
    · subst h; simp
    · have h' : ¬ n2 = n1 := fun e => h e.symm
      simp [h, h']

/-- The grid has one legend, on the panel of 12 bins. -/
theorem grid_legend : gridLegends.map (·.1) = [4, 12, 24, 40] ∧ gridLegends.filter (·.2) = [(12, true)] := by decide

end Bars

/-! ### Examples -/

def exAn : Analysis Nat Nat :=
  ⟨[("[WL]".toList, 1), ("[WL] + [GCsp]".toList, 2)], [("[WL]".toList, 3), ("[WL] + [GCsp]".toList, 4)],
   [("[WL]".toList, 5), ("[WL] + [GCsp]".toList, 6)]⟩

/-- A table as `MakeContourPlots.py` expects it: the scenario of the first run is `optimistic`, its id begins with `run`. -/
def exTable : List (ARow Nat Nat) :=
  [([("run_id".toList, .str "run_1".toList), ("n_bins".toList, .num 4)], exAn, [("scenario".toList, .str "optimistic".toList)]),
   ([("run_id".toList, .str "opt_2".toList), ("n_bins".toList, .num 12)], exAn, [])]

def exColumns : List Str := ["run_id".toList, "n_bins".toList]

def exDefs : Dict Str (Dict Str (List Str)) := [("wlsp".toList, [("cl".toList, ["[WL] + [GCsp]".toList])])]

/-- The choice for four bins: its scenario becomes `run`. -/
example : ((forCase exDefs exColumns exTable [("n_bins".toList, .num 4)] "wlsp".toList "cl".toList).toOption.map
    fun c => (c.name, c.an.fishers, c.info.lookup "scenario".toList)) =
    some ("run_1".toList, [("[WL] + [GCsp]".toList, 2)], some (.str "run".toList)) := by decide +kernel

def exFmt : Cell → Str
  | .str s => s
  | .num q => if q = 4 then "4".toList else "12".toList
  | .bool _ => []

/-- Its files, with the writing of ranges switched off. -/
example : ((forCase exDefs exColumns exTable [("n_bins".toList, .num 4)] "wlsp".toList "cl".toList).toOption.bind
    fun c => (triPlot exFmt [] [] ["wa".toList, "w0".toList] [("write_ranges".toList, .bool false)] c).toOption) =
    some [["configs".toList, "ranges".toList, "run".toList, "wlsp_cl_4_bins_ranges.json".toList],
      ["wlsp".toList, "cl".toList, "contour_w0_wa_4_bins.pdf".toList]] := by decide +kernel

/-- Two rows fit: refused. -/
example : ((forFishers ["run_id".toList, "a".toList] [([("run_id".toList, .str []), ("a".toList, .num 1)], exAn, []),
    ([("run_id".toList, .str []), ("a".toList, .bool true)], exAn, [])] [("a".toList, .num 1)] ["[WL]".toList] []).toOption.isSome) =
    false := by decide +kernel

/-- Chosen by its name the sum is refused, the single matrix is not. -/
example : (subsetAll ["[WL] + [GCsp]".toList] [(4, exAn)]).toOption.isSome = false ∧
    (subsetAll [" [WL]".toList] [(4, exAn)]).toOption.isSome = true := by decide +kernel

example : (slice [("a".toList, 4, (30 : ℚ), ()), ("b".toList, 4, 40, ()), ("c".toList, 4, 90, ()), ("a".toList, 12, 50, ())]
    ["a".toList, "b".toList] 4).toOption = some [("a".toList, 3 / 4, ()), ("b".toList, 1, ())] := by decide +kernel

/-! ### The theorems on these tables -/

theorem exChosen : ∃ c, forCase exDefs exColumns exTable [("n_bins".toList, .num 4)] "wlsp".toList "cl".toList = .ok c := by
  match h : forCase exDefs exColumns exTable [("n_bins".toList, .num 4)] "wlsp".toList "cl".toList with
  | .ok c => exact ⟨c, rfl⟩
  | .error e =>
    have : (forCase exDefs exColumns exTable [("n_bins".toList, .num 4)] "wlsp".toList "cl".toList).toOption.isSome = true := by
      decide +kernel
    rw [h] at this
    cases this

theorem exNumbers : ∀ q ∈ [("n_bins".toList, Cell.num 4)], ∀ s, q.2 ≠ .str s := by
  intro q hq s
  rcases List.mem_singleton.mp hq with rfl
  nofun

/-- The selection by the number of bins finds one row. -/
example (r : ARow Nat Nat) (h : query exColumns exTable [("n_bins".toList, .num 4)] = .ok [r]) :
    OnlyRow exTable [("n_bins".toList, .num 4)] r := ((query_one exNumbers r).mp h).2.2

example (c : Chosen Nat Nat) (h : forFishers exColumns exTable [("n_bins".toList, .num 4)] ["[WL]".toList] [] = .ok c) :
    ∃ r, OnlyRow exTable [("n_bins".toList, .num 4)] r ∧ ∀ q, q ∈ c.an.fishers ↔ q ∈ r.2.1.fishers ∧ q.1 ∈ ["[WL]".toList] := by
  obtain ⟨r, p, h1, -, -, h2, -⟩ := chosen (add := []) exNumbers (by decide +kernel) (by decide +kernel) h
  exact ⟨r, h1, h2⟩

example : ∃ r run, OnlyRow exTable [("n_bins".toList, .num 4)] r ∧ Complete r.2.1 ["[WL]".toList] ∧
    r.1.lookup "run_id".toList = some (.str run) := by
  refine ((chosen_iff (columns := exColumns) (add := []) exNumbers).mp ?_).2.2
  match h : forFishers exColumns exTable [("n_bins".toList, .num 4)] ["[WL]".toList] [] with
  | .ok c => exact ⟨c, rfl⟩
  | .error e =>
    have : (forFishers exColumns exTable [("n_bins".toList, .num 4)] ["[WL]".toList] []).toOption.isSome = true := by
      decide +kernel
    rw [h] at this
    cases this

example : ∃ c : Chosen Nat Nat, (∀ n, n ∈ c.an.fishers.map (·.1) ↔ n ∈ ["[WL] + [GCsp]".toList]) ∧
    c.info.lookup "case".toList = some (.str "wlsp".toList) := by
  obtain ⟨c, h⟩ := exChosen
  obtain ⟨⟨d, fs, h1, h2, h3⟩, h4, -⟩ := case_matrices h
  have e1 : exDefs.lookup "wlsp".toList = some [("cl".toList, ["[WL] + [GCsp]".toList])] := by decide +kernel
  rw [e1] at h1
  cases h1
  have e2 : List.lookup "cl".toList [("cl".toList, ["[WL] + [GCsp]".toList])] = some ["[WL] + [GCsp]".toList] := by
    decide +kernel
  rw [e2] at h2
  cases h2
  exact ⟨c, h3, h4⟩

/-- Files of the same parameters in another order are the same, of other parameters they are not. -/
example : plotFile [] "wlsp".toList "cl".toList "4".toList ["wa".toList, "w0".toList] =
    plotFile [] "wlsp".toList "cl".toList "4".toList ["w0".toList, "wa".toList] :=
  (plot_file_iff [] "wlsp".toList "wlsp".toList "cl".toList "cl".toList "4".toList "4".toList ["wa".toList, "w0".toList]
    ["w0".toList, "wa".toList] nofun nofun (by decide +kernel) (by decide +kernel)).mpr
    ⟨rfl, rfl, rfl, List.Perm.swap _ _ _⟩

example : rangesFile [] "run".toList "wlsp".toList "cl".toList "4".toList ≠
    rangesFile [] "run".toList "wlsp".toList "cl".toList "12".toList := fun h =>
  absurd ((ranges_file_iff [] _ _ _ _ _ _ _ _ (by decide +kernel) (by decide +kernel) (by decide +kernel)
    (by decide +kernel)).mp h).2.2.2 (by decide +kernel)

example : (options [("save".toList, .bool false)]).lookup "save".toList = some (.bool false) := by
  rw [options_iff _ (by decide +kernel)]
  decide +kernel

example (out : List (Str × ℚ × Unit)) (h : slice [("a".toList, 4, (30 : ℚ), ()), ("b".toList, 4, 40, ())]
    ["a".toList, "b".toList] 4 = .ok out) : ∀ r ∈ out, r.2.1 ≤ 1 :=
  (slice_bounds _ _ _ out (by
    intro r hr
    simp only [List.mem_cons, List.not_mem_nil, or_false] at hr
    rcases hr with rfl | rfl <;> norm_num) h).1

end Seyfert.Contour
