import Verif.Spec.Tables
import Verif.Lemmas.PyDict
import Mathlib.Tactic.Linarith
import Mathlib.Tactic.NormNum
import Mathlib.Data.Rat.Defs
import Mathlib.Algebra.Order.Ring.Rat

/-! C119: tables of results. -/

namespace Seyfert.Tables

open Collector (Cell Same Matches pyEq pyEq_iff)

/-! ### Selection -/

/-- The query has the given values for known options, the defaults for the others, and nothing for excluded
and unknown ones. -/
theorem query_dict_spec (exclude : List Str) (kw : Dict Str Cell) (hn : (kw.map Prod.fst).Nodup) (k : Str) :
    (queryDict exclude kw).lookup k =
      if k ∈ exclude ∨ k ∉ defaults.map Prod.fst then none
      else match kw.lookup k with
        | some v => some v
        | none => defaults.lookup k := by
  have hfil : ∀ (d : Dict Str Cell) (p : Str → Bool),
      (d.filter (fun x => p x.1)).lookup k = if p k then d.lookup k else none := by
    intro d p
    induction d with
    | nil => simp
    | cons x d ih =>
      rw [List.filter_cons]
      by_cases hx : k = x.1
      · subst hx
        by_cases hp : p x.1 = true
        · simp [hp, List.lookup]
        · simp only [hp, if_false, Bool.false_eq_true] at ih ⊢
          exact ih
      · have hb : (k == x.1) = false := by simpa using hx
        by_cases hp : p x.1 = true
        · simp only [hp, if_true, List.lookup, hb]
          exact ih
        · simp only [hp, if_false, Bool.false_eq_true, List.lookup, hb]
          exact ih
  unfold queryDict
  rw [hfil _ (fun x => decide (x ∉ exclude)), PyDict.lookup_update]
  have hnf : ((kw.filter (fun p => decide (p.1 ∈ defaults.map Prod.fst))).map Prod.fst).Nodup :=
    hn.sublist (List.filter_sublist.map _)
  rw [PyDict.lookup_reverse _ hnf, hfil _ (fun x => decide (x ∈ defaults.map Prod.fst))]
  by_cases hex : k ∈ exclude
  · simp only [hex, not_true, decide_false, Bool.false_eq_true, if_false, true_or, if_true]
  · by_cases hd : k ∈ defaults.map Prod.fst
    · simp only [hex, hd, not_false_iff, decide_true, if_true, not_true, or_self, if_false]
      cases kw.lookup k <;> rfl
    · have h0 : defaults.lookup k = none := (PyDict.lookup_none_iff _ _).2 hd
      simp only [hex, hd, not_false_iff, decide_true, decide_false, Bool.false_eq_true, if_true, if_false, or_true, h0, Option.none_or]

/-- Options that are not known are ignored without a word. -/
theorem query_unknown_ignored (exclude : List Str) (kw : Dict Str Cell) (k : Str) (v : Cell)
    (hk : k ∉ defaults.map Prod.fst) : queryDict exclude ((k, v) :: kw) = queryDict exclude kw := by
  unfold queryDict
  rw [List.filter_cons, if_neg (by simpa using hk)]

theorem filter_lookup (d : Dict Str Cell) (keep : List Str) (c : Str) (hc : c ∈ keep) :
    (d.filter (fun p => decide (p.1 ∈ keep))).lookup c = d.lookup c := by
  induction d with
  | nil => rfl
  | cons x d ih =>
    rw [List.filter_cons]
    by_cases hx : c = x.1
    · subst hx
      rw [if_pos (by simpa using hc)]
      simp [List.lookup]
    · have hb : (c == x.1) = false := by simpa using hx
      split
      · simp only [List.lookup, hb, ih]
      · simp only [List.lookup, hb, ih]

theorem cellEq_iff (a b : Option Cell) : cellEq a b = true ↔ ∃ x y, a = some x ∧ b = some y ∧ Same x y := by
  cases a <;> cases b <;> simp [cellEq, pyEq_iff]

theorem agrees_iff (q r : Dict Str Cell) : agrees q r = true ↔ Answers q r := by
  unfold agrees Answers
  rw [List.all_eq_true]
  refine forall₂_congr fun p _ => ?_
  rw [cellEq_iff]
  unfold Matches
  constructor
  · rintro ⟨x, y, h1, h2, h3⟩
    cases h2
    exact ⟨x, h1, h3⟩
  · rintro ⟨x, h1, h3⟩
    exact ⟨x, _, h1, rfl, h3⟩

theorem same_symm {a b : Cell} (h : Same a b) : Same b a := by
  rcases h with ⟨x, h1, h2⟩ | ⟨s, h1, h2⟩
  · exact Or.inl ⟨x, h2, h1⟩
  · exact Or.inr ⟨s, h2, h1⟩

theorem same_trans {a b c : Cell} (h : Same a b) (h' : Same b c) : Same a c := by
  rcases h with ⟨x, h1, h2⟩ | ⟨s, h1, h2⟩
  · rcases h' with ⟨y, h3, h4⟩ | ⟨s, h3, h4⟩
    · rw [h2] at h3
      cases h3
      exact Or.inl ⟨_, h1, h4⟩
    · subst h3
      cases h2
  · rcases h' with ⟨y, h3, h4⟩ | ⟨s', h3, h4⟩
    · subst h2
      cases h3
    · subst h2
      cases h3
      exact Or.inr ⟨_, h1, h4⟩

theorem same_refl (a : Cell) : Same a a := by
  cases a with
  | num x => exact Or.inl ⟨x, rfl, rfl⟩
  | bool b => exact Or.inl ⟨if b then 1 else 0, by cases b <;> rfl, by cases b <;> rfl⟩
  | str s => exact Or.inr ⟨s, rfl, rfl⟩

theorem dropConstant_spec (t : Table) (hw : t.WF) :
    (dropConstant t).cols.Sublist t.cols ∧
      List.Forall₂ (Shows (dropConstant t).cols) t.rows (dropConstant t).rows ∧
      (∀ c ∈ t.cols, c ∉ (dropConstant t).cols → Constant t.rows c) ∧
      (t.rows ≠ [] → ∀ c ∈ (dropConstant t).cols, ¬ Constant t.rows c) := by
  obtain ⟨cols, rows⟩ := t
  cases rows with
  | nil => exact ⟨List.Sublist.refl _, List.Forall₂.nil, fun c hc h => absurd hc h, fun h => absurd rfl h⟩
  | cons r rows =>
    obtain ⟨hnd, hcells⟩ := hw
    set keep := cols.filter (fun c => (r :: rows).any (fun x => !cellEq (x.lookup c) (r.lookup c))) with hkeep
    have hd : dropConstant ⟨cols, r :: rows⟩ =
        ⟨keep, (r :: rows).map (fun x => x.filter (fun p => decide (p.1 ∈ keep)))⟩ := rfl
    have hsome : ∀ x ∈ r :: rows, ∀ c ∈ cols, ∃ a, x.lookup c = some a := by
      intro x hx c hc
      have : c ∈ x.map Prod.fst := by
        have := hcells x hx
        simp only at this
        rw [this]; exact hc
      exact Option.isSome_iff_exists.1 ((PyDict.lookup_isSome_iff x c).2 this)
    have hkc : ∀ c, c ∈ keep ↔ c ∈ cols ∧ ∃ x ∈ r :: rows, cellEq (x.lookup c) (r.lookup c) = false := by
      intro c
      rw [hkeep, List.mem_filter, List.any_eq_true]
      simp
    rw [hd]
    refine ⟨List.filter_sublist, ?_, ?_, ?_⟩
    · rw [List.forall₂_map_right_iff, List.forall₂_same]
      intro x hx
      refine ⟨?_, fun c hc => filter_lookup x keep c hc⟩
      have hx' : x.map Prod.fst = cols := hcells x hx
      have h1 : (x.filter (fun p => decide (p.1 ∈ keep))).map Prod.fst =
          (x.map Prod.fst).filter (fun c => decide (c ∈ keep)) := by
        rw [List.filter_map]; rfl
      rw [h1, hx']
      show cols.filter (fun c => decide (c ∈ keep)) = keep
      conv_rhs => rw [hkeep]
      apply List.filter_congr
      intro c hc
      have := hkc c
      rw [Bool.eq_iff_iff, decide_eq_true_iff, this, List.any_eq_true]
      simp [hc]
    · intro c hc hn x hx y hy
      have hall : ∀ z ∈ r :: rows, cellEq (z.lookup c) (r.lookup c) = true := by
        intro z hz
        by_contra hne
        exact hn ((hkc c).2 ⟨hc, z, hz, by simpa using hne⟩)
      obtain ⟨a, b, h1, h2, h3⟩ := (cellEq_iff _ _).1 (hall x hx)
      obtain ⟨a', b', h1', h2', h3'⟩ := (cellEq_iff _ _).1 (hall y hy)
      rw [h2] at h2'
      cases h2'
      exact ⟨a, a', h1, h1', same_trans h3 (same_symm h3')⟩
    · intro _ c hc hconst
      obtain ⟨_, x, hx, hne⟩ := (hkc c).1 hc
      obtain ⟨a, b, h1, h2, h3⟩ := hconst x hx r (List.mem_cons_self)
      have : cellEq (x.lookup c) (r.lookup c) = true := (cellEq_iff _ _).2 ⟨a, b, h1, h2, h3⟩
      rw [this] at hne
      cases hne

open Classical in
/-- Selecting gives exactly the rows that answer the query, in order and with their cells; a column that is
left out has the same value in all of them, and none is left out unless this was asked for. -/
theorem select_spec (t t' : Table) (q : Dict Str Cell) (rc : Bool) (hw : t.WF)
    (h : select t q rc = .ok t') :
    t'.cols.Sublist t.cols ∧
      List.Forall₂ (Shows t'.cols) (t.rows.filter (fun r => decide (Answers q r))) t'.rows ∧
      (∀ c ∈ t.cols, c ∉ t'.cols →
        rc = true ∧ Constant (t.rows.filter (fun r => decide (Answers q r))) c) := by
  have hfe : t.rows.filter (fun r => decide (Answers q r)) = t.rows.filter (agrees q) := by
    apply List.filter_congr
    intro r _
    rw [Bool.eq_iff_iff, agrees_iff]
    simp
  rw [hfe]
  unfold select at h
  split at h
  · cases h
  · split at h
    · cases h
    · simp only [Except.ok.injEq] at h
      set rows := t.rows.filter (agrees q) with hrows
      have hsub : rows.Sublist t.rows := List.filter_sublist
      have hw' : Table.WF ⟨t.cols, rows⟩ := ⟨hw.1, fun r hr => hw.2 r (hsub.subset hr)⟩
      have hid : ∀ r ∈ rows, Shows t.cols r r := fun r hr => ⟨hw.2 r (hsub.subset hr), fun _ _ => rfl⟩
      by_cases hc : (rc && decide (1 < rows.length)) = true
      · rw [if_pos hc] at h
        subst h
        obtain ⟨h1, h2, h3, _⟩ := dropConstant_spec _ hw'
        exact ⟨h1, h2, fun c hcm hn => ⟨by simp only [Bool.and_eq_true] at hc; exact hc.1, h3 c hcm hn⟩⟩
      · rw [if_neg hc] at h
        subst h
        exact ⟨List.Sublist.refl _, List.forall₂_same.2 hid, fun c hcm hn => absurd hcm hn⟩

/-- A query is refused exactly if it is empty or asks for a column that is not there. -/
theorem select_refused (t : Table) (q : Dict Str Cell) (rc : Bool) :
    (∃ t', select t q rc = .ok t') ↔ q ≠ [] ∧ ∀ p ∈ q, p.1 ∈ t.cols := by
  unfold select
  by_cases h1 : ∃ p ∈ q, p.1 ∉ t.cols
  · rw [if_pos h1]
    constructor
    · rintro ⟨t', h⟩; cases h
    · rintro ⟨_, h⟩
      obtain ⟨p, hp, hn⟩ := h1
      exact absurd (h p hp) hn
  · rw [if_neg h1]
    have h1' : ∀ p ∈ q, p.1 ∈ t.cols := fun p hp => by
      by_contra hn; exact h1 ⟨p, hp, hn⟩
    by_cases h2 : q = []
    · rw [if_pos h2]
      constructor
      · rintro ⟨t', h⟩; cases h
      · rintro ⟨h, _⟩; exact absurd h2 h
    · rw [if_neg h2]
      exact ⟨fun _ => ⟨h2, h1'⟩, fun _ => ⟨_, rfl⟩⟩

/-- With more than one row found, the columns of the query are gone from the result, and with one row they
are still there. -/
theorem select_columns (t t' : Table) (q : Dict Str Cell) (hw : t.WF) (h : select t q true = .ok t') :
    (1 < t'.rows.length → ∀ p ∈ q, p.1 ∉ t'.cols) ∧ (t'.rows.length ≤ 1 → t'.cols = t.cols) := by
  unfold select at h
  split at h
  · cases h
  · rename_i h1
    split at h
    · cases h
    · simp only [Except.ok.injEq, Bool.true_and] at h
      set rows := t.rows.filter (agrees q) with hrows
      have hsub : rows.Sublist t.rows := List.filter_sublist
      have hw' : Table.WF ⟨t.cols, rows⟩ := ⟨hw.1, fun r hr => hw.2 r (hsub.subset hr)⟩
      by_cases hc : 1 < rows.length
      · rw [if_pos (by simpa using hc)] at h
        subst h
        obtain ⟨g1, g2, g3, g4⟩ := dropConstant_spec _ hw'
        have hlen : (dropConstant ⟨t.cols, rows⟩).rows.length = rows.length := g2.length_eq.symm
        refine ⟨fun _ p hp hin => ?_, fun hl => absurd hl (by omega)⟩
        have hne : rows ≠ [] := by intro h0; rw [h0] at hc; simp at hc
        refine g4 hne p.1 hin ?_
        intro x hx y hy
        obtain ⟨a, ha, hs⟩ := (agrees_iff q x).1 (List.mem_filter.1 hx).2 p hp
        obtain ⟨b, hb, hs'⟩ := (agrees_iff q y).1 (List.mem_filter.1 hy).2 p hp
        exact ⟨a, b, ha, hb, same_trans hs (same_symm hs')⟩
      · rw [if_neg (by simpa using hc)] at h
        subst h
        exact ⟨fun hl => absurd hl hc, fun _ => rfl⟩

/-- Two scenarios and two numbers of bins. -/
def exTable : Table :=
  ⟨["scenario".toList, "bins".toList, "FoM".toList],
    [[("scenario".toList, .str "optimistic".toList), ("bins".toList, .num 4), ("FoM".toList, .num 10)],
     [("scenario".toList, .str "optimistic".toList), ("bins".toList, .num 12), ("FoM".toList, .num 20)],
     [("scenario".toList, .str "pessimistic".toList), ("bins".toList, .num 4), ("FoM".toList, .num 5)]]⟩

example : exTable.WF := by
  refine ⟨by decide +kernel, fun r hr => ?_⟩
  simp only [exTable, List.mem_cons, List.not_mem_nil, or_false] at hr
  rcases hr with rfl | rfl | rfl <;> rfl

/-- The optimistic rows, without the scenario. -/
example : ∃ t', select exTable [("scenario".toList, .str "optimistic".toList)] true = .ok t' ∧
    t'.cols = ["bins".toList, "FoM".toList] ∧
    t'.rows = [[("bins".toList, .num 4), ("FoM".toList, .num 10)],
      [("bins".toList, .num 12), ("FoM".toList, .num 20)]] :=
  ⟨_, rfl, by decide +kernel, by decide +kernel⟩

/-! ### Differences -/

section Differences

variable {I K : Type} [LinearOrder I] [Field K]

theorem unique_mem {cols : List Str} {t : List (Row I K)} (hi : Indexed cols t) {r r' : Row I K} (hr : r ∈ t)
    (hr' : r' ∈ t) (h1 : r.fisher = r'.fisher) (h2 : r.idx = r'.idx) : r = r' := by
  by_contra hne
  have hs : Std.Symm (fun r r' : Row I K => ¬ (r.fisher = r'.fisher ∧ r.idx = r'.idx)) :=
    ⟨fun a b h ⟨x, y⟩ => h ⟨x.symm, y.symm⟩⟩
  exact hi.unique.forall hr hr' hne ⟨h1, h2⟩

theorem cellAt_mem {t : List (Row I K)}
    (hu : ∀ r ∈ t, ∀ r' ∈ t, r.fisher = r'.fisher → r.idx = r'.idx → r = r') {r : Row I K} (hr : r ∈ t) (c : Str) :
    cellAt t r.fisher r.idx c = r.vals.lookup c := by
  unfold cellAt
  cases hf : t.find? (fun x => decide (x.fisher = r.fisher ∧ x.idx = r.idx)) with
  | none =>
    have := List.find?_eq_none.1 hf r hr
    simp at this
  | some x =>
    have hx := List.mem_of_find?_eq_some hf
    have hp := List.find?_some hf
    simp only [decide_eq_true_eq] at hp
    rw [hu x hx r hr hp.1 hp.2]
    rfl

theorem cellAt_some {t : List (Row I K)} {n : Str} {i : I} {c : Str} {x : K} (h : cellAt t n i c = some x) :
    ∃ r ∈ t, r.fisher = n ∧ r.idx = i ∧ r.vals.lookup c = some x := by
  unfold cellAt at h
  cases hf : t.find? (fun x => decide (x.fisher = n ∧ x.idx = i)) with
  | none => rw [hf] at h; cases h
  | some r =>
    rw [hf] at h
    have hp := List.find?_some hf
    simp only [decide_eq_true_eq] at hp
    exact ⟨r, List.mem_of_find?_eq_some hf, hp.1, hp.2, h⟩

theorem diffAt_iff (op : K → K → K) {t : List (Row I K)}
    (hu : ∀ r ∈ t, ∀ r' ∈ t, r.fisher = r'.fisher → r.idx = r'.idx → r = r') {r : Row I K} (hr : r ∈ t) (ref : Str)
    (c : Str) (d : K) : diffAt op t r.fisher ref r.idx c = some d ↔
      ∃ s a b, s ∈ t ∧ s.fisher = ref ∧ s.idx = r.idx ∧ r.vals.lookup c = some a ∧ s.vals.lookup c = some b ∧
        d = op a b := by
  unfold diffAt
  rw [cellAt_mem hu hr]
  constructor
  · intro h
    cases h1 : r.vals.lookup c with
    | none => rw [h1] at h; cases h
    | some a =>
      rw [h1] at h
      cases h2 : cellAt t ref r.idx c with
      | none => rw [h2] at h; cases h
      | some b =>
        rw [h2] at h
        simp only [Option.some.injEq] at h
        obtain ⟨s, hs, h3, h4, h5⟩ := cellAt_some h2
        exact ⟨s, a, b, hs, h3, h4, rfl, h5, h.symm⟩
  · rintro ⟨s, a, b, hs, h3, h4, h1, h5, hd⟩
    have h2 : cellAt t ref r.idx c = some b := by
      rw [← h3, ← h4, cellAt_mem hu hs, h5]
    rw [h1, h2, hd]

instance before_total (names : List Str) : Std.Total (before names : Row I K → Row I K → Prop) :=
  ⟨fun a b => by
    unfold before
    rcases lt_trichotomy (names.idxOf a.fisher) (names.idxOf b.fisher) with h | h | h
    · exact Or.inl (Or.inl h)
    · rcases le_total a.idx b.idx with h' | h'
      · exact Or.inl (Or.inr ⟨h, h'⟩)
      · exact Or.inr (Or.inr ⟨h.symm, h'⟩)
    · exact Or.inr (Or.inl h)⟩

instance before_trans (names : List Str) : IsTrans (Row I K) (before names) :=
  ⟨fun a b c h h' => by
    unfold before at *
    rcases h with h | ⟨h, g⟩ <;> rcases h' with h' | ⟨h', g'⟩
    · exact Or.inl (h.trans h')
    · exact Or.inl (h'.symm ▸ h)
    · exact Or.inl (h.symm ▸ h')
    · exact Or.inr ⟨h.trans h', g.trans g'⟩⟩

theorem named_before {names : List Str} {a b : Str} (ha : a ∈ names) (hb : b ∈ names)
    (h : names.idxOf a < names.idxOf b) : NamedBefore names a b := by
  induction names with
  | nil => cases ha
  | cons x l ih =>
    by_cases hxa : x = a
    · subst hxa
      have hxb : x ≠ b := by
        intro h0
        subst h0
        exact absurd h (lt_irrefl _)
      have hbl : b ∈ l := by
        rcases List.mem_cons.1 hb with h0 | h0
        · exact absurd h0.symm hxb
        · exact h0
      obtain ⟨l₂, l₃, hl⟩ := List.append_of_mem hbl
      exact ⟨[], l₂, l₃, by simp [hl]⟩
    · have hxb : x ≠ b := by
        intro h0
        subst h0
        rw [List.idxOf_cons_self] at h
        exact absurd h (Nat.not_lt_zero _)
      rw [List.idxOf_cons_ne _ hxa, List.idxOf_cons_ne _ hxb] at h
      have ha' : a ∈ l := (List.mem_cons.1 ha).resolve_left (fun h0 => hxa h0.symm)
      have hb' : b ∈ l := (List.mem_cons.1 hb).resolve_left (fun h0 => hxb h0.symm)
      obtain ⟨l₁, l₂, l₃, hl⟩ := ih ha' hb' (by omega)
      exact ⟨x :: l₁, l₂, l₃, by simp [hl]⟩

theorem outRow_delta (dfom : Dict Str Str) (t : List (Row I K)) (r : Row I K) :
    (outRow dfom t r).delta = match dfom.lookup r.fisher with
      | none => none
      | some ref => diffAt (fun a b => a - b) t r.fisher ref r.idx fom := by
  unfold outRow
  cases dfom.lookup r.fisher <;> rfl

theorem outRow_percent (dfom : Dict Str Str) (t : List (Row I K)) (r : Row I K) :
    (outRow dfom t r).percent = match dfom.lookup r.fisher with
      | none => none
      | some ref => diffAt (fun a b => 100 * (a - b) / b) t r.fisher ref r.idx fom := by
  unfold outRow
  cases dfom.lookup r.fisher <;> rfl

/-- The table of figures of merit has the rows of the named matrices, in the order of the names and then of
the further values.  The difference and the percentage are those to the reference for the same further
values, wherever there are both. -/
theorem fom_spec (names : List Str) (dfom : Dict Str Str) (cols : List Str) (t : List (Row I K))
    (out : List (OutRow I K)) (hi : Indexed cols t) (h : fomTable names dfom cols t = .ok out) :
    (out.map OutRow.row).Perm (t.filter (fun r => decide (r.fisher ∈ names))) ∧
      (out.map OutRow.row).Pairwise
        (fun a b => NamedBefore names a.fisher b.fisher ∨ a.fisher = b.fisher ∧ a.idx < b.idx) ∧
      (∀ o ∈ out, ∀ d, o.delta = some d ↔ ∃ a b, Compared dfom t o.row a b ∧ d = a - b) ∧
      (∀ o ∈ out, ∀ d, o.percent = some d ↔ ∃ a b, Compared dfom t o.row a b ∧ d = 100 * (a - b) / b) := by
  unfold fomTable at h
  cases hs : subFor names t with
  | error e => rw [hs] at h; cases h
  | ok s =>
    rw [hs] at h
    have hsub : s = t.filter (fun r => decide (r.fisher ∈ names)) := by
      unfold subFor at hs
      split at hs
      · cases hs
      · split at hs
        · cases hs
        · simpa using hs.symm
    simp only at h
    split at h
    · cases h
    rename_i hrefs
    split at h
    · cases h
    split at h
    · cases h
    simp only [Except.ok.injEq] at h
    set sub := s.insertionSort (before names) with hsubd
    have hperm : sub.Perm s := List.perm_insertionSort _ _
    have hmem : ∀ r, r ∈ sub ↔ r ∈ t ∧ r.fisher ∈ names := by
      intro r
      rw [hperm.mem_iff, hsub, List.mem_filter, decide_eq_true_iff]
    have hu : ∀ r ∈ sub, ∀ r' ∈ sub, r.fisher = r'.fisher → r.idx = r'.idx → r = r' :=
      fun r hr r' hr' => unique_mem hi ((hmem r).1 hr).1 ((hmem r').1 hr').1
    have hrow : out.map OutRow.row = sub := by
      rw [← h, List.map_map]
      conv_rhs => rw [← List.map_id sub]
      apply List.map_congr_left
      intro r _
      simp only [Function.comp, outRow, id]
      split <;> rfl
    have href : ∀ r ∈ sub, ∀ ref, dfom.lookup r.fisher = some ref → ref ∈ names := by
      intro r hr ref hl
      have h1 : ref ∈ refs dfom sub := List.mem_filterMap.2 ⟨r, hr, hl⟩
      have h2 : ref ∈ sub.map Row.fisher := by
        by_contra hn; exact hrefs ⟨ref, h1, hn⟩
      obtain ⟨x, hx, hxf⟩ := List.mem_map.1 h2
      exact hxf ▸ ((hmem x).1 hx).2
    have key : ∀ (op : K → K → K) (r : Row I K), r ∈ sub → ∀ d,
        (match dfom.lookup r.fisher with
          | none => none
          | some ref => diffAt op sub r.fisher ref r.idx fom) = some d ↔
        ∃ a b, Compared dfom t r a b ∧ d = op a b := by
      intro op r hr d
      cases hl : dfom.lookup r.fisher with
      | none =>
        constructor
        · intro h0; cases h0
        · rintro ⟨a, b, ⟨ref, x, hl', _⟩, _⟩
          rw [hl] at hl'; cases hl'
      | some ref =>
        simp only
        rw [diffAt_iff op hu hr]
        constructor
        · rintro ⟨x, a, b, hx, h1, h2, h3, h4, h5⟩
          exact ⟨a, b, ⟨ref, x, hl, ((hmem x).1 hx).1, h1, h2, h3, h4⟩, h5⟩
        · rintro ⟨a, b, ⟨ref', x, hl', hx, h1, h2, h3, h4⟩, h5⟩
          rw [hl] at hl'
          cases hl'
          exact ⟨x, a, b, (hmem x).2 ⟨hx, h1 ▸ href r hr _ hl⟩, h1, h2, h3, h4, h5⟩
    have hout : ∀ o ∈ out, o.row ∈ sub ∧ o = outRow dfom sub o.row := by
      intro o ho
      rw [← h] at ho
      obtain ⟨r, hr, rfl⟩ := List.mem_map.1 ho
      have : (outRow dfom sub r).row = r := by
        unfold outRow; split <;> rfl
      rw [this]
      exact ⟨hr, rfl⟩
    refine ⟨by rw [hrow, ← hsub]; exact hperm, ?_, ?_, ?_⟩
    · rw [hrow]
      have h1 : sub.Pairwise (before names) := List.pairwise_insertionSort _ _
      have h2 : sub.Pairwise (fun r r' => ¬ (r.fisher = r'.fisher ∧ r.idx = r'.idx)) := by
        refine (List.Perm.pairwise_iff ?_ hperm).2 (hsub ▸ hi.unique.sublist List.filter_sublist)
        intro a b hab hba
        exact hab ⟨hba.1.symm, hba.2.symm⟩
      refine (h1.and h2).imp_of_mem ?_
      intro a b ha hb hab
      have ha' := ((hmem a).1 ha).2
      have hb' := ((hmem b).1 hb).2
      rcases hab.1 with hlt | ⟨heq, hle⟩
      · exact Or.inl (named_before ha' hb' hlt)
      · have hf : a.fisher = b.fisher := (List.idxOf_inj ha').1 heq
        exact Or.inr ⟨hf, lt_of_le_of_ne hle (fun h0 => hab.2 ⟨hf, h0⟩)⟩
    · intro o ho d
      obtain ⟨h1, h2⟩ := hout o ho
      rw [← key (fun a b => a - b) o.row h1 d, ← outRow_delta, ← h2]
    · intro o ho d
      obtain ⟨h1, h2⟩ := hout o ho
      have := key (fun a b => 100 * (a - b) / b) o.row h1 d
      rw [← this, ← outRow_percent, ← h2]

/-- The table can be made exactly if every name is in it, no name is repeated, the reference of every named
matrix is named too, at least one of them has a reference, and there is a figure of merit. -/
theorem fom_iff (names : List Str) (dfom : Dict Str Str) (cols : List Str) (t : List (Row I K)) :
    (∃ out, fomTable names dfom cols t = .ok out) ↔
      (∀ n ∈ names, ∃ r ∈ t, r.fisher = n) ∧ names.Nodup ∧
      (∀ n ∈ names, ∀ ref, dfom.lookup n = some ref → ref ∈ names) ∧
      (∃ n ∈ names, ∃ ref, dfom.lookup n = some ref) ∧ "FoM".toList ∈ cols := by
  unfold fomTable subFor
  by_cases h1 : ∃ n ∈ names, n ∉ t.map Row.fisher
  · rw [if_pos h1]
    constructor
    · rintro ⟨_, h⟩; cases h
    · rintro ⟨h, _⟩
      obtain ⟨n, hn, hnot⟩ := h1
      obtain ⟨r, hr, hf⟩ := h n hn
      exact absurd (List.mem_map.2 ⟨r, hr, hf⟩) hnot
  rw [if_neg h1]
  have h1' : ∀ n ∈ names, ∃ r ∈ t, r.fisher = n := fun n hn => by
    by_contra hno
    refine h1 ⟨n, hn, fun hm => ?_⟩
    obtain ⟨r, hr, hf⟩ := List.mem_map.1 hm
    exact hno ⟨r, hr, hf⟩
  by_cases h2 : names.Nodup
  swap
  · rw [if_pos h2]
    constructor
    · rintro ⟨_, h⟩; cases h
    · rintro ⟨_, h, _⟩; exact absurd h h2
  rw [if_neg (not_not.2 h2)]
  simp only
  set sub := (t.filter (fun r => decide (r.fisher ∈ names))).insertionSort (before names) with hsub
  have hmem : ∀ r, r ∈ sub ↔ r ∈ t ∧ r.fisher ∈ names := by
    intro r
    rw [hsub, (List.perm_insertionSort _ _).mem_iff, List.mem_filter, decide_eq_true_iff]
  have hfis : ∀ n, n ∈ sub.map Row.fisher ↔ n ∈ names := by
    intro n
    constructor
    · intro h
      obtain ⟨r, hr, rfl⟩ := List.mem_map.1 h
      exact ((hmem r).1 hr).2
    · intro h
      obtain ⟨r, hr, rfl⟩ := h1' n h
      exact List.mem_map.2 ⟨r, (hmem r).2 ⟨hr, h⟩, rfl⟩
  have hrefs : ∀ ref, ref ∈ refs dfom sub ↔ ∃ n ∈ names, dfom.lookup n = some ref := by
    intro ref
    unfold refs
    rw [List.mem_filterMap]
    constructor
    · rintro ⟨r, hr, h⟩
      exact ⟨r.fisher, ((hmem r).1 hr).2, h⟩
    · rintro ⟨n, hn, h⟩
      obtain ⟨r, hr, rfl⟩ := h1' n hn
      exact ⟨r, (hmem r).2 ⟨hr, hn⟩, h⟩
  by_cases h3 : ∃ ref ∈ refs dfom sub, ref ∉ sub.map Row.fisher
  · rw [if_pos h3]
    constructor
    · rintro ⟨_, h⟩; cases h
    · rintro ⟨_, _, h, _⟩
      obtain ⟨ref, hr, hn⟩ := h3
      obtain ⟨n, hnn, hl⟩ := (hrefs ref).1 hr
      exact absurd ((hfis ref).2 (h n hnn ref hl)) hn
  rw [if_neg h3]
  have h3' : ∀ n ∈ names, ∀ ref, dfom.lookup n = some ref → ref ∈ names := fun n hn ref hl => by
    by_contra hno
    exact h3 ⟨ref, (hrefs ref).2 ⟨n, hn, hl⟩, fun hm => hno ((hfis ref).1 hm)⟩
  by_cases h4 : refs dfom sub = []
  · rw [if_pos h4]
    constructor
    · rintro ⟨_, h⟩; cases h
    · rintro ⟨_, _, _, ⟨n, hn, ref, hl⟩, _⟩
      have := (hrefs ref).2 ⟨n, hn, hl⟩
      rw [h4] at this
      cases this
  rw [if_neg h4]
  have h4' : ∃ n ∈ names, ∃ ref, dfom.lookup n = some ref := by
    obtain ⟨ref, hr⟩ := List.exists_mem_of_ne_nil _ h4
    obtain ⟨n, hn, hl⟩ := (hrefs ref).1 hr
    exact ⟨n, hn, ref, hl⟩
  by_cases h5 : fom ∈ cols
  · rw [if_neg (not_not.2 h5)]
    exact ⟨fun _ => ⟨h1', h2, h3', h4', h5⟩, fun _ => ⟨_, rfl⟩⟩
  · rw [if_pos h5]
    constructor
    · rintro ⟨_, h⟩; cases h
    · rintro ⟨_, _, _, _, h⟩; exact absurd h h5

/-- Two matrices, two numbers of bins. -/
def exRows : List (Row Nat ℚ) :=
  [⟨"[WL]".toList, 4, [("FoM".toList, 10)]⟩, ⟨"[WL+GCph]".toList, 12, [("FoM".toList, 50)]⟩,
    ⟨"[WL+GCph]".toList, 4, [("FoM".toList, 30)]⟩, ⟨"[V]".toList, 4, [("FoM".toList, 1)]⟩]

example : Indexed ["FoM".toList] exRows := by
  refine ⟨fun r hr c hc => ?_, by decide +kernel⟩
  rw [List.mem_singleton] at hc
  subst hc
  simp only [exRows, List.mem_cons, List.not_mem_nil, or_false] at hr
  rcases hr with rfl | rfl | rfl | rfl <;> exact ⟨_, rfl⟩

/-- The gain is stated where the reference has a row for the same number of bins. -/
example : ∃ out, fomTable ["[WL]".toList, "[WL+GCph]".toList] [("[WL+GCph]".toList, "[WL]".toList)]
    ["FoM".toList] exRows = .ok out ∧
    out.map (fun o => (o.row.fisher, o.row.idx, o.delta, o.percent)) =
      [("[WL]".toList, 4, none, none), ("[WL+GCph]".toList, 4, some 20, some 200),
        ("[WL+GCph]".toList, 12, none, none)] :=
  ⟨_, rfl, by decide +kernel⟩

end Differences

/-! ### Matrices that do not depend on the number of bins -/

section Hybrid

variable {κ V : Type} [LinearOrder κ]

theorem hybrid_iff (s : Str) : hybrid s = true ↔ WithPk s := by
  unfold hybrid WithPk
  rw [decide_eq_true_iff]
  constructor
  · rintro ⟨a, b, h⟩; exact ⟨a, b, h.symm⟩
  · rintro ⟨a, b, h⟩; exact ⟨a, b, h.symm⟩

theorem key_eq_iff (r : HRow κ V) (f : Str) (n : ℕ) (o : κ) :
    r.key = toLex (f, toLex (n, o)) ↔ r.fisher = f ∧ r.bins = n ∧ r.other = o := by
  unfold HRow.key
  constructor
  · intro h
    have h1 := congrArg (fun x => (ofLex x).1) h
    have h2 := congrArg (fun x => (ofLex (ofLex x).2).1) h
    have h3 := congrArg (fun x => (ofLex (ofLex x).2).2) h
    exact ⟨h1, h2, h3⟩
  · rintro ⟨rfl, rfl, rfl⟩; rfl

theorem key_eq (r r' : HRow κ V) : r.key = r'.key ↔ r.fisher = r'.fisher ∧ r.bins = r'.bins ∧ r.other = r'.other :=
  key_eq_iff r r'.fisher r'.bins r'.other

theorem unique_keys {t : List (HRow κ V)} : Unique t ↔ (t.map HRow.key).Nodup := by
  unfold Unique
  rw [List.Nodup, List.pairwise_map]
  constructor
  · exact List.Pairwise.imp fun h h' => h ((key_eq _ _).1 h')
  · exact List.Pairwise.imp fun h h' => h ((key_eq _ _).2 h')

theorem atKey_mem {t : List (HRow κ V)} (hn : (t.map HRow.key).Nodup) {r : HRow κ V} (hr : r ∈ t) :
    atKey t r.key = some r.vals := by
  unfold atKey
  induction t with
  | nil => cases hr
  | cons x t ih =>
    rw [List.map_cons, List.nodup_cons] at hn
    rw [List.find?_cons]
    by_cases hx : x.key = r.key
    · have : r = x := by
        rcases List.mem_cons.1 hr with h | h
        · exact h
        · exact absurd (List.mem_map.2 ⟨r, h, hx.symm⟩) hn.1
      subst this
      simp
    · have hr' : r ∈ t := (List.mem_cons.1 hr).resolve_left (fun h => hx (h ▸ rfl))
      simp only [hx, decide_false]
      exact ih hn.2 hr'

theorem atKey_some {t : List (HRow κ V)} {k : Str ×ₗ ℕ ×ₗ κ} {v : V} (h : atKey t k = some v) :
    ∃ r ∈ t, r.key = k ∧ r.vals = v := by
  unfold atKey at h
  cases hf : t.find? (fun r => decide (r.key = k)) with
  | none => rw [hf] at h; cases h
  | some r =>
    rw [hf] at h
    have hp := List.find?_some hf
    exact ⟨r, List.mem_of_find?_eq_some hf, by simpa using hp, by simpa using h⟩

theorem atKey_none {t : List (HRow κ V)} {k : Str ×ₗ ℕ ×ₗ κ} : atKey t k = none ↔ ∀ r ∈ t, r.key ≠ k := by
  unfold atKey
  rw [Option.map_eq_none_iff, List.find?_eq_none]
  simp

theorem atKey_append (a b : List (HRow κ V)) (k : Str ×ₗ ℕ ×ₗ κ) :
    atKey (a ++ b) k = (atKey a k).or (atKey b k) := by
  unfold atKey
  rw [List.find?_append]
  cases a.find? (fun r => decide (r.key = k)) <;> rfl

/-- The row of the result for a row of the table. -/
def shown (t : List (HRow κ V)) (r : HRow κ V) : HRow κ V :=
  if hybrid r.fisher && decide (r.bins ≠ 4) then
    { r with vals := (atKey t (toLex (r.fisher, toLex (4, r.other)))).getD r.vals }
  else r

theorem shown_key (t : List (HRow κ V)) (r : HRow κ V) : (shown t r).key = r.key := by
  unfold shown
  split <;> rfl

theorem shown_four (t : List (HRow κ V)) (r : HRow κ V) (h : r.bins = 4) : shown t r = r := by
  unfold shown
  rw [if_neg (by simp [h])]

theorem atKey_shown (t l : List (HRow κ V)) (f : Str) (o : κ) :
    atKey (l.map (shown t)) (toLex (f, toLex (4, o))) = atKey l (toLex (f, toLex (4, o))) := by
  induction l with
  | nil => rfl
  | cons x l ih =>
    unfold atKey at ih ⊢
    rw [List.map_cons, List.find?_cons, List.find?_cons, shown_key]
    by_cases hx : x.key = toLex (f, toLex (4, o))
    · simp only [hx, decide_true]
      rw [shown_four t x ((key_eq_iff x f 4 o).1 hx).2.1]
    · simp only [hx, decide_false]
      exact ih

theorem setKey_other (l : List (HRow κ V)) (k : Str ×ₗ ℕ ×ₗ κ) (v : V) (h : ∀ r ∈ l, r.key ≠ k) :
    setKey l k v = l := by
  unfold setKey
  conv_rhs => rw [← List.map_id l]
  apply List.map_congr_left
  intro r hr
  rw [if_neg (h r hr)]
  rfl

theorem hybridLoop_spec (t pre rest : List (HRow κ V)) (ht : t = pre ++ rest) (hn : (t.map HRow.key).Nodup) :
    (∀ r ∈ rest, WithPk r.fisher → r.bins ≠ 4 → ∃ s ∈ t, s.key = toLex (r.fisher, toLex (4, r.other))) ∧
        hybridLoop rest (pre.map (shown t) ++ rest) = (t.map (shown t), none) ∨
      (∃ r ∈ rest, WithPk r.fisher ∧ r.bins ≠ 4 ∧ ∀ s ∈ t, s.key ≠ toLex (r.fisher, toLex (4, r.other))) ∧
        ∃ cur, hybridLoop rest (pre.map (shown t) ++ rest) = (cur, some .keyError) := by
  induction rest generalizing pre with
  | nil =>
    left
    refine ⟨fun r hr => absurd hr (List.not_mem_nil), ?_⟩
    subst ht
    simp [hybridLoop]
  | cons r rest ih =>
    have hnext := ih (pre ++ [r]) (by simp [ht])
    have hcur : (pre ++ [r]).map (shown t) ++ rest = pre.map (shown t) ++ shown t r :: rest := by simp
    rw [hcur] at hnext
    by_cases hh : (hybrid r.fisher && decide (r.bins ≠ 4)) = true
    · have hpk : WithPk r.fisher := (hybrid_iff _).1 (by simp only [Bool.and_eq_true] at hh; exact hh.1)
      have hb4 : r.bins ≠ 4 := by
        simp only [Bool.and_eq_true, decide_eq_true_eq] at hh; exact hh.2
      have hat : atKey (pre.map (shown t) ++ r :: rest) (toLex (r.fisher, toLex (4, r.other))) =
          atKey t (toLex (r.fisher, toLex (4, r.other))) := by
        rw [atKey_append, atKey_shown, ← atKey_append, ← ht]
      unfold hybridLoop
      rw [if_pos hh, hat]
      cases hv : atKey t (toLex (r.fisher, toLex (4, r.other))) with
      | none =>
        right
        exact ⟨⟨r, List.mem_cons_self, hpk, hb4, atKey_none.1 hv⟩, _, rfl⟩
      | some v =>
        have hset : setKey (pre.map (shown t) ++ r :: rest) r.key v = pre.map (shown t) ++ shown t r :: rest := by
          rw [ht, List.map_append, List.map_cons, List.nodup_append] at hn
          obtain ⟨hn1, hn2, hn3⟩ := hn
          rw [List.nodup_cons] at hn2
          have h1 : setKey (pre.map (shown t)) r.key v = pre.map (shown t) := by
            apply setKey_other
            intro x hx hk
            obtain ⟨y, hy, rfl⟩ := List.mem_map.1 hx
            rw [shown_key] at hk
            exact hn3 y.key (List.mem_map.2 ⟨y, hy, rfl⟩) r.key (List.mem_cons_self) hk
          have h2 : setKey rest r.key v = rest := by
            apply setKey_other
            intro x hx hk
            exact hn2.1 (List.mem_map.2 ⟨x, hx, hk⟩)
          unfold setKey at h1 h2 ⊢
          rw [List.map_append, List.map_cons, h1, h2, if_pos rfl]
          unfold shown
          rw [if_pos hh, hv]
          rfl
        simp only
        rw [hset]
        rcases hnext with ⟨h1, h2⟩ | ⟨⟨x, hx, h1⟩, h2⟩
        · left
          refine ⟨fun x hx hp hb => ?_, h2⟩
          rcases List.mem_cons.1 hx with rfl | hx
          · obtain ⟨s, hs, hk, _⟩ := atKey_some hv
            exact ⟨s, hs, hk⟩
          · exact h1 x hx hp hb
        · right
          exact ⟨⟨x, List.mem_cons_of_mem _ hx, h1⟩, h2⟩
    · have hsh : shown t r = r := by
        unfold shown; rw [if_neg hh]
      rw [hsh] at hnext
      unfold hybridLoop
      rw [if_neg hh]
      rcases hnext with ⟨h1, h2⟩ | ⟨⟨x, hx, h1⟩, h2⟩
      · left
        refine ⟨fun x hx hp hb => ?_, h2⟩
        rcases List.mem_cons.1 hx with rfl | hx
        · exact absurd (by simp [(hybrid_iff _).2 hp, hb]) hh
        · exact h1 x hx hp hb
      · right
        exact ⟨⟨x, List.mem_cons_of_mem _ hx, h1⟩, h2⟩

theorem sortRows_nodup {t : List (HRow κ V)} (h : Unique t) : ((sortRows t).map HRow.key).Nodup :=
  (((List.perm_insertionSort _ t).map HRow.key).nodup_iff).2 (unique_keys.1 h)

theorem mem_sortRows {t : List (HRow κ V)} {r : HRow κ V} : r ∈ sortRows t ↔ r ∈ t :=
  (List.perm_insertionSort _ t).mem_iff

theorem hasFour_iff (t : List (HRow κ V)) : HasFour t ↔
    ∀ r ∈ sortRows t, WithPk r.fisher → r.bins ≠ 4 →
      ∃ s ∈ sortRows t, s.key = toLex (r.fisher, toLex (4, r.other)) := by
  constructor
  · intro h r hr hp _
    obtain ⟨s, hs, h1, h2, h3⟩ := h r (mem_sortRows.1 hr) hp
    exact ⟨s, mem_sortRows.2 hs, (key_eq_iff _ _ _ _).2 ⟨h1, h2, h3⟩⟩
  · intro h r hr hp
    by_cases hb : r.bins = 4
    · exact ⟨r, hr, rfl, hb, rfl⟩
    · obtain ⟨s, hs, hk⟩ := h r (mem_sortRows.2 hr) hp hb
      obtain ⟨h1, h2, h3⟩ := (key_eq_iff _ _ _ _).1 hk
      exact ⟨s, mem_sortRows.1 hs, h1, h2, h3⟩

/-- The replacement succeeds exactly if there is a row with four bins for every row to replace. -/
theorem hybrid_succeeds_iff (s : State κ V) (hi : s.indexed = false) (hu : Unique s.rows) :
    (∃ s', replaceHybrid s = (s', none)) ↔ HasFour s.rows := by
  rw [hasFour_iff]
  unfold replaceHybrid
  rw [hi, if_neg Bool.false_ne_true]
  have := hybridLoop_spec (sortRows s.rows) [] (sortRows s.rows) rfl (sortRows_nodup hu)
  rw [List.map_nil, List.nil_append] at this
  rcases this with ⟨h1, h2⟩ | ⟨⟨r, hr, hp, hb, h1⟩, cur, h2⟩
  · rw [h2]
    exact ⟨fun _ => h1, fun _ => ⟨_, rfl⟩⟩
  · rw [h2]
    constructor
    · rintro ⟨_, h⟩; cases h
    · intro h
      obtain ⟨x, hx, hk⟩ := h r hr hp hb
      exact absurd hk (h1 x hx)

/-- After the replacement there are the same rows, in the order of their index; those of matrices with the
power spectrum show the numbers of four bins, the others their own. -/
theorem hybrid_spec (s s' : State κ V) (hu : Unique s.rows) (h : replaceHybrid s = (s', none)) :
    s'.indexed = false ∧
      (s'.rows.map (fun r => (r.fisher, r.bins, r.other))).Perm
        (s.rows.map (fun r => (r.fisher, r.bins, r.other))) ∧
      s'.rows.Pairwise (fun a b => a.key < b.key) ∧
      ∀ r' ∈ s'.rows, ∃ r ∈ s.rows, r.fisher = r'.fisher ∧ r.other = r'.other ∧
        Source r'.fisher r'.bins r.bins ∧ r'.vals = r.vals := by
  unfold replaceHybrid at h
  split at h
  · cases h
  have hn := sortRows_nodup hu
  have := hybridLoop_spec (sortRows s.rows) [] (sortRows s.rows) rfl hn
  rw [List.map_nil, List.nil_append] at this
  rcases this with ⟨h1, h2⟩ | ⟨_, cur, h2⟩
  swap
  · rw [h2] at h; cases h
  rw [h2] at h
  simp only [Prod.mk.injEq, and_true] at h
  subst h
  have hperm : (sortRows s.rows).Perm s.rows := List.perm_insertionSort _ _
  refine ⟨rfl, ?_, ?_, ?_⟩
  · simp only [List.map_map]
    have hsame : (sortRows s.rows).map ((fun r : HRow κ V => (r.fisher, r.bins, r.other)) ∘ shown (sortRows s.rows)) =
        (sortRows s.rows).map (fun r => (r.fisher, r.bins, r.other)) := by
      apply List.map_congr_left
      intro r _
      simp only [Function.comp]
      unfold shown
      split <;> rfl
    rw [hsame]
    exact hperm.map _
  · simp only [List.pairwise_map, shown_key]
    have h3 : (sortRows s.rows).Pairwise (fun a b => a.key ≤ b.key) := by
      haveI : Std.Total (fun a b : HRow κ V => a.key ≤ b.key) := ⟨fun a b => le_total _ _⟩
      haveI : IsTrans (HRow κ V) (fun a b => a.key ≤ b.key) := ⟨fun a b c h h' => le_trans h h'⟩
      exact List.pairwise_insertionSort _ _
    have h4 : (sortRows s.rows).Pairwise (fun a b => a.key ≠ b.key) := by
      rw [List.Nodup, List.pairwise_map] at hn
      exact hn
    exact (h3.and h4).imp fun hab => lt_of_le_of_ne hab.1 hab.2
  · intro r' hr'
    obtain ⟨r, hr, rfl⟩ := List.mem_map.1 hr'
    by_cases hh : (hybrid r.fisher && decide (r.bins ≠ 4)) = true
    · have hpk : WithPk r.fisher := (hybrid_iff _).1 (by simp only [Bool.and_eq_true] at hh; exact hh.1)
      have hb4 : r.bins ≠ 4 := by
        simp only [Bool.and_eq_true, decide_eq_true_eq] at hh; exact hh.2
      obtain ⟨x, hx, hk⟩ := h1 r hr hpk hb4
      obtain ⟨k1, k2, k3⟩ := (key_eq_iff _ _ _ _).1 hk
      have hsh : shown (sortRows s.rows) r = { r with vals := x.vals } := by
        unfold shown
        rw [if_pos hh, ← hk, atKey_mem hn hx]
        rfl
      rw [hsh]
      exact ⟨x, mem_sortRows.1 hx, k1, k3, ⟨fun _ => k2, fun hnp => absurd hpk hnp⟩, rfl⟩
    · have hsh : shown (sortRows s.rows) r = r := by
        unfold shown; rw [if_neg hh]
      rw [hsh]
      refine ⟨r, mem_sortRows.1 hr, rfl, rfl, ⟨fun hp => ?_, fun _ => rfl⟩, rfl⟩
      by_contra hb
      exact hh (by simp [(hybrid_iff _).2 hp, hb])

/-- Replacing a second time changes nothing. -/
theorem hybrid_idempotent (s s' : State κ V) (hu : Unique s.rows) (h : replaceHybrid s = (s', none)) :
    replaceHybrid s' = (s', none) := by
  obtain ⟨hi, hperm, hsort, hval⟩ := hybrid_spec s s' hu h
  have hu' : Unique s'.rows := hsort.imp fun hab hk => absurd ((key_eq _ _).2 hk) (ne_of_lt hab)
  have hfour : HasFour s.rows := (hybrid_succeeds_iff s (by
    by_contra hne
    have : s.indexed = true := by simpa using hne
    unfold replaceHybrid at h
    rw [this, if_pos rfl] at h
    cases h) hu).1 ⟨s', h⟩
  have hfour' : HasFour s'.rows := by
    intro r hr hp
    have h1 : (r.fisher, r.bins, r.other) ∈ s.rows.map (fun r => (r.fisher, r.bins, r.other)) :=
      hperm.mem_iff.1 (List.mem_map.2 ⟨r, hr, rfl⟩)
    obtain ⟨x, hx, hxe⟩ := List.mem_map.1 h1
    simp only [Prod.mk.injEq] at hxe
    obtain ⟨y, hy, y1, y2, y3⟩ := hfour x hx (hxe.1 ▸ hp)
    have h2 : (y.fisher, y.bins, y.other) ∈ s'.rows.map (fun r => (r.fisher, r.bins, r.other)) :=
      hperm.mem_iff.2 (List.mem_map.2 ⟨y, hy, rfl⟩)
    obtain ⟨z, hz, hze⟩ := List.mem_map.1 h2
    simp only [Prod.mk.injEq] at hze
    exact ⟨z, hz, by rw [hze.1, y1, hxe.1], by rw [hze.2.1, y2], by rw [hze.2.2, y3, hxe.2.2]⟩
  obtain ⟨s'', h''⟩ := (hybrid_succeeds_iff s' hi hu').2 hfour'
  rw [h'']
  unfold replaceHybrid at h''
  rw [hi, if_neg Bool.false_ne_true] at h''
  have hsorted : sortRows s'.rows = s'.rows :=
    List.Pairwise.insertionSort_eq (hsort.imp fun hab => le_of_lt hab)
  have hn' := sortRows_nodup hu'
  rw [hsorted] at h'' hn'
  have hloop := hybridLoop_spec s'.rows [] s'.rows rfl hn'
  rw [List.map_nil, List.nil_append] at hloop
  rcases hloop with ⟨_, h2⟩ | ⟨_, cur, h2⟩
  swap
  · rw [h2] at h''; cases h''
  rw [h2] at h''
  simp only [Prod.mk.injEq, and_true] at h''
  have hid : s'.rows.map (shown s'.rows) = s'.rows := by
    conv_rhs => rw [← List.map_id s'.rows]
    apply List.map_congr_left
    intro r hr
    by_cases hh : (hybrid r.fisher && decide (r.bins ≠ 4)) = true
    · have hpk : WithPk r.fisher := (hybrid_iff _).1 (by simp only [Bool.and_eq_true] at hh; exact hh.1)
      obtain ⟨x, hx, x1, x2, x3⟩ := hfour' r hr hpk
      have hk : x.key = toLex (r.fisher, toLex (4, r.other)) := (key_eq_iff _ _ _ _).2 ⟨x1, x2, x3⟩
      obtain ⟨y, hy, y1, y2, y3, y4⟩ := hval r hr
      obtain ⟨z, hz, z1, z2, z3, z4⟩ := hval x hx
      have hyz : y = z := by
        have hyb : y.bins = 4 := y3.1 hpk
        have hzb : z.bins = 4 := z3.1 (x1 ▸ hpk)
        by_contra hne
        have hs : Std.Symm (fun r r' : HRow κ V => ¬ (r.fisher = r'.fisher ∧ r.bins = r'.bins ∧ r.other = r'.other)) :=
          ⟨fun a b h ⟨p, q, w⟩ => h ⟨p.symm, q.symm, w.symm⟩⟩
        refine (show Unique s.rows from hu).forall hy hz hne ⟨?_, ?_, ?_⟩
        · rw [y1, z1, x1]
        · rw [hyb, hzb]
        · rw [y2, z2, x3]
      unfold shown
      rw [if_pos hh, ← hk, atKey_mem (unique_keys.1 hu') hx]
      show { r with vals := x.vals } = r
      rw [z4, ← hyz, ← y4]
    · unfold shown; rw [if_neg hh]; rfl
  rw [hid] at h''
  subst h''
  obtain ⟨rows, ix⟩ := s'
  simp only at hi
  rw [hi]

/-- After a failure the table stays indexed, and every further attempt is refused, whatever it contains. -/
theorem hybrid_stuck (s s' : State κ V) (e : Err) (h : replaceHybrid s = (s', some e)) :
    s'.indexed = true ∧ replaceHybrid s' = (s', some .valueError) := by
  have hi : s'.indexed = true := by
    unfold replaceHybrid at h
    split at h
    · simp only [Prod.mk.injEq] at h
      rw [← h.1]; assumption
    · split at h
      · simp only [Prod.mk.injEq] at h
        rw [← h.1]
      · simp at h
  refine ⟨hi, ?_⟩
  unfold replaceHybrid
  rw [if_pos hi]

/-- Three rows of one matrix with the power spectrum for two scenarios, and one of another matrix. -/
def exHybrid : List (HRow Nat ℚ) :=
  [⟨"[GCsp(Pk)]".toList, 12, 0, 7⟩, ⟨"[GCsp(Pk)]".toList, 4, 0, 5⟩, ⟨"[WL]".toList, 12, 0, 3⟩]

example : Unique exHybrid ∧ HasFour exHybrid := by
  constructor
  · unfold Unique exHybrid; decide +kernel
  · intro r hr hp
    simp only [exHybrid, List.mem_cons, List.not_mem_nil, or_false] at hr
    rcases hr with rfl | rfl | rfl
    · exact ⟨_, List.mem_cons_of_mem _ List.mem_cons_self, rfl, rfl, rfl⟩
    · exact ⟨_, List.mem_cons_of_mem _ List.mem_cons_self, rfl, rfl, rfl⟩
    · exact absurd ((hybrid_iff _).2 hp) (by decide +kernel)

example : (replaceHybrid ⟨exHybrid, false⟩).1.rows.map (fun r => (r.bins, r.vals)) =
    [(4, 5), (12, 5), (12, 3)] := by decide +kernel

/-- A failure leaves rows replaced that came before: the table is neither the old nor the new one. -/
theorem hybrid_half_done : ∃ s s' : State Nat ℚ, Unique s.rows ∧ s.indexed = false ∧
    replaceHybrid s = (s', some .keyError) ∧
    s.rows.map (fun r => (r.fisher, r.bins, r.vals)) = [("[GCsp(Pk)]".toList, 4, 5), ("[GCsp(Pk)]".toList, 12, 7),
      ("[GCsp(Pk)]+[WL]".toList, 12, 9)] ∧
    s'.rows.map (fun r => (r.fisher, r.bins, r.vals)) = [("[GCsp(Pk)]".toList, 4, 5), ("[GCsp(Pk)]".toList, 12, 5),
      ("[GCsp(Pk)]+[WL]".toList, 12, 9)] :=
  ⟨⟨[⟨"[GCsp(Pk)]".toList, 4, 0, 5⟩, ⟨"[GCsp(Pk)]".toList, 12, 0, 7⟩, ⟨"[GCsp(Pk)]+[WL]".toList, 12, 0, 9⟩], false⟩,
    ⟨[⟨"[GCsp(Pk)]".toList, 4, 0, 5⟩, ⟨"[GCsp(Pk)]".toList, 12, 0, 5⟩, ⟨"[GCsp(Pk)]+[WL]".toList, 12, 0, 9⟩], true⟩,
    by unfold Unique; decide +kernel, rfl, rfl, rfl, rfl⟩

end Hybrid

/-! ### Rows in LaTeX -/

section Latex

variable {K : Type} [Field K] [LinearOrder K]

/-- A gain is printed with a plus sign. -/
theorem latex_gain (fmt : K → Str) (x ref : K) (h : 0 < 100 * (x - ref) / ref) :
    gainText fmt x ref = "+".toList ++ fmt (100 * (x - ref) / ref) ++ "\\%".toList := by
  unfold gainText
  rw [if_pos h]

/-- A loss is printed with two minus signs, if the format prints negative numbers with one. -/
theorem latex_loss (fmt : K → Str) (x ref : K) (txt : Str) (h : 100 * (x - ref) / ref < 0)
    (hf : fmt (100 * (x - ref) / ref) = "-".toList ++ txt) :
    gainText fmt x ref = "--".toList ++ txt ++ "\\%".toList := by
  unfold gainText
  rw [if_neg (not_lt.2 h.le), hf]
  rfl

/-- Five per cent less. -/
example : gainText (fun q : ℚ => if q < 0 then "-5.00".toList else "5.00".toList) 95 100 = "--5.00\\%".toList := by
  decide +kernel

/-- With the columns number of bins, matrix and figure of merit in front, all errors are printed in their
order. -/
theorem latex_errors (fmt err str : K → Str) (n f : Str) (x : K) (errs : Dict Str K) (ref : Option K) :
    ∃ gain, latexCells fmt err str
        (("nbins".toList, .inl n) :: ("fisher".toList, .inl f) :: ("FoM".toList, .inr x) ::
          errs.map (fun p => (p.1, .inr p.2))) ref =
      .ok ([n, f, fmt x, gain] ++ errs.map (fun p => err p.2)) := by
  refine ⟨match ref with | some y => gainText fmt x y | none => "--".toList, ?_⟩
  show Except.ok _ = Except.ok _
  simp only [List.drop_succ_cons, List.drop_zero, List.map_map]
  rfl

/-- Without a column for the number of bins, the first error is not printed. -/
theorem latex_error_lost (fmt err str : K → Str) (f : Str) (x : K) (k : Str) (e : K) (errs : Dict Str K)
    (ref : Option K) (hk : k ≠ "nbins".toList) (hn : ∀ p ∈ errs, p.1 ≠ "nbins".toList) :
    ∃ gain, latexCells fmt err str
        (("fisher".toList, .inl f) :: ("FoM".toList, .inr x) :: (k, .inr e) ::
          errs.map (fun p => (p.1, .inr p.2))) ref =
      .ok ([f, fmt x, gain] ++ errs.map (fun p => err p.2)) := by
  refine ⟨match ref with | some y => gainText fmt x y | none => "--".toList, ?_⟩
  have hl : List.lookup "nbins".toList ((("fisher".toList, (Sum.inl f : Str ⊕ K)) :: ("FoM".toList, .inr x) :: (k, .inr e) ::
      errs.map (fun p => (p.1, Sum.inr p.2)))) = none := by
    rw [PyDict.lookup_none_iff]
    simp only [List.map_cons, List.map_map, List.mem_cons, List.mem_map, not_or]
    refine ⟨by decide +kernel, by decide +kernel, fun h => hk h.symm, ?_⟩
    rintro ⟨p, hp, h⟩
    exact hn p hp h
  unfold latexCells
  rw [hl]
  show Except.ok _ = Except.ok _
  simp only [List.drop_succ_cons, List.drop_zero, List.map_map, List.nil_append]
  rfl

end Latex

end Seyfert.Tables
