import Verif.Spec.BuildTables
import Verif.Props.Tables

/-! Properties of the tables made by `build_tables.py`. -/

namespace Seyfert.BTab
open Tables (Row Err before diffAt percentage fom)

variable {I K : Type} [LinearOrder I] [Field K] [DecidableEq K]

omit [LinearOrder I] [Field K] in
theorem mem_dropDup {r : Row I K} : ∀ {l : List (Row I K)} {seen : List (Dict Str K)}, r ∈ dropDup seen l ↔
    ∃ pre post, l = pre ++ r :: post ∧ r.vals ∉ seen ∧ ∀ y ∈ pre, y.vals ≠ r.vals := by
  intro l
  induction l with
  | nil =>
    intro seen
    constructor
    · nofun
    · rintro ⟨pre, post, h, _⟩
      cases pre <;> cases h
  | cons x l ih =>
    intro seen
    unfold dropDup
    constructor
    · intro h
      by_cases hx : x.vals ∈ seen
      · rw [if_pos hx] at h
        obtain ⟨pre, post, rfl, h1, h2⟩ := ih.1 h
        refine ⟨x :: pre, post, rfl, h1, ?_⟩
        intro y hy
        rcases List.mem_cons.1 hy with rfl | hy
        · exact fun e => h1 (e ▸ hx)
        · exact h2 y hy
      · rw [if_neg hx] at h
        rcases List.mem_cons.1 h with rfl | h
        · exact ⟨[], l, rfl, hx, nofun⟩
        · obtain ⟨pre, post, rfl, h1, h2⟩ := ih.1 h
          refine ⟨x :: pre, post, rfl, fun hc => h1 (List.mem_cons_of_mem _ hc), ?_⟩
          intro y hy
          rcases List.mem_cons.1 hy with rfl | hy
          · exact fun e => h1 (e ▸ List.mem_cons_self)
          · exact h2 y hy
    · rintro ⟨pre, post, h, h1, h2⟩
      cases pre with
      | nil =>
        cases h
        rw [if_neg h1]
        exact List.mem_cons_self
      | cons y pre =>
        cases h
        by_cases hx : x.vals ∈ seen
        · rw [if_pos hx]
          exact ih.2 ⟨pre, post, rfl, h1, fun y hy => h2 y (List.mem_cons_of_mem _ hy)⟩
        · rw [if_neg hx]
          refine List.mem_cons_of_mem _ (ih.2 ⟨pre, post, rfl, ?_, fun y hy => h2 y (List.mem_cons_of_mem _ hy)⟩)
          intro hc
          rcases List.mem_cons.1 hc with hc | hc
          · exact h2 x List.mem_cons_self hc.symm
          · exact h1 hc

omit [LinearOrder I] [Field K] in
theorem dropDup_fresh : ∀ {l : List (Row I K)} {seen : List (Dict Str K)},
    ((dropDup seen l).map Row.vals).Nodup ∧ ∀ r ∈ dropDup seen l, r.vals ∉ seen := by
  intro l
  induction l with
  | nil => intro seen; exact ⟨List.nodup_nil, nofun⟩
  | cons x l ih =>
    intro seen
    unfold dropDup
    by_cases hx : x.vals ∈ seen
    · rw [if_pos hx]; exact ih
    · rw [if_neg hx]
      obtain ⟨h1, h2⟩ := ih (seen := x.vals :: seen)
      refine ⟨?_, ?_⟩
      · rw [List.map_cons, List.nodup_cons]
        refine ⟨fun hc => ?_, h1⟩
        obtain ⟨r, hr, e⟩ := List.mem_map.1 hc
        exact h2 r hr (e ▸ List.mem_cons_self)
      · intro r hr
        rcases List.mem_cons.1 hr with rfl | hr
        · exact hx
        · exact fun hc => h2 r hr (List.mem_cons_of_mem _ hc)

omit [LinearOrder I] [Field K] in
theorem dropDup_all : ∀ {l : List (Row I K)} {seen : List (Dict Str K)}, (l.map Row.vals).Nodup →
    (∀ r ∈ l, r.vals ∉ seen) → dropDup seen l = l := by
  intro l
  induction l with
  | nil => intro seen _ _; rfl
  | cons x l ih =>
    intro seen h1 h2
    unfold dropDup
    rw [if_neg (h2 x List.mem_cons_self)]
    rw [List.map_cons, List.nodup_cons] at h1
    rw [ih h1.2]
    intro r hr hc
    rcases List.mem_cons.1 hc with hc | hc
    · exact h1.1 (hc ▸ List.mem_map.2 ⟨r, hr, rfl⟩)
    · exact h2 r (List.mem_cons_of_mem _ hr) hc

omit [LinearOrder I] [Field K] [DecidableEq K] in
theorem rounded_iff {rnd : K → K} {x r : Row I K} : Rounded rnd x r ↔ r = roundRow rnd x := by
  obtain ⟨a, b, c⟩ := x
  obtain ⟨a', b', c'⟩ := r
  unfold Rounded roundRow
  simp only [Row.mk.injEq]

omit [Field K] in
/-- The rows of a table are exactly the rows shown. -/
theorem body_iff {rnd : K → K} {names : List Str} {picked : List (Row I K)} {r : Row I K} :
    r ∈ body rnd names picked ↔ Shown rnd picked r := by
  unfold body
  rw [List.mem_insertionSort, mem_dropDup]
  unfold Shown
  constructor
  · rintro ⟨pre, post, h, _, h2⟩
    obtain ⟨a, b, rfl, rfl, hb⟩ := List.map_eq_append_iff.1 h
    obtain ⟨x, c, rfl, rfl, rfl⟩ := List.map_eq_cons_iff.1 hb
    refine ⟨a, x, c, rfl, rounded_iff.2 rfl, ?_⟩
    intro y hy z hz
    rw [rounded_iff.1 hz]
    exact h2 _ (List.mem_map.2 ⟨y, hy, rfl⟩)
  · rintro ⟨pre, x, post, rfl, hx, h⟩
    refine ⟨pre.map (roundRow rnd), post.map (roundRow rnd), ?_, nofun, ?_⟩
    · rw [List.map_append, List.map_cons, ← rounded_iff.1 hx]
    · intro y hy
      obtain ⟨w, hw, rfl⟩ := List.mem_map.1 hy
      exact h w hw _ (rounded_iff.2 rfl)

/-- A table is made exactly when no name is repeated, a row of the reference is shown, and, with the bins in the index, a row of
every matrix asked for. -/
theorem table_iff {rnd : K → K} {bins : Bool} {names : List Str} {ref : Str} {picked : List (Row I K)} :
    (∃ t, subTable rnd bins names ref picked = .ok t) ↔ names.Nodup ∧ (∃ r, Shown rnd picked r ∧ r.fisher = ref) ∧
      (bins = true → ∀ n ∈ names, ∃ r, Shown rnd picked r ∧ r.fisher = n) := by
  have key : ∀ n, n ∈ (body rnd names picked).map Row.fisher ↔ ∃ r, Shown rnd picked r ∧ r.fisher = n := by
    intro n
    rw [List.mem_map]
    exact ⟨fun ⟨r, h, e⟩ => ⟨r, body_iff.1 h, e⟩, fun ⟨r, h, e⟩ => ⟨r, body_iff.2 h, e⟩⟩
  unfold subTable
  by_cases h1 : names.Nodup
  · rw [if_neg (not_not.2 h1)]
    dsimp only
    by_cases h2 : ref ∉ (body rnd names picked).map Row.fisher
    · rw [if_pos h2]
      exact ⟨fun ⟨_, h⟩ => (nomatch h), fun h => absurd ((key ref).2 h.2.1) h2⟩
    · rw [if_neg h2]
      by_cases h3 : bins = true ∧ ∃ n ∈ names, n ∉ (body rnd names picked).map Row.fisher
      · rw [if_pos h3]
        refine ⟨fun ⟨_, h⟩ => (nomatch h), fun h => ?_⟩
        obtain ⟨hb, n, hn, hc⟩ := h3
        exact absurd ((key n).2 (h.2.2 hb n hn)) hc
      · rw [if_neg h3]
        refine ⟨fun _ => ⟨h1, (key ref).1 (not_not.1 h2), fun hb n hn => ?_⟩, fun _ => ⟨_, rfl⟩⟩
        refine (key n).1 ?_
        by_contra hc
        exact h3 ⟨hb, n, hn, hc⟩
  · rw [if_pos h1]
    exact ⟨fun ⟨_, h⟩ => (nomatch h), fun h => absurd h.1 h1⟩

theorem subTable_ok {rnd : K → K} {bins : Bool} {names : List Str} {ref : Str} {picked : List (Row I K)}
    {t : List (Row I K × Option K)} (h : subTable rnd bins names ref picked = .ok t) :
    t = (body rnd names picked).map fun r => (r, gain (body rnd names picked) ref r) := by
  unfold subTable at h
  split at h
  · cases h
  · dsimp only at h
    split at h
    · cases h
    · split at h
      · cases h
      · cases h; rfl

/-- The rows of a table: each row shown, once, in the order of the names and then of the bins; no two rows have the same
numbers. -/
theorem table_rows {rnd : K → K} {bins : Bool} {names : List Str} {ref : Str} {picked : List (Row I K)}
    {t : List (Row I K × Option K)} (h : subTable rnd bins names ref picked = .ok t) :
    (∀ r, r ∈ t.map (·.1) ↔ Shown rnd picked r) ∧ ((t.map (·.1)).map Row.vals).Nodup ∧
      (t.map (·.1)).Pairwise (fun a b => names.idxOf a.fisher < names.idxOf b.fisher ∨
        names.idxOf a.fisher = names.idxOf b.fisher ∧ a.idx ≤ b.idx) := by
  have e : t.map (·.1) = body rnd names picked := by
    rw [subTable_ok h, List.map_map]
    exact List.map_id _
  rw [e]
  refine ⟨fun r => body_iff, ?_, ?_⟩
  · exact ((List.perm_insertionSort _ _).map _).nodup_iff.2 dropDup_fresh.1
  · exact List.pairwise_insertionSort (before names) _

/-- All results are in the table if no two have the same rounded numbers. -/
theorem table_all_partial {rnd : K → K} {bins : Bool} {names : List Str} {ref : Str} {picked : List (Row I K)}
    {t : List (Row I K × Option K)} (h : subTable rnd bins names ref picked = .ok t)
    (hn : (picked.map fun r => r.vals.map fun p => (p.1, rnd p.2)).Nodup) :
    ∀ x ∈ picked, ∃ r ∈ t.map (·.1), Rounded rnd x r := by
  intro x hx
  have e : t.map (·.1) = body rnd names picked := by
    rw [subTable_ok h, List.map_map]
    exact List.map_id _
  refine ⟨roundRow rnd x, ?_, rounded_iff.2 rfl⟩
  rw [e]
  unfold body
  rw [List.mem_insertionSort, dropDup_all (by rw [List.map_map]; exact hn) (fun _ _ => List.not_mem_nil)]
  exact List.mem_map.2 ⟨x, hx, rfl⟩

omit [LinearOrder I] [Field K] [DecidableEq K] in
theorem lookup_col {l : Dict Str K} {c : Str} (h : c ∈ l.map (·.1)) : ∃ a, l.lookup c = some a := by
  induction l with
  | nil => cases h
  | cons p l ih =>
    rw [List.lookup_cons]
    by_cases hc : c = p.1
    · subst hc
      exact ⟨p.2, by simp⟩
    · have : (c == p.1) = false := by simpa using hc
      rw [this]
      exact ih ((List.mem_cons.1 h).resolve_left hc)

/-- The gain of a row is the percentage difference to the row of the reference with the same bins, if that row is shown, and
missing otherwise. -/
theorem gains {rnd : K → K} {bins : Bool} {names cols : List Str} {ref : Str} {picked : List (Row I K)}
    {t : List (Row I K × Option K)} (h : subTable rnd bins names ref picked = .ok t) (hr : Regular cols picked)
    {r : Row I K} {g : Option K} (hm : (r, g) ∈ t) (d : K) : g = some d ↔
      ∃ s a b, Shown rnd picked s ∧ s.fisher = ref ∧ s.idx = r.idx ∧ r.vals.lookup "FoM".toList = some a ∧
        s.vals.lookup "FoM".toList = some b ∧ d = 100 * (a - b) / b := by
  rw [subTable_ok h] at hm
  obtain ⟨r', hb, e⟩ := List.mem_map.1 hm
  cases e
  have hcols : ∀ r ∈ body rnd names picked, r.vals.map (·.1) = cols := by
    intro r hr'
    obtain ⟨pre, x, post, rfl, hx, _⟩ := body_iff.1 hr'
    rw [hx.2.2, List.map_map]
    exact hr.columns x (by simp)
  have hu : ∀ r ∈ body rnd names picked, ∀ r' ∈ body rnd names picked, r.fisher = r'.fisher → r.idx = r'.idx → r = r' := by
    intro r h1 r' h2 e1 e2
    obtain ⟨pre, x, post, hp, hx, _⟩ := body_iff.1 h1
    obtain ⟨pre', x', post', hp', hx', _⟩ := body_iff.1 h2
    rw [rounded_iff.1 hx, rounded_iff.1 hx']
    have m1 : x ∈ picked := by rw [hp]; simp
    have m2 : x' ∈ picked := by rw [hp']; simp
    rw [hr.unique x m1 x' m2 (by rw [← hx.1, ← hx'.1, e1]) (by rw [← hx.2.1, ← hx'.2.1, e2])]
  unfold gain
  have hfom : fom = "FoM".toList := rfl
  constructor
  · intro hg
    split at hg
    · obtain ⟨s, a, b, h1, h2, h3, h4, h5, h6⟩ := (Tables.diffAt_iff percentage hu hb ref fom d).1 hg
      exact ⟨s, a, b, body_iff.1 h1, h2, h3, h4, h5, h6⟩
    · cases hg
  · rintro ⟨s, a, b, h1, h2, h3, h4, h5, h6⟩
    have hs : s ∈ body rnd names picked := body_iff.2 h1
    rw [if_pos, (Tables.diffAt_iff percentage hu hb ref fom d).2 ⟨s, a, b, hs, h2, h3, h4, h5, h6⟩]
    rw [List.all_eq_true]
    intro p hp
    have hc : p.1 ∈ cols := by rw [← hcols r hb]; exact List.mem_map.2 ⟨p, hp, rfl⟩
    obtain ⟨a', ha'⟩ := lookup_col (l := r.vals) (c := p.1) (by rw [hcols r hb]; exact hc)
    obtain ⟨b', hb'⟩ := lookup_col (l := s.vals) (c := p.1) (by rw [hcols s hs]; exact hc)
    rw [(Tables.diffAt_iff percentage hu hb ref p.1 _).2 ⟨s, a', b', hs, h2, h3, ha', hb', rfl⟩]
    rfl

/-- A reference with the same results for all numbers of bins, as one with the three-dimensional spectrum, is shown for one
number of bins only: no row with another number of bins has a gain. -/
theorem gains_one_bin {rnd : K → K} {bins : Bool} {names cols : List Str} {ref : Str} {picked : List (Row I K)}
    {t : List (Row I K × Option K)} (h : subTable rnd bins names ref picked = .ok t) (hr : Regular cols picked)
    (hs : ∀ x ∈ picked, ∀ y ∈ picked, x.fisher = ref → y.fisher = ref → x.vals = y.vals)
    {r r' : Row I K} {d d' : K} (h1 : (r, some d) ∈ t) (h2 : (r', some d') ∈ t) : r.idx = r'.idx := by
  obtain ⟨s, _, _, a1, a2, a3, _⟩ := (gains h hr h1 d).1 rfl
  obtain ⟨s', _, _, b1, b2, b3, _⟩ := (gains h hr h2 d').1 rfl
  rw [← a3, ← b3]
  have hsb := (table_rows h).2.1
  have e : t.map (·.1) = body rnd names picked := by
    rw [subTable_ok h, List.map_map]
    exact List.map_id _
  rw [e] at hsb
  have k1 : s ∈ body rnd names picked := body_iff.2 a1
  have k2 : s' ∈ body rnd names picked := body_iff.2 b1
  obtain ⟨pre, x, post, hp, hx, _⟩ := a1
  obtain ⟨pre', x', post', hp', hx', _⟩ := b1
  have m1 : x ∈ picked := by rw [hp]; simp
  have m2 : x' ∈ picked := by rw [hp']; simp
  have hv : s.vals = s'.vals := by
    rw [hx.2.2, hx'.2.2, hs x m1 x' m2 (hx.1 ▸ a2) (hx'.1 ▸ b2)]
  rw [List.inj_on_of_nodup_map hsb k1 k2 hv]

/-- A matrix whose results, rounded, are all those of matrices before it is not in the table; with the bins in the index no table
is made. -/
theorem twin_lost {rnd : K → K} {bins : Bool} {names : List Str} {ref n : Str} {picked : List (Row I K)} (hn : n ∈ names)
    (ht : ∀ pre x post, picked = pre ++ x :: post → x.fisher = n → ∃ y ∈ pre,
      (y.vals.map fun p => (p.1, rnd p.2)) = x.vals.map fun p => (p.1, rnd p.2)) :
    (bins = true → ∃ e, subTable rnd bins names ref picked = .error e) ∧
    ∀ t, subTable rnd bins names ref picked = .ok t → ∀ r ∈ t.map (·.1), r.fisher ≠ n := by
  have key : ∀ r, Shown rnd picked r → r.fisher ≠ n := by
    rintro r ⟨pre, x, post, hp, hx, h⟩ hf
    obtain ⟨y, hy, e⟩ := ht pre x post hp (hx.1 ▸ hf)
    exact h y hy (roundRow rnd y) (rounded_iff.2 rfl) (e.trans hx.2.2.symm)
  constructor
  · intro hb
    cases hs : subTable rnd bins names ref picked with
    | error e => exact ⟨e, rfl⟩
    | ok t =>
      obtain ⟨_, _, h3⟩ := table_iff.1 ⟨t, hs⟩
      obtain ⟨r, h1, h2⟩ := h3 hb n hn
      exact absurd h2 (key r h1)
  · intro t h r hr
    exact key r (((table_rows h).1 r).1 hr)

/-! ### The files -/

/-- The columns declared in LaTeX are those of the lines exactly when the index has several levels. -/
theorem latex_columns (multi : Bool) (levels cols : Nat) (h : 0 < levels) :
    declared multi levels cols = cells levels cols ↔ multi = true := by
  unfold declared cells
  cases multi with
  | true => simp
  | false =>
    simp only [Bool.false_eq_true, if_false, iff_false]
    omega

/-- With the index written the widths are set for other columns: each column has the width of one further right, and the last
columns have none. Without the index each has its own. -/
theorem excel_widths (widths : List Nat) (levels j : Nat) (h : 0 < levels) (hj : j < widths.length) :
    sheetWidths widths (sheetPlace false levels j) = some widths[j] ∧
      (sheetWidths widths (sheetPlace true levels j) = widths[levels + j]?) ∧
      (widths.length ≤ levels + j → sheetWidths widths (sheetPlace true levels j) = none) := by
  unfold sheetWidths sheetPlace
  refine ⟨?_, ?_, ?_⟩
  · simp [hj]
  · simp
  · intro h; simp [h]

/-- A file which is there is only replaced when asked for. -/
theorem excel_kept {B : Type} (old : Option B) (overwrite : Bool) (new : B) :
    (∀ b, old = some b → overwrite = false → writeExcel old overwrite new = (.error (), some b)) ∧
      (old = none ∨ overwrite = true → writeExcel old overwrite new = (.ok (), some new)) := by
  unfold writeExcel
  refine ⟨?_, ?_⟩
  · rintro b rfl rfl; rfl
  · rintro (rfl | rfl)
    · rfl
    · rw [if_neg (by simp)]

/-! ### Examples -/

/-- Results of weak lensing with the spectra of galaxies, and of the three-dimensional spectrum, for 4 and 12 bins. -/
def exRows : List (Row ℕ ℚ) :=
  [⟨"a".toList, 4, [("FoM".toList, 30), ("w0".toList, 1)]⟩, ⟨"a".toList, 12, [("FoM".toList, 40), ("w0".toList, 2)]⟩,
   ⟨"pk".toList, 4, [("FoM".toList, 20), ("w0".toList, 3)]⟩, ⟨"pk".toList, 12, [("FoM".toList, 20), ("w0".toList, 3)]⟩]

theorem exRows_regular : Regular ["FoM".toList, "w0".toList] exRows where
  columns := by decide +kernel
  nodup := by decide +kernel
  fom := by decide +kernel
  unique := by
    intro r hr r' hr' h1 h2
    simp only [exRows, List.mem_cons, List.not_mem_nil, or_false] at hr hr'
    rcases hr with rfl | rfl | rfl | rfl <;> rcases hr' with rfl | rfl | rfl | rfl <;>
      first
        | rfl
        | exact absurd h1 (by decide +kernel)
        | exact absurd h2 (by decide)

/-- With the three-dimensional spectrum as reference, the gain for 12 bins is missing. -/
example : ((subTable (id : ℚ → ℚ) true ["a".toList, "pk".toList] "pk".toList exRows).toOption.map
    (List.map fun p => (p.1.fisher, p.1.idx, p.2))) =
      some [("a".toList, 4, some 50), ("a".toList, 12, none), ("pk".toList, 4, some 0)] := by decide +kernel

/-- With the other one as reference, all rows that are left have one. -/
example : ((subTable (id : ℚ → ℚ) true ["a".toList, "pk".toList] "a".toList exRows).toOption.map
    (List.map fun p => (p.1.fisher, p.1.idx, p.2.isSome))) =
      some [("a".toList, 4, true), ("a".toList, 12, true), ("pk".toList, 4, true)] := by decide +kernel

/-- A matrix with the results of another one stops the table. -/
example : ((subTable (id : ℚ → ℚ) true ["a".toList, "b".toList] "a".toList
    [⟨"a".toList, 4, [("FoM".toList, 30)]⟩, ⟨"b".toList, 4, [("FoM".toList, 30)]⟩]).toOption.isSome) = false := by
  decide +kernel

/-- The same without the bins: it is missing. -/
example : ((subTable (id : ℚ → ℚ) false ["a".toList, "b".toList] "a".toList
    [⟨"a".toList, 4, [("FoM".toList, 30)]⟩, ⟨"b".toList, 4, [("FoM".toList, 30)]⟩]).toOption.map
    (List.map fun p => p.1.fisher)) = some ["a".toList] := by
  decide +kernel

end Seyfert.BTab
