import Verif.Model.Explorer
import Verif.Lemmas.PyStr
import Verif.Lemmas.PyDict
import Verif.Props.Batch

/-!
C47: selection of run directories.
-/

set_option linter.unusedSectionVars false

namespace Seyfert.Explorer

/-! ### Specification -/

/-- The name starts with `run_` and a scenario. -/
def Form1 (s w : Str) : Prop := ∃ r, s = "run_".toList ++ (w ++ r)
/-- The name starts with a scenario, a number and `_sp_bins_`. -/
def Form2 (s w d : Str) : Prop :=
  d ≠ [] ∧ (∀ c ∈ d, isDigit c = true) ∧ ∃ r, s = w ++ ("_".toList ++ (d ++ ("_sp_bins_".toList ++ r)))
/-- The name starts with `scenario_`, a scenario, `__n_sp_bins_` and a number, here up to its last digit. -/
def Form3 (s w d : Str) : Prop :=
  d ≠ [] ∧ (∀ c ∈ d, isDigit c = true) ∧ ∃ r, (∀ c ∈ r.head?, isDigit c = false) ∧
    s = "scenario_".toList ++ (w ++ ("__n_sp_bins_".toList ++ (d ++ r)))

/-- A recognised run name. -/
def Recognised (s : Str) : Prop := ∃ w ∈ scenarios, Form1 s w ∨ (∃ d, Form2 s w d) ∨ (∃ d, Form3 s w d)

def Contains (part s : Str) : Prop := ∃ a b, s = a ++ part ++ b

/-- All optional conditions on the name. -/
def Conditions (a : Args) (name : Str) : Prop :=
  (∀ f ∈ a.filters.getD [], f name = true) ∧ (∀ c ∈ a.containing.getD [], Contains c name) ∧
  (∀ c ∈ a.notContaining.getD [], ¬ Contains c name)

/-! ### Lemmas -/

theorem contains_iff (part s : Str) : contains part s = true ↔ Contains part s := by
  induction s with
  | nil =>
    rw [contains, stripPrefix_isSome]
    constructor
    · rintro ⟨r, h⟩
      exact ⟨[], r, h⟩
    · rintro ⟨a, b, h⟩
      have h1 := (List.append_eq_nil_iff.mp h.symm)
      have h2 := List.append_eq_nil_iff.mp h1.1
      exact ⟨b, by rw [h2.2, h1.2]; rfl⟩
  | cons c s ih =>
    rw [contains, Bool.or_eq_true, stripPrefix_isSome, ih]
    constructor
    · rintro (⟨r, h⟩ | ⟨a, b, h⟩)
      · exact ⟨[], r, by rw [h]; rfl⟩
      · exact ⟨c :: a, b, by rw [h]; rfl⟩
    · rintro ⟨a, b, h⟩
      cases a with
      | nil => exact Or.inl ⟨b, h⟩
      | cons x a =>
        right
        rw [List.cons_append, List.cons_append] at h
        exact ⟨a, b, (List.cons.inj h).2⟩

theorem digits_some (s d r : Str) : digits s = some (d, r) ↔
    d ≠ [] ∧ (∀ c ∈ d, isDigit c = true) ∧ (∀ c ∈ r.head?, isDigit c = false) ∧ s = d ++ r := by
  unfold digits
  constructor
  · intro h
    have h1 := Batch.span_append isDigit s
    have h2 := Batch.span_fst isDigit s
    have h3 := Batch.span_head isDigit s
    generalize Names.spanChars isDigit s = q at *
    obtain ⟨a, b⟩ := q
    cases a with
    | nil => simp at h
    | cons c a =>
      simp only [Option.some.injEq, Prod.mk.injEq] at h
      obtain ⟨rfl, rfl⟩ := h
      exact ⟨by simp, h2, h3, h1.symm⟩
  · rintro ⟨h0, h1, h2, rfl⟩
    rw [Batch.span_all isDigit d h1 r h2]
    cases d with
    | nil => exact absurd rfl h0
    | cons c d => rfl

theorem matchAlt_some {α : Type} (s : Str) (k : Str → Str → Option α) (g : α) (h : matchAlt scenarios s k = some g) :
    ∃ w ∈ scenarios, ∃ r, s = w ++ r ∧ k w r = some g := by
  unfold matchAlt at h
  obtain ⟨l1, w, l2, hl, hw, _⟩ := List.findSome?_eq_some_iff.mp h
  obtain ⟨r, hr, hk⟩ := Option.bind_eq_some_iff.mp hw
  exact ⟨w, by rw [hl]; simp, r, (stripPrefix_eq_some _ _ _).mp hr, hk⟩

/-- The two scenarios start with different letters, so the alternative is determined. -/
theorem matchAlt_scenario {α : Type} (w : Str) (hw : w ∈ scenarios) (r : Str) (k : Str → Str → Option α) :
    matchAlt scenarios (w ++ r) k = k w r := by
  have ho : ∃ x, "optimistic".toList = 'o' :: x := ⟨_, rfl⟩
  have hp : ∃ x, "pessimistic".toList = 'p' :: x := ⟨_, rfl⟩
  unfold scenarios at *
  generalize "optimistic".toList = o at *
  generalize "pessimistic".toList = p at *
  obtain ⟨x, rfl⟩ := ho
  obtain ⟨y, rfl⟩ := hp
  unfold matchAlt
  simp only [List.mem_cons, List.not_mem_nil, or_false] at hw
  rcases hw with rfl | rfl
  · rw [List.findSome?_cons, stripPrefix_append]
    simp only [Option.bind_some]
    cases hk : k ('o' :: x) r with
    | some v => rfl
    | none =>
      rw [List.findSome?_cons, List.cons_append, stripPrefix, if_neg (by decide)]
      rfl
  · rw [List.findSome?_cons, List.cons_append, stripPrefix, if_neg (by decide)]
    simp only [Option.bind_none]
    rw [← List.cons_append, List.findSome?_cons, stripPrefix_append]
    simp only [Option.bind_some]
    cases k ('p' :: y) r <;> rfl

theorem regex1_some (s : Str) (g : Groups) :
    regex1 s = some g ↔ ∃ w ∈ scenarios, Form1 s w ∧ g = [("scenario".toList, w)] := by
  unfold regex1
  constructor
  · intro h
    obtain ⟨r, hr, h⟩ := Option.bind_eq_some_iff.mp h
    obtain ⟨w, hw, t, rfl, hg⟩ := matchAlt_some _ _ _ h
    exact ⟨w, hw, ⟨t, (stripPrefix_eq_some _ _ _).mp hr⟩, (Option.some.inj hg).symm⟩
  · rintro ⟨w, hw, ⟨r, rfl⟩, rfl⟩
    rw [stripPrefix_append, Option.bind_some, matchAlt_scenario w hw]

theorem regex2_some (s : Str) (g : Groups) :
    regex2 s = some g ↔ ∃ w ∈ scenarios, ∃ d, Form2 s w d ∧ g = [("scenario".toList, w), ("nbins".toList, d)] := by
  unfold regex2
  constructor
  · intro h
    obtain ⟨w, hw, t, rfl, k1⟩ := matchAlt_some _ _ _ h
    obtain ⟨r, hr, k2⟩ := Option.bind_eq_some_iff.mp k1
    obtain ⟨⟨d, u⟩, hd, k3⟩ := Option.bind_eq_some_iff.mp k2
    obtain ⟨v, hv, k4⟩ := Option.map_eq_some_iff.mp k3
    obtain ⟨h1, h2, h3, rfl⟩ := (digits_some _ _ _).mp hd
    refine ⟨w, hw, d, ⟨h1, h2, v, ?_⟩, k4.symm⟩
    rw [(stripPrefix_eq_some _ _ _).mp hr]
    simp only at hv
    rw [(stripPrefix_eq_some _ _ _).mp hv]
  · rintro ⟨w, hw, d, ⟨h1, h2, r, rfl⟩, rfl⟩
    rw [matchAlt_scenario w hw, stripPrefix_append, Option.bind_some,
      (digits_some _ d ("_sp_bins_".toList ++ r)).mpr ⟨h1, h2, fun c hc => ?_, rfl⟩]
    · rw [Option.bind_some, stripPrefix_append, Option.map_some]
    · have e : ("_sp_bins_".toList ++ r).head? = some '_' := rfl
      rw [e, Option.mem_def, Option.some.injEq] at hc
      rw [← hc]
      decide

theorem regex3_some (s : Str) (g : Groups) :
    regex3 s = some g ↔ ∃ w ∈ scenarios, ∃ d, Form3 s w d ∧ g = [("scenario".toList, w), ("nbins".toList, d)] := by
  unfold regex3
  constructor
  · intro h
    obtain ⟨q, hq, h⟩ := Option.bind_eq_some_iff.mp h
    obtain ⟨w, hw, t, rfl, k1⟩ := matchAlt_some _ _ _ h
    obtain ⟨r, hr, k2⟩ := Option.bind_eq_some_iff.mp k1
    obtain ⟨⟨d, u⟩, hd, k3⟩ := Option.map_eq_some_iff.mp k2
    obtain ⟨h1, h2, h3, rfl⟩ := (digits_some _ _ _).mp hd
    refine ⟨w, hw, d, ⟨h1, h2, u, h3, ?_⟩, k3.symm⟩
    rw [(stripPrefix_eq_some _ _ _).mp hq, (stripPrefix_eq_some _ _ _).mp hr]
  · rintro ⟨w, hw, d, ⟨h1, h2, r, h3, rfl⟩, rfl⟩
    rw [stripPrefix_append, Option.bind_some, matchAlt_scenario w hw, stripPrefix_append, Option.bind_some,
      (digits_some _ d r).mpr ⟨h1, h2, h3, rfl⟩, Option.map_some]

theorem mandatory_ne_nil (s : Str) : mandatory s ≠ [] ↔ Recognised s := by
  unfold mandatory Recognised
  cases h1 : regex1 s with
  | some g =>
    obtain ⟨w, hw, h, _⟩ := (regex1_some s g).mp h1
    exact ⟨fun _ => ⟨w, hw, Or.inl h⟩, fun _ => by simp⟩
  | none =>
    cases h2 : regex2 s with
    | some g =>
      obtain ⟨w, hw, d, h, _⟩ := (regex2_some s g).mp h2
      exact ⟨fun _ => ⟨w, hw, Or.inr (Or.inl ⟨d, h⟩)⟩, fun _ => by simp⟩
    | none =>
      cases h3 : regex3 s with
      | some g =>
        obtain ⟨w, hw, d, h, _⟩ := (regex3_some s g).mp h3
        exact ⟨fun _ => ⟨w, hw, Or.inr (Or.inr ⟨d, h⟩)⟩, fun _ => by simp⟩
      | none =>
        constructor
        · intro h
          simp at h
        · rintro ⟨w, hw, h | ⟨d, h⟩ | ⟨d, h⟩⟩
          · rw [(regex1_some s _).mpr ⟨w, hw, h, rfl⟩] at h1
            simp at h1
          · rw [(regex2_some s _).mpr ⟨w, hw, d, h, rfl⟩] at h2
            simp at h2
          · rw [(regex3_some s _).mpr ⟨w, hw, d, h, rfl⟩] at h3
            simp at h3

theorem mandatory_isSome (s : Str) : ∀ m ∈ mandatory s, m.isSome = true := by
  unfold mandatory
  split
  · intro m hm
    rw [List.mem_singleton] at hm
    rw [hm]; rfl
  · simp

/-! ### C47 -/

/-- Exactly when a directory passes: it has a recognised name or there are additional patterns, all additional patterns
are found, and all conditions on the name hold. -/
theorem filter_iff (a : Args) (name resolved : Str) :
    directoryFilter a name (dirMatches a resolved) = true ↔
      (Recognised resolved ∨ a.patterns.getD [] ≠ []) ∧ (∀ p ∈ a.patterns.getD [], (p resolved).isSome) ∧
      Conditions a name := by
  unfold directoryFilter Conditions
  have hne : dirMatches a resolved ≠ [] ↔ Recognised resolved ∨ a.patterns.getD [] ≠ [] := by
    unfold dirMatches
    rw [← mandatory_ne_nil, ne_eq, List.append_eq_nil_iff, List.map_eq_nil_iff]
    tauto
  by_cases h : dirMatches a resolved = []
  · rw [if_pos h]
    constructor
    · intro h'; simp at h'
    · rintro ⟨h1, _⟩
      exact absurd h (hne.mpr h1)
  · rw [if_neg h, Bool.and_eq_true, Bool.and_eq_true, Bool.and_eq_true, List.all_eq_true, List.all_eq_true,
      List.all_eq_true, List.all_eq_true]
    have hm : (∀ m ∈ dirMatches a resolved, m.isSome = true) ↔ ∀ p ∈ a.patterns.getD [], (p resolved).isSome = true := by
      unfold dirMatches
      constructor
      · intro h1 p hp
        exact h1 _ (List.mem_append_right _ (List.mem_map_of_mem hp))
      · intro h1 m hm
        rcases List.mem_append.mp hm with hm | hm
        · exact mandatory_isSome _ m hm
        · obtain ⟨p, hp, rfl⟩ := List.mem_map.mp hm
          exact h1 p hp
    simp only [hm, contains_iff, Bool.not_eq_true', ← Bool.not_eq_true]
    constructor
    · rintro ⟨⟨⟨h1, h2⟩, h3⟩, h4⟩
      exact ⟨hne.mp h, h1, h2, h3, h4⟩
    · rintro ⟨_, h1, h2, h3, h4⟩
      exact ⟨⟨⟨h1, h2⟩, h3⟩, h4⟩

theorem keys_ofItems {υ : Type} (l : List (Str × υ)) (k : Str) :
    k ∈ (PyDict.ofItems l).map (·.1) ↔ k ∈ l.map (·.1) := by
  rw [← PyDict.lookup_isSome_iff]
  unfold PyDict.ofItems
  rw [PyDict.lookup_update]
  rw [List.lookup_nil, Option.or_none, PyDict.lookup_isSome_iff, List.map_reverse, List.mem_reverse]

/-- Without additional patterns the recursive selection returns exactly the directories with a recognised name that
satisfy all conditions. -/
theorem selected_recursive_partial (a : Args) (ha : a.patterns.getD [] = []) (es : List Entry) (path : Str) :
    path ∈ (selectRecursive a es).map (·.1) ↔
      ∃ e ∈ es, e.path = path ∧ Recognised e.name ∧ Conditions a e.name := by
  unfold selectRecursive
  rw [keys_ofItems]
  simp only [List.mem_map, List.mem_filterMap]
  constructor
  · rintro ⟨q, ⟨e, he, h⟩, rfl⟩
    split at h
    · rename_i hf
      obtain ⟨h1, _, h3⟩ := (filter_iff a e.name e.name).mp hf
      rw [ha] at h1
      exact ⟨e, he, by rw [← Option.some.inj h], by simpa using h1, h3⟩
    · simp at h
  · rintro ⟨e, he, rfl, h1, h2⟩
    refine ⟨_, ⟨e, he, if_pos ((filter_iff a e.name e.name).mpr ⟨Or.inl h1, by rw [ha]; simp, h2⟩)⟩, rfl⟩

/-- The same without recursion, for entries that are not symbolic links to directories of another name. -/
theorem selected_flat_partial (a : Args) (ha : a.patterns.getD [] = []) (es : List Entry)
    (hes : ∀ e ∈ es, e.resolved = e.name) (path : Str) :
    path ∈ (selectFlat a es).map (·.1) ↔
      ∃ e ∈ es, e.isDir = true ∧ e.path = path ∧ Recognised e.name ∧ Conditions a e.name := by
  unfold selectFlat
  rw [keys_ofItems]
  simp only [List.mem_map, List.mem_filterMap, List.mem_filter]
  constructor
  · rintro ⟨q, ⟨e, ⟨he, hd⟩, h⟩, rfl⟩
    split at h
    · rename_i hf
      obtain ⟨h1, _, h3⟩ := (filter_iff a e.name e.resolved).mp hf
      rw [ha, hes e he] at h1
      exact ⟨e, he, hd, by rw [← Option.some.inj h], by simpa using h1, h3⟩
    · simp at h
  · rintro ⟨e, he, hd, rfl, h1, h2⟩
    refine ⟨_, ⟨e, ⟨he, hd⟩, if_pos ((filter_iff a e.name e.resolved).mpr ⟨Or.inl ?_, by rw [ha]; simp, h2⟩)⟩, rfl⟩
    rw [hes e he]
    exact h1

/-- With an additional pattern that is found, the recognised patterns no longer matter. -/
theorem pattern_replaces (p : Str → Option Groups) (name : Str) (h : (p name).isSome) :
    directoryFilter { patterns := some [p] } name (dirMatches { patterns := some [p] } name) = true := by
  rw [filter_iff]
  exact ⟨Or.inr (by simp), by simpa using h, by simp [Conditions]⟩

/-- Witness: a directory of another kind is selected. -/
theorem unrecognised_selected : (selectRecursive { patterns := some [fun s => if contains "x".toList s then some [] else none] }
    [⟨"/x".toList, "x".toList, "x".toList, true⟩]).map (·.1) = ["/x".toList] ∧ ¬ Recognised "x".toList := by
  refine ⟨by decide +kernel, ?_⟩
  rw [← mandatory_ne_nil]
  decide +kernel

/-- Witness: a link to a run directory is selected without recursion, but not with it. -/
theorem link_selected : (selectFlat {} [⟨"/a".toList, "a".toList, "run_optimistic".toList, true⟩]).map (·.1) = ["/a".toList] ∧
    selectRecursive {} [⟨"/a".toList, "a".toList, "run_optimistic".toList, true⟩] = [] := by
  decide +kernel

/-- The scenario and the number of bins reported for names of the third form are the ones written in the name. -/
theorem groups_form3 (w d r : Str) (hw : w ∈ scenarios) (hd : d ≠ []) (hdig : ∀ c ∈ d, isDigit c = true)
    (hr : ∀ c ∈ r.head?, isDigit c = false) (a : Args) (ha : a.patterns.getD [] = []) :
    groupsOf (dirMatches a ("scenario_".toList ++ (w ++ ("__n_sp_bins_".toList ++ (d ++ r))))) =
      [("scenario".toList, w), ("nbins".toList, d)] := by
  have h3 := (regex3_some ("scenario_".toList ++ (w ++ ("__n_sp_bins_".toList ++ (d ++ r)))) _).mpr
    ⟨w, hw, d, ⟨hd, hdig, r, hr, rfl⟩, rfl⟩
  have h1 : regex1 ("scenario_".toList ++ (w ++ ("__n_sp_bins_".toList ++ (d ++ r)))) = none := rfl
  have h2 : regex2 ("scenario_".toList ++ (w ++ ("__n_sp_bins_".toList ++ (d ++ r)))) = none := rfl
  unfold dirMatches mandatory
  rw [h1, h2, h3, ha]
  rfl

/-- And likewise for the second form. -/
theorem groups_form2 (w d r : Str) (hw : w ∈ scenarios) (hd : d ≠ []) (hdig : ∀ c ∈ d, isDigit c = true)
    (a : Args) (ha : a.patterns.getD [] = []) :
    groupsOf (dirMatches a (w ++ ("_".toList ++ (d ++ ("_sp_bins_".toList ++ r))))) =
      [("scenario".toList, w), ("nbins".toList, d)] := by
  have h2 := (regex2_some (w ++ ("_".toList ++ (d ++ ("_sp_bins_".toList ++ r)))) _).mpr
    ⟨w, hw, d, ⟨hd, hdig, r, rfl⟩, rfl⟩
  have h1 : regex1 (w ++ ("_".toList ++ (d ++ ("_sp_bins_".toList ++ r)))) = none := by
    simp only [scenarios, List.mem_cons, List.not_mem_nil, or_false] at hw
    rcases hw with rfl | rfl <;> rfl
  unfold dirMatches mandatory
  rw [h1, h2, ha]
  rfl

example : (selectRecursive { containing := some ["_v1".toList], notContaining := some ["old".toList] }
    [⟨"/1".toList, "optimistic_12_sp_bins_v1".toList, "".toList, true⟩, ⟨"/2".toList, "optimistic_12_sp_bins_v2".toList, "".toList, true⟩,
     ⟨"/3".toList, "run_pessimistic_v1_old".toList, "".toList, true⟩, ⟨"/4".toList, "results_v1".toList, "".toList, true⟩]) =
    [("/1".toList, [("scenario".toList, "optimistic".toList), ("nbins".toList, "12".toList)])] := by
  decide +kernel

end Seyfert.Explorer
