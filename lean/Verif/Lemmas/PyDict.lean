import Verif.Model.PyDict

/-! Lemmas on dictionaries. -/

set_option linter.unusedSectionVars false

namespace Seyfert.PyDict

variable {κ υ : Type} [DecidableEq κ] [BEq κ] [LawfulBEq κ]

theorem lookup_none_iff (d : List (κ × υ)) (k : κ) : d.lookup k = none ↔ k ∉ d.map (·.1) := by
  induction d with
  | nil => simp
  | cons p d ih =>
    obtain ⟨a, b⟩ := p
    rw [List.lookup_cons]
    by_cases h : k = a
    · subst h; simp
    · rw [beq_false_of_ne h]
      simp only [ih, List.map_cons, List.mem_cons, h, false_or]

theorem lookup_isSome_iff (d : List (κ × υ)) (k : κ) : (d.lookup k).isSome ↔ k ∈ d.map (·.1) := by
  rw [← not_iff_not, Option.not_isSome_iff_eq_none, lookup_none_iff]

theorem lookup_set (d : List (κ × υ)) (k k' : κ) (v : υ) :
    (set d k v).lookup k' = if k' = k then some v else d.lookup k' := by
  induction d with
  | nil =>
    rw [set, List.lookup_cons]
    by_cases h : k' = k
    · subst h; simp
    · rw [beq_false_of_ne h, if_neg h]
  | cons p d ih =>
    obtain ⟨a, b⟩ := p
    rw [set]
    by_cases ha : a = k
    · rw [if_pos ha, List.lookup_cons, List.lookup_cons]
      subst ha
      by_cases h : k' = a
      · subst h; simp
      · rw [beq_false_of_ne h, if_neg h]
    · rw [if_neg ha, List.lookup_cons, List.lookup_cons, ih]
      by_cases h : k' = a
      · subst h; simp [ha]
      · rw [beq_false_of_ne h]

theorem keys_set (d : List (κ × υ)) (k : κ) (v : υ) :
    (set d k v).map (·.1) = if k ∈ d.map (·.1) then d.map (·.1) else d.map (·.1) ++ [k] := by
  induction d with
  | nil => rfl
  | cons p d ih =>
    obtain ⟨a, b⟩ := p
    rw [set]
    by_cases ha : a = k
    · rw [if_pos ha]; simp [ha]
    · rw [if_neg ha, List.map_cons, ih]
      by_cases hk : k ∈ d.map (·.1)
      · rw [if_pos hk, if_pos (by rw [List.map_cons]; exact List.mem_cons_of_mem _ hk)]; rfl
      · rw [if_neg hk, if_neg]
        · rfl
        · rw [List.map_cons, List.mem_cons]
          rintro (h | h)
          · exact ha h.symm
          · exact hk h

theorem keys_erase (d : List (κ × υ)) (k : κ) :
    (erase d k).map (·.1) = (d.map (·.1)).filter (fun x => decide (x ≠ k)) := by
  unfold erase
  rw [List.filter_map]; rfl

theorem lookup_erase (d : List (κ × υ)) (k k' : κ) :
    (erase d k).lookup k' = if k' = k then none else d.lookup k' := by
  induction d with
  | nil => simp [erase]
  | cons p d ih =>
    obtain ⟨a, b⟩ := p
    unfold erase at ih ⊢
    rw [List.filter_cons, List.lookup_cons]
    by_cases ha : a = k
    · subst ha
      simp only [ne_eq, not_true_eq_false, decide_false, Bool.false_eq_true, if_false]
      rw [ih]
      by_cases h : k' = a
      · rw [if_pos h, if_pos h]
      · rw [if_neg h, if_neg h, beq_false_of_ne h]
    · simp only [ne_eq, ha, not_false_eq_true, decide_true, if_true]
      rw [List.lookup_cons, ih]
      by_cases h : k' = a
      · subst h; simp [ha]
      · rw [beq_false_of_ne h]

theorem keys_modify (d : List (κ × υ)) (k : κ) (f : υ → υ) :
    (modify d k f).map (·.1) = d.map (·.1) := by
  unfold modify
  rw [List.map_map]
  apply List.map_congr_left
  intro p _
  simp only [Function.comp]
  split <;> rfl

theorem lookup_modify (d : List (κ × υ)) (k k' : κ) (f : υ → υ) :
    (modify d k f).lookup k' = if k' = k then (d.lookup k').map f else d.lookup k' := by
  induction d with
  | nil => simp [modify]
  | cons p d ih =>
    obtain ⟨a, b⟩ := p
    unfold modify at ih ⊢
    rw [List.map_cons, List.lookup_cons]
    by_cases ha : a = k
    · rw [if_pos ha, List.lookup_cons, ih]
      subst ha
      by_cases h : k' = a
      · subst h; simp
      · rw [beq_false_of_ne h]
    · rw [if_neg ha, List.lookup_cons, ih]
      by_cases h : k' = a
      · subst h; simp [ha]
      · rw [beq_false_of_ne h]

theorem lookup_update (d o : List (κ × υ)) (k : κ) :
    (update d o).lookup k = ((o.reverse).lookup k).or (d.lookup k) := by
  unfold update
  induction o generalizing d with
  | nil => simp
  | cons p o ih =>
    rw [List.foldl_cons, ih, lookup_set, List.reverse_cons, List.lookup_append]
    obtain ⟨a, b⟩ := p
    by_cases h : k = a
    · subst h
      simp only [if_true]
      cases (o.reverse).lookup k <;> simp
    · rw [if_neg h]
      have : List.lookup k [(a, b)] = none := by
        rw [List.lookup_cons, beq_false_of_ne h]; rfl
      rw [this]
      cases (o.reverse).lookup k <;> rfl

theorem lookup_reverse (o : List (κ × υ)) (h : (o.map (·.1)).Nodup) (k : κ) : o.reverse.lookup k = o.lookup k := by
  induction o with
  | nil => rfl
  | cons p o ih =>
    obtain ⟨a, b⟩ := p
    rw [List.map_cons, List.nodup_cons] at h
    rw [List.reverse_cons, List.lookup_append, ih h.2, List.lookup_cons, List.lookup_cons]
    by_cases hk : k = a
    · subst hk
      rw [(lookup_none_iff o k).mpr h.1]
      simp
    · rw [beq_false_of_ne hk]
      simp

theorem nodup_set (d : List (κ × υ)) (k : κ) (v : υ) (h : (d.map (·.1)).Nodup) :
    ((set d k v).map (·.1)).Nodup := by
  rw [keys_set]
  split
  · exact h
  · next hk =>
    rw [List.nodup_append]
    exact ⟨h, by simp, by
      intro a ha b hb
      rw [List.mem_singleton.mp hb]
      rintro rfl
      exact hk ha⟩

theorem nodup_update (d o : List (κ × υ)) (h : (d.map (·.1)).Nodup) :
    ((update d o).map (·.1)).Nodup := by
  unfold update
  induction o generalizing d with
  | nil => exact h
  | cons p o ih => rw [List.foldl_cons]; exact ih _ (nodup_set _ _ _ h)

/-- Items with distinct keys build the dictionary with exactly these items. -/
theorem update_nodup (d o : List (κ × υ)) (h : ((d ++ o).map (·.1)).Nodup) : update d o = d ++ o := by
  unfold update
  induction o generalizing d with
  | nil => simp
  | cons p o ih =>
    rw [List.foldl_cons]
    have hp : p.1 ∉ d.map (·.1) := by
      rw [List.map_append, List.map_cons, List.nodup_append] at h
      intro hm
      exact h.2.2 _ hm _ List.mem_cons_self rfl
    have hs : ∀ l : List (κ × υ), p.1 ∉ l.map (·.1) → set l p.1 p.2 = l ++ [p] := by
      intro l hl
      induction l with
      | nil => rfl
      | cons q l ihl =>
        obtain ⟨a, b⟩ := q
        rw [List.map_cons, List.mem_cons, not_or] at hl
        rw [set, if_neg (fun e => hl.1 e.symm), ihl hl.2]
        rfl
    rw [hs d hp, ih _ (by simpa using h)]
    simp

theorem ofItems_nodup (o : List (κ × υ)) (h : (o.map (·.1)).Nodup) : ofItems o = o := by
  unfold ofItems
  rw [update_nodup [] o (by simpa using h), List.nil_append]

theorem lookup_of_mem (d : List (κ × υ)) (h : (d.map (·.1)).Nodup) {p : κ × υ} (hp : p ∈ d) :
    d.lookup p.1 = some p.2 := by
  induction d with
  | nil => simp at hp
  | cons q d ih =>
    obtain ⟨a, b⟩ := q
    rw [List.map_cons, List.nodup_cons] at h
    rw [List.lookup_cons]
    rcases List.mem_cons.mp hp with rfl | hp'
    · simp
    · have : p.1 ≠ a := by
        intro e
        exact h.1 (List.mem_map.mpr ⟨p, hp', e⟩)
      rw [beq_false_of_ne this]
      exact ih h.2 hp'

theorem mem_of_lookup {d : List (κ × υ)} {k : κ} {v : υ} (h : d.lookup k = some v) : (k, v) ∈ d := by
  induction d with
  | nil => simp at h
  | cons q d ih =>
    obtain ⟨a, b⟩ := q
    rw [List.lookup_cons] at h
    by_cases hk : k = a
    · subst hk
      simp only [beq_self_eq_true, Option.some.injEq] at h
      rw [h]; exact List.mem_cons_self
    · rw [beq_false_of_ne hk] at h
      exact List.mem_cons_of_mem _ (ih h)

end Seyfert.PyDict
