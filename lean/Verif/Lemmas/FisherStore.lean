import Verif.Model.FisherStore
import Verif.Props.FisherErrors

set_option linter.unusedSectionVars false

namespace Seyfert.Fisher

variable {N K : Type} [LinearOrder N] [Field K] [DecidableEq K]

/-! ### Heap -/

theorem zeroPadH_append (en : Finset N → List N) (h : Heap N K) (a b : FM N K) :
    zeroPadH en (h ++ [a, b]) h.length (h.length + 1)
      = h ++ [(zeroPad en a b).1, (zeroPad en a b).2] := by
  simp [zeroPadH]

theorem combineH_eq (en : Finset N → List N) (op : K → K → K) (sep : Str) (h : Heap N K) {i j : Ref}
    {F G : FM N K} (hi : h[i]? = some F) (hj : h[j]? = some G) :
    combineH en op sep h i j = match F.combine en op sep G with
      | .error e => .error e
      | .ok R => .ok (h ++ [(zeroPad en F.copy G.copy).1, (zeroPad en F.copy G.copy).2, R],
          h.length + 2) := by
  unfold combineH
  rw [hi, hj]
  simp only [zeroPadH_append]
  have e1 : (h ++ [(zeroPad en F.copy G.copy).1, (zeroPad en F.copy G.copy).2])[h.length]?
      = some (zeroPad en F.copy G.copy).1 := by simp
  have e2 : (h ++ [(zeroPad en F.copy G.copy).1, (zeroPad en F.copy G.copy).2])[h.length + 1]?
      = some (zeroPad en F.copy G.copy).2 := by simp
  simp only [e1, e2]
  unfold FM.combine
  simp only
  cases DF.zip op (zeroPad en F.copy G.copy).1.matrix (zeroPad en F.copy G.copy).2.matrix with
  | error e => rfl
  | ok m => simp

theorem get_append_of_some {h : Heap N K} {r : Ref} {F : FM N K} (hr : h[r]? = some F)
    (ext : Heap N K) : (h ++ ext)[r]? = some F := by
  obtain ⟨hlt, _⟩ := List.getElem?_eq_some_iff.mp hr
  rw [List.getElem?_append_left hlt, hr]

/-- A loop over references changes only the objects it visits. -/
theorem forRefs_frame {α : Type} (f : FM N K → Res N K α) (rs : List Ref) (h : Heap N K) :
    (forRefs f h rs).1.length = h.length ∧
      ∀ r, r ∉ rs → (forRefs f h rs).1[r]? = h[r]? := by
  induction rs generalizing h with
  | nil => exact ⟨rfl, fun _ _ => rfl⟩
  | cons s rs ih =>
    unfold forRefs
    split
    · exact ⟨rfl, fun _ _ => rfl⟩
    · rename_i F hF
      split
      · refine ⟨by simp, fun r hr => ?_⟩
        rw [List.getElem?_set_ne (fun h => hr (by simp [h]))]
      · rename_i F' a hf
        obtain ⟨h1, h2⟩ := ih (h.set s F')
        have : ∀ r, r ∉ s :: rs → (forRefs f (h.set s F') rs).1[r]? = h[r]? := by
          intro r hr
          rw [h2 r (fun h => hr (List.mem_cons_of_mem _ h)),
            List.getElem?_set_ne (fun h => hr (by simp [h]))]
        have hl : (forRefs f (h.set s F') rs).1.length = h.length := by rw [h1]; simp
        split <;> rename_i heq <;> rw [heq] at this hl <;> exact ⟨hl, this⟩

/-- A loop over distinct references that does not raise: every object is replaced by what the method
makes of it, and the returned values are those of the calls. -/
theorem forRefs_ok {α : Type} (f : FM N K → Res N K α) (rs : List Ref) (hn : rs.Nodup)
    (h h' : Heap N K) {out : List α} (hok : forRefs f h rs = (h', .ok out)) :
    out.length = rs.length ∧ ∀ i (hi : i < rs.length), ∃ F F' a, h[rs[i]]? = some F ∧
      f F = (F', .ok a) ∧ h'[rs[i]]? = some F' ∧ out[i]? = some a := by
  induction rs generalizing h out with
  | nil => unfold forRefs at hok; cases hok; exact ⟨rfl, fun i hi => absurd hi (by simp)⟩
  | cons s rs ih =>
    unfold forRefs at hok
    split at hok
    · cases hok
    · rename_i F hF
      split at hok
      · cases hok
      · rename_i F' a hf
        split at hok
        · cases hok
        · rename_i h1 as heq
          cases hok
          obtain ⟨hs, hn'⟩ := List.nodup_cons.mp hn
          obtain ⟨hl, hi⟩ := ih hn' _ heq
          refine ⟨by simp [hl], fun i hlt => ?_⟩
          have hslt : s < h.length := (List.getElem?_eq_some_iff.mp hF).1
          cases i with
          | zero =>
            refine ⟨F, F', a, hF, hf, ?_, rfl⟩
            have := (forRefs_frame f rs (h.set s F')).2 s hs
            rw [heq] at this
            simp only [List.getElem_cons_zero]
            rw [this]
            simp [hslt]
          | succ i =>
            obtain ⟨G, G', b, g1, g2, g3, g4⟩ := hi i (by simpa using hlt)
            refine ⟨G, G', b, ?_, g2, g3, by simpa using g4⟩
            have hne : s ≠ rs[i]'(by simpa using hlt) := fun h => hs (h ▸ List.getElem_mem _)
            rw [List.getElem?_set_ne hne] at g1
            simpa using g1

/-! ### Dictionaries -/

theorem dictSet_lookup {β : Type} (d : Dict Str β) (k k' : Str) (v : β) :
    (dictSet d k v).lookup k' = if k' = k then some v else d.lookup k' := by
  unfold dictSet
  split
  · rename_i hany
    induction d with
    | nil => simp at hany
    | cons x d ih =>
      obtain ⟨a, b⟩ := x
      by_cases hak : a = k
      · subst hak
        by_cases hk : k' = a
        · subst hk; simp
        · have : ∀ d : Dict Str β,
            List.lookup k' (d.map (fun x => if x.1 = a then (a, v) else x)) = d.lookup k' := by
            intro d
            induction d with
            | nil => rfl
            | cons y d ih =>
              obtain ⟨c, e⟩ := y
              by_cases hc : c = a
              · subst hc; simp [List.lookup_cons, beq_false_of_ne hk, ih]
              · simp only [List.map_cons, hc, if_false, List.lookup_cons, ih]
          simp [List.lookup_cons, beq_false_of_ne hk, hk, this]
      · have hd : d.any (fun x => x.1 == k) = true := by simpa [hak] using hany
        simp only [List.map_cons, hak, if_false, List.lookup_cons, ih hd]
        by_cases hk : k' = k
        · subst hk
          have : (k' == a) = false := by simpa using fun h => hak h.symm
          simp [this]
        · simp [hk]
  · rename_i hany
    have hnone : ∀ x ∈ d, x.1 ≠ k := by
      rintro ⟨a, b⟩ hx rfl
      exact hany (List.any_eq_true.mpr ⟨_, hx, by simp⟩)
    rw [List.lookup_append]
    by_cases hk : k' = k
    · subst hk
      have : d.lookup k' = none := by
        rw [List.lookup_eq_none_iff]
        intro p hp; simpa using fun h => hnone p hp h.symm
      simp [this]
    · simp [hk]
      have : List.lookup k' [(k, v)] = none := by simp [List.lookup_cons, beq_false_of_ne hk]
      rw [this]; simp

theorem mem_of_lookup {β : Type} {d : Dict Str β} {k : Str} {v : β} (h : d.lookup k = some v) :
    (k, v) ∈ d := by
  induction d with
  | nil => simp at h
  | cons x d ih =>
    obtain ⟨a, b⟩ := x
    rw [List.lookup_cons] at h
    split at h
    · rename_i heq
      simp only [beq_iff_eq] at heq
      subst heq
      cases h
      simp
    · exact List.mem_cons_of_mem _ (ih h)

theorem lookup_of_mem {β : Type} {d : Dict Str β} (hn : (d.map Prod.fst).Nodup) {k : Str} {v : β}
    (h : (k, v) ∈ d) : d.lookup k = some v := by
  induction d with
  | nil => simp at h
  | cons x d ih =>
    obtain ⟨a, b⟩ := x
    rw [List.map_cons, List.nodup_cons] at hn
    rcases List.mem_cons.mp h with heq | hm
    · cases heq; simp
    · have : (k == a) = false := by
        simp only [beq_eq_false_iff_ne, ne_eq]
        rintro rfl
        exact hn.1 (List.mem_map.mpr ⟨_, hm, rfl⟩)
      rw [List.lookup_cons, this]
      exact ih hn.2 hm

theorem dictSet_keys {β : Type} (d : Dict Str β) (k : Str) (v : β) :
    (dictSet d k v).map Prod.fst = if k ∈ d.map Prod.fst then d.map Prod.fst
      else d.map Prod.fst ++ [k] := by
  unfold dictSet
  have : (d.any (fun x => x.1 == k) = true) ↔ k ∈ d.map Prod.fst := by
    simp [List.any_eq_true]
  simp only [this]
  split
  · rw [List.map_map]
    apply List.map_congr_left
    intro x _
    simp only [Function.comp]
    split
    · rename_i h; exact h.symm
    · rfl
  · simp

theorem dictSet_keys_nodup {β : Type} {d : Dict Str β} (hn : (d.map Prod.fst).Nodup) (k : Str)
    (v : β) : ((dictSet d k v).map Prod.fst).Nodup := by
  rw [dictSet_keys]
  split
  · exact hn
  · rename_i h
    exact List.nodup_append.mpr ⟨hn, by simp, by
      intro a ha b hb; simp only [List.mem_singleton] at hb; subst hb; rintro rfl; exact h ha⟩

/-- References of a dictionary after an assignment of a reference that is new. -/
theorem dictSet_refs_nodup {d : Dict Str Ref} (hk : (d.map Prod.fst).Nodup)
    (hn : (d.map Prod.snd).Nodup) (k : Str) {v : Ref}
    (hv : ∀ k', d.lookup k' = some v → k' = k) : ((dictSet d k v).map Prod.snd).Nodup := by
  have hk' := dictSet_keys_nodup hk k v
  -- distinct keys, and the map from keys to references is injective
  have hinj : ∀ a b r, (dictSet d k v).lookup a = some r → (dictSet d k v).lookup b = some r →
      a = b := by
    intro a b r ha hb
    rw [dictSet_lookup] at ha hb
    have hd : ∀ a b r, d.lookup a = some r → d.lookup b = some r → a = b := by
      intro a b r ha hb
      have h1 := mem_of_lookup ha
      have h2 := mem_of_lookup hb
      obtain ⟨i, hi, e1⟩ := List.mem_iff_getElem.mp h1
      obtain ⟨j, hj, e2⟩ := List.mem_iff_getElem.mp h2
      have := (List.Nodup.getElem_inj_iff hn (i := i) (hi := by simpa) (j := j) (hj := by simpa)).mp
        (by simp [e1, e2])
      subst this
      rw [e1] at e2
      exact (Prod.mk.inj e2).1
    split at ha <;> split at hb
    · rename_i h1 h2; rw [h1, h2]
    · rename_i h1 h2; cases ha; exact absurd (hv b hb) h2
    · rename_i h1 h2; cases hb; exact absurd (hv a ha) h1
    · exact hd a b r ha hb
  rw [List.nodup_iff_injective_get]
  intro i j hij
  have hi : i.1 < (dictSet d k v).length := by simpa using i.2
  have hj : j.1 < (dictSet d k v).length := by simpa using j.2
  have e1 := lookup_of_mem hk' (k := (dictSet d k v)[i.1].1) (v := (dictSet d k v)[i.1].2)
    (List.getElem_mem hi)
  have e2 := lookup_of_mem hk' (k := (dictSet d k v)[j.1].1) (v := (dictSet d k v)[j.1].2)
    (List.getElem_mem hj)
  have hij' : (dictSet d k v)[i.1].2 = (dictSet d k v)[j.1].2 := by simpa using hij
  rw [hij'] at e1
  have := hinj _ _ _ e1 e2
  have := (List.Nodup.getElem_inj_iff hk' (i := i.1) (hi := by simpa) (j := j.1)
    (hj := by simpa)).mp (by simpa using this)
  exact Fin.ext this

end Seyfert.Fisher
