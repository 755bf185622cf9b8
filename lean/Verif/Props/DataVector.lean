import Verif.Lemmas.DataVector

/-!
Properties C07 and C08: data vectors (`seyfert/fisher/datavector.py`).
-/

namespace Seyfert.DataVector
open Seyfert.Keys

/-- Specification: the data vector lists exactly these probe pairs, in this order. -/
def Lists (v : DV) (pairs : List (Probe × Probe)) : Prop :=
  v.entries.mapM (toRawKey · .alias) = .ok (pairs.map fun p => written .alias p.1 p.2)

theorem lists_dvOf (L : List Pair) : Lists (dvOf L) (L.map fun p => p.2) := by
  unfold Lists dvOf
  simp only
  rw [toRaws]
  simp [rawsOf, inKind]

theorem lists_unique (v : DV) (l l' : List (Probe × Probe)) (h : Lists v l) (h' : Lists v l') :
    l = l' := by
  unfold Lists at h h'
  rw [h] at h'
  have h' := Except.ok.inj h'
  refine List.map_injective_iff.mpr ?_ h'
  intro p q hpq
  obtain ⟨_, h1, h2⟩ := written_inj _ _ _ _ _ _ hpq
  exact Prod.ext h1 h2

/-- C07: every list of well written keys, in any mix of notations, makes a data vector that lists the
same pairs in the same order; the involved probes are those of the listed auto-correlations. -/
theorem dv_built (L : List Pair) :
    ∃ v, ctorDV (L.map fun p => written p.1 p.2.1 p.2.2) = .ok v ∧ Lists v (L.map fun p => p.2) ∧
      ∀ s, s ∈ v.involved ↔ ∃ a, (a, a) ∈ (L.map fun p => p.2) ∧ s = a.name .alias := by
  refine ⟨dvOf L, ctorDV_rawsOf L, lists_dvOf L, ?_⟩
  intro s
  have : ∀ acc, s ∈ (L.foldl (fun acc p => if p.2.1 = p.2.2 then
      (if p.2.1.name .alias ∈ acc then acc else acc ++ [p.2.1.name .alias]) else acc) acc) ↔
      s ∈ acc ∨ ∃ a, (a, a) ∈ (L.map fun p => p.2) ∧ s = a.name .alias := by
    induction L with
    | nil => intro acc; simp
    | cons p L ih =>
      intro acc
      rw [List.foldl_cons, ih]
      obtain ⟨k, a, b⟩ := p
      simp only [List.map_cons, List.mem_cons, Prod.mk.injEq]
      by_cases hab : a = b
      · subst hab
        by_cases hm : a.name .alias ∈ acc
        · simp only [if_true, hm]
          constructor
          · rintro (h | ⟨c, h, rfl⟩)
            · exact .inl h
            · exact .inr ⟨c, .inr h, rfl⟩
          · rintro (h | ⟨c, ⟨rfl, _⟩ | h, rfl⟩)
            · exact .inl h
            · exact .inl hm
            · exact .inr ⟨c, h, rfl⟩
        · simp only [if_true, hm, if_false, List.mem_append, List.mem_singleton]
          constructor
          · rintro ((h | rfl) | ⟨c, h, rfl⟩)
            · exact .inl h
            · exact .inr ⟨a, .inl ⟨rfl, rfl⟩, rfl⟩
            · exact .inr ⟨c, .inr h, rfl⟩
          · rintro (h | ⟨c, ⟨rfl, _⟩ | h, rfl⟩)
            · exact .inl (.inl h)
            · exact .inl (.inr rfl)
            · exact .inr ⟨c, h, rfl⟩
      · simp only [hab, if_false]
        constructor
        · rintro (h | ⟨c, h, rfl⟩)
          · exact .inl h
          · exact .inr ⟨c, .inr h, rfl⟩
        · rintro (h | ⟨c, ⟨rfl, h⟩ | h, rfl⟩)
          · exact .inl h
          · exact absurd h hab
          · exact .inr ⟨c, h, rfl⟩
  exact (this []).trans (by simp)

/-- C07: a nonempty data vector is rebuilt from its own name. -/
theorem dv_name_round_trip_partial (L : List Pair) (hL : L ≠ []) :
    ∃ v w, ctorDV (L.map fun p => written p.1 p.2.1 p.2.2) = .ok v ∧ fromName v.name = .ok w ∧
      Lists w (L.map fun p => p.2) ∧ w.name = v.name := by
  refine ⟨dvOf L, dvOf (inKind .alias L), ctorDV_rawsOf L, ?_, ?_, ?_⟩
  · have h0 : removeChar ']' (removeChar '[' (nameOf L)) = joinStr "+".toList (namesOf L) := by
      have hne : ∀ c, (c = '[' ∨ c = ']') → c ∉ joinStr "+".toList (namesOf L) := by
        intro c hc h
        rcases mem_joinStr _ _ _ h with h | ⟨p, hp, h⟩
        · rcases hc with rfl | rfl <;> revert h <;> decide +kernel
        · simp only [namesOf, List.mem_map] at hp
          obtain ⟨q, _, rfl⟩ := hp
          have := label_chars _ _ _ h
          rcases hc with rfl | rfl
          · exact this.2.1 rfl
          · exact this.2.2.1 rfl
      unfold nameOf
      simp only [removeChar_append]
      rw [removeChar_self '[' _ (hne _ (.inl rfl)), removeChar_self ']' _ (hne _ (.inr rfl))]
      have e1 : removeChar ']' (removeChar '[' "[".toList) = [] := by decide +kernel
      have e2 : removeChar ']' (removeChar '[' "]".toList) = [] := by decide +kernel
      rw [e1, e2, List.append_nil, List.nil_append]
    have h1 : splitChar '+' (joinStr "+".toList (namesOf L)) = namesOf L := by
      refine splitChar_join '+' (namesOf L) ?_ ?_
      · simpa [namesOf] using hL
      · intro p hp h
        simp only [namesOf, List.mem_map] at hp
        obtain ⟨q, _, rfl⟩ := hp
        exact (label_chars _ _ _ h).1 rfl
    have h2 : (namesOf L).mapM fromFisherStringRepr = .ok (keysOf (inKind .alias L)) := by
      clear h0 h1 hL
      induction L with
      | nil => rfl
      | cons p L ih =>
        unfold namesOf keysOf inKind at *
        rw [List.map_cons, List.map_cons, List.map_cons, List.mapM_cons, ih,
          fromFisherStringRepr_label]
        rfl
    unfold fromName
    simp only [dvOf, h0, h1, h2]
    exact ofKeys_keysOf _
  · have := lists_dvOf (inKind .alias L)
    rw [inKind, List.map_map] at this
    exact this
  · simp [dvOf, nameOf, namesOf_inKind]

/-- C07 fails for the empty data vector: its own name is refused. -/
theorem dv_name_round_trip_false :
    ∃ v, ctorDV [] = .ok v ∧ ∀ w, fromName v.name ≠ .ok w := by
  refine ⟨dvOf [], ctorDV_rawsOf [], ?_⟩
  have : fromName (dvOf []).name = .error .exception := by decide +kernel
  intro w h
  rw [this] at h
  exact absurd h (by simp)

/-- C07: a nonempty data vector is rebuilt from its brief string. -/
theorem dv_brief_round_trip_partial (L : List Pair) (hL : L ≠ []) :
    ∃ v s w, ctorDV (L.map fun p => written p.1 p.2.1 p.2.2) = .ok v ∧ toBriefString v = .ok s ∧
      fromBriefString s = .ok w ∧ Lists w (L.map fun p => p.2) ∧ w.name = v.name := by
  refine ⟨dvOf L, _, dvOf (inKind .alias L), ctorDV_rawsOf L, toBrief L, ?_, ?_, ?_⟩
  · unfold fromBriefString
    have h1 : splitChar '_' (joinStr "_".toList (L.map shortText)) = L.map shortText := by
      refine splitChar_join '_' _ (by simpa using hL) ?_
      intro p hp
      simp only [List.mem_map] at hp
      obtain ⟨q, _, rfl⟩ := hp
      exact short_chars q
    rw [h1, tupleRaws]
    exact ctorDV_rawsOf _
  · have := lists_dvOf (inKind .alias L)
    rw [inKind, List.map_map] at this
    exact this
  · simp [dvOf, nameOf, namesOf_inKind]

/-- C07: every data vector, also the empty one, is rebuilt from its full string. -/
theorem dv_string_round_trip (L : List Pair) :
    ∃ v s w, ctorDV (L.map fun p => written p.1 p.2.1 p.2.2) = .ok v ∧ dvToString v = .ok s ∧
      fromString s = .ok w ∧ Lists w (L.map fun p => p.2) ∧ w.name = v.name := by
  refine ⟨dvOf L, _, dvOf (inKind .alias L), ctorDV_rawsOf L, toStr L, ?_, ?_, ?_⟩
  · unfold fromString
    have e : nameOf L ++ ": ".toList ++ "[".toList ++
        joinStr ", ".toList (L.map fun p => "'".toList ++ shortText p ++ "'".toList) ++ "]".toList =
        nameOf L ++ ':' :: (' ' :: '[' ::
          (joinStr ", ".toList (L.map fun p => "'".toList ++ shortText p ++ "'".toList) ++ "]".toList)) := by
      simp
    have hno : ':' ∉ ' ' :: '[' ::
        (joinStr ", ".toList (L.map fun p => "'".toList ++ shortText p ++ "'".toList) ++ "]".toList) := by
      intro h
      simp only [List.mem_cons] at h
      rcases h with h | h | h
      · revert h; decide
      · revert h; decide
      · rcases List.mem_append.mp h with h | h
        · rcases mem_joinStr _ _ _ h with h | ⟨p, hp, h⟩
          · revert h; decide +kernel
          · simp only [List.mem_map] at hp
            obtain ⟨q, _, rfl⟩ := hp
            rcases List.mem_append.mp h with h | h
            · rcases List.mem_append.mp h with h | h
              · revert h; decide +kernel
              · exact short_no_colon q h
            · revert h; decide +kernel
        · revert h; decide +kernel
    rw [e, splitChar_append _ _ _ (nameOf_chars L), splitChar_no_sep _ _ hno]
    simp only
    rw [findall4_skip _ _ (by decide), findall4_skip _ _ (by decide), findall4_list, tupleRaws]
    exact ctorDV_rawsOf _
  · have := lists_dvOf (inKind .alias L)
    rw [inKind, List.map_map] at this
    exact this
  · simp [dvOf, nameOf, namesOf_inKind]

/-- C07: data vectors with the same name list the same pairs in the same order. -/
theorem dv_name_injective (L L' : List Pair) (v v' : DV)
    (h : ctorDV (L.map fun p => written p.1 p.2.1 p.2.2) = .ok v)
    (h' : ctorDV (L'.map fun p => written p.1 p.2.1 p.2.2) = .ok v') (hn : v.name = v'.name) :
    L.map (fun p => p.2) = L'.map (fun p => p.2) := by
  have hv : v = dvOf L := by
    have := ctorDV_rawsOf L
    unfold rawsOf at this
    rw [this] at h
    exact (Except.ok.inj h).symm
  have hv' : v' = dvOf L' := by
    have := ctorDV_rawsOf L'
    unfold rawsOf at this
    rw [this] at h'
    exact (Except.ok.inj h').symm
  subst hv hv'
  have empty : ∀ M : List Pair, nameOf [] = nameOf M → M = [] := by
    intro M hM
    cases M with
    | nil => rfl
    | cons p M =>
      exfalso
      have hl := congrArg List.length hM
      have : 0 < (joinStr "+".toList (namesOf (p :: M))).length := by
        have h0 := label_ne_nil p.2.1 p.2.2
        have h0 : 0 < (label p.2.1 p.2.2).length := List.length_pos_iff.mpr h0
        cases M with
        | nil => exact h0
        | cons q M =>
          unfold namesOf
          rw [List.map_cons, List.map_cons, joinStr_cons_cons, List.length_append, List.length_append]
          omega
      unfold nameOf at hl
      simp only [List.length_append] at hl
      have e : (joinStr "+".toList (namesOf [])).length = 0 := rfl
      omega
  by_cases hL : L = []
  · subst hL
    rw [empty L' hn]
  · by_cases hL' : L' = []
    · subst hL'
      rw [empty L hn.symm]
    · obtain ⟨v1, w1, a1, b1, c1, _⟩ := dv_name_round_trip_partial L hL
      obtain ⟨v2, w2, a2, b2, c2, _⟩ := dv_name_round_trip_partial L' hL'
      have e1 : v1 = dvOf L := Except.ok.inj (a1.symm.trans (ctorDV_rawsOf L))
      have e2 : v2 = dvOf L' := Except.ok.inj (a2.symm.trans (ctorDV_rawsOf L'))
      subst e1 e2
      rw [hn, b2] at b1
      obtain rfl := Except.ok.inj b1
      exact lists_unique _ _ _ c1 c2

example : (dvOf [(.short, .lensing, .lensing), (.alias, .lensing, .photo)]).name =
    "[WL+XC(WL,GCph)]".toList := by decide +kernel
example : dvToString (dvOf [(.alias, .lensing, .lensing), (.alias, .lensing, .photo)]) =
    .ok "[WL+XC(WL,GCph)]: ['wlwl', 'wlph']".toList := by decide +kernel

/-! ### C08 -/

/-- C08 is false: a data vector compares equal to any longer one that begins with the same
correlations; in particular the empty one compares equal to every data vector. -/
theorem dv_equality_false :
    ∃ L L' v w, ctorDV (List.map (fun p : Pair => written p.1 p.2.1 p.2.2) L) = .ok v ∧
      ctorDV (List.map (fun p : Pair => written p.1 p.2.1 p.2.2) L') = .ok w ∧
      eqDV v w = .ok true ∧ L.map (fun p => p.2) ≠ L'.map (fun p => p.2) :=
  ⟨[(.alias, .lensing, .lensing)], [(.alias, .lensing, .lensing), (.alias, .photo, .photo)],
    _, _, ctorDV_rawsOf _, ctorDV_rawsOf _, by decide +kernel, by decide +kernel⟩

/-- C08, what the comparison does: it answers true exactly when the two lists of pairs agree up to the
length of the shorter one. -/
theorem dv_equality_prefix_partial (L L' : List Pair) :
    ∃ v w, ctorDV (L.map fun p => written p.1 p.2.1 p.2.2) = .ok v ∧
      ctorDV (L'.map fun p => written p.1 p.2.1 p.2.2) = .ok w ∧
      ∃ r, eqDV v w = .ok r ∧ (r = true ↔
        (L.map fun p => p.2) <+: (L'.map fun p => p.2) ∨
        (L'.map fun p => p.2) <+: (L.map fun p => p.2)) := by
  refine ⟨_, _, ctorDV_rawsOf L, ctorDV_rawsOf L', ?_⟩
  unfold eqDV dvOf
  simp only
  induction L generalizing L' with
  | nil => exact ⟨true, rfl, by simp⟩
  | cons p L ih =>
    cases L' with
    | nil => exact ⟨true, rfl, by simp⟩
    | cons q L' =>
      unfold keysOf at *
      simp only [List.map_cons, eqEntries, keyEq_mkKey]
      by_cases h : p.2.1 = q.2.1 ∧ p.2.2 = q.2.2
      · simp only [h, and_self, decide_true]
        obtain ⟨r, h1, h2⟩ := ih L'
        refine ⟨r, h1, h2.trans ?_⟩
        have e : p.2 = q.2 := Prod.ext h.1 h.2
        simp [List.cons_prefix_cons, e]
      · simp only [h, decide_false]
        refine ⟨false, rfl, ?_⟩
        have e : p.2 ≠ q.2 := fun e => h ⟨congrArg Prod.fst e, congrArg Prod.snd e⟩
        simp [List.cons_prefix_cons, e, Ne.symm e]

/-- C08 for data vectors of the same length: equal exactly when they list the same pairs in the same
order. Missing: vectors of different lengths. -/
theorem dv_equality_partial (L L' : List Pair) (hlen : L.length = L'.length) :
    ∃ v w, ctorDV (L.map fun p => written p.1 p.2.1 p.2.2) = .ok v ∧
      ctorDV (L'.map fun p => written p.1 p.2.1 p.2.2) = .ok w ∧
      (eqDV v w = .ok true ↔ (L.map fun p => p.2) = (L'.map fun p => p.2)) := by
  obtain ⟨v, w, hv, hw, r, hr, h⟩ := dv_equality_prefix_partial L L'
  refine ⟨v, w, hv, hw, ?_⟩
  rw [hr, Except.ok.injEq, h]
  constructor
  · rintro (h | h)
    · exact h.eq_of_length (by simpa using hlen)
    · exact (h.eq_of_length (by simpa using hlen.symm)).symm
  · intro h
    rw [h]
    exact .inl (List.prefix_refl _)

end Seyfert.DataVector
