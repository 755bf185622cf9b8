import Verif.Lemmas.FisherPhases

/-! Lemmas on the histories of a run directory. -/

namespace Seyfert.FTask

open Resume (File)

variable {V : Type} {C : Comp V}

/-! ### Any history -/

/-- What holds in every history. -/
structure Inv (C : Comp V) (s : Sys V) : Prop where
  right : Right C s.disk
  jobs : ∀ j ∈ s.jobs, JobRight C j
  excl : Excl s
  after : After C s

theorem get_append_fresh {l : List (Job V)} {q : List Str} {i : Nat} {j : Job V} (h : (l ++ [fresh q])[i]? = some j) :
    l[i]? = some j ∨ j = fresh q := by
  rcases Nat.lt_or_ge i l.length with hl | hl
  · rw [List.getElem?_append_left hl] at h
    exact Or.inl h
  · rw [List.getElem?_append_right hl] at h
    exact Or.inr (List.mem_singleton.1 (List.mem_of_getElem? h))

theorem get_kill {l : List (Job V)} {i a : Nat} {j ja : Job V}
    (h : (l.set i { j with failed := true })[a]? = some ja) (hl : ja.failed = false) : l[a]? = some ja := by
  rcases get_set h with ⟨_, rfl⟩ | ⟨_, h'⟩
  · simp at hl
  · exact h'

theorem has_kill {s : Sys V} {k : Str} {i : Nat} {j : Job V} (h : Has s k) :
    Has ⟨s.disk, s.jobs.set i { j with failed := true }⟩ k := by
  rcases h with h | ⟨h0, h1⟩
  · exact Or.inl h
  · exact Or.inr ⟨h0, fun a ja t ha hl hs => h1 a ja t (get_kill ha hl) hl hs⟩

theorem has_fresh {s : Sys V} {k : Str} {q : List Str} (h : Has s k) : Has ⟨s.disk, s.jobs ++ [fresh q]⟩ k := by
  rcases h with h | ⟨h0, h1⟩
  · exact Or.inl h
  · refine Or.inr ⟨h0, fun a ja t ha hl hs => ?_⟩
    rcases get_append_fresh ha with ha | rfl
    · exact h1 a ja t ha hl hs
    · simp [fresh] at hs

theorem has_happens {s s' : Sys V} {k : Str} (he : Excl s) (hk : Has s k) (h : Happens C s s') : Has s' k := by
  cases h with
  | run h => exact has_run he hk h
  | kill i j hj => exact has_kill hk
  | start q => exact has_fresh hk

theorem inv_happens (hC : C.Local) {s s' : Sys V} (hs : Inv C s) (h : Happens C s s') : Inv C s' := by
  have hhas := fun k hk => has_happens (k := k) hs.excl hk h
  cases h with
  | run h =>
    refine ⟨?_, ?_, excl_run hs.excl h, after_run hs.excl hs.after h⟩ <;> cases h with
    | run i j j' d' hj hst =>
      have := does_right hC (step_does hst) hs.right (hs.jobs j (List.mem_of_getElem? hj))
      first
      | exact this.1
      | intro a ha
        obtain ⟨b, hb⟩ := List.getElem?_of_mem ha
        rcases get_set hb with ⟨_, rfl⟩ | ⟨_, hb'⟩
        · exact this.2
        · exact hs.jobs a (List.mem_of_getElem? hb')
  | kill i j hj =>
    refine ⟨hs.right, fun a ha => ?_, ⟨?_, ?_, ?_, ?_⟩, ⟨fun n k hk hf => hhas k (hs.after.files n k hk hf), ?_⟩⟩
    · obtain ⟨b, hb⟩ := List.getElem?_of_mem ha
      rcases get_set hb with ⟨_, rfl⟩ | ⟨_, hb'⟩
      · exact hs.jobs j (List.mem_of_getElem? hj)
      · exact hs.jobs a (List.mem_of_getElem? hb')
    · intro a ja t ha hl
      exact hs.excl.opened a ja t (get_kill ha hl) hl
    · intro a b ja jb t t' ha hb hla hlb
      exact hs.excl.one a b ja jb t t' (get_kill ha hla) (get_kill hb hlb) hla hlb
    · intro a ja v n r ha hl
      exact hs.excl.saving a ja v n r (get_kill ha hl) hl
    · intro a b ja jb v v' n r r' ha hb hla hlb
      exact hs.excl.single a b ja jb v v' n r r' (get_kill ha hla) (get_kill hb hlb) hla hlb
    · intro a ja n r k ha hl hq hk
      have := hs.after.jobs a ja n r k (get_kill ha hl) hl hq hk
      cases hst : ja.stage <;> rw [hst] at this
      · trivial
      · exact this
      · exact hhas k this
      · exact hhas k this
  | start q =>
    refine ⟨hs.right, fun a ha => ?_, ⟨?_, ?_, ?_, ?_⟩, ⟨fun n k hk hf => hhas k (hs.after.files n k hk hf), ?_⟩⟩
    · rcases List.mem_append.1 ha with ha | ha
      · exact hs.jobs a ha
      · rw [List.mem_singleton.1 ha]
        exact jobRight_idle C _ _
    · intro a ja t ha hl hstg
      rcases get_append_fresh ha with ha | rfl
      · exact hs.excl.opened a ja t ha hl hstg
      · simp [fresh] at hstg
    · intro a b ja jb t t' ha hb hla hlb hsa hsb
      rcases get_append_fresh ha with ha | rfl
      · rcases get_append_fresh hb with hb | rfl
        · exact hs.excl.one a b ja jb t t' ha hb hla hlb hsa hsb
        · simp [fresh] at hsb
      · simp [fresh] at hsa
    · intro a ja v n r ha hl hstg
      rcases get_append_fresh ha with ha | rfl
      · exact hs.excl.saving a ja v n r ha hl hstg
      · simp [fresh] at hstg
    · intro a b ja jb v v' n r r' ha hb hla hlb hsa hsb
      rcases get_append_fresh ha with ha | rfl
      · rcases get_append_fresh hb with hb | rfl
        · exact hs.excl.single a b ja jb v v' n r r' ha hb hla hlb hsa hsb
        · simp [fresh] at hsb
      · simp [fresh] at hsa
    · intro a ja n r k ha hl hq hk
      rcases get_append_fresh ha with ha | rfl
      · have := hs.after.jobs a ja n r k ha hl hq hk
        cases hst : ja.stage <;> rw [hst] at this
        · trivial
        · exact this
        · exact hhas k this
        · exact hhas k this
      · exact trivial

theorem inv_empty (C : Comp V) : Inv C (Sys.empty : Sys V) := by
  refine ⟨⟨by simp [Sys.empty], by simp [Sys.empty]⟩, by simp [Sys.empty], ⟨?_, ?_, ?_, ?_⟩, ⟨by simp [Sys.empty], ?_⟩⟩ <;>
    simp [Sys.empty]

theorem inv_history (hC : C.Local) {s s' : Sys V} (hs : Inv C s) (h : Relation.ReflTransGen (Happens C) s s') : Inv C s' := by
  induction h with
  | refl => exact hs
  | tail _ h ih => exact inv_happens hC ih h

/-! ### The task -/

theorem cross_flatten (C : Comp V) (m : Mode) : (crossJobs C m).flatten = C.cross := by
  cases m
  · simp [crossJobs]
  · rw [crossJobs]
    induction C.cross with
    | nil => rfl
    | cons a l ih => simp [ih]

theorem no_phase {d d' : Disk V} {ok : Bool} (h : Phase C d [] d' ok) : d' = d ∧ ok = true := by
  obtain ⟨js, ⟨h1, h2⟩, _, rfl⟩ := phase_rule (I := fun s => s.jobs = [] ∧ s.disk = d)
    (fun s s' hI hr => by
      cases hr with
      | run i j j' d1 hj _ => simp [hI.1] at hj) ⟨rfl, rfl⟩ h
  simp only at h1 h2
  subst h1
  exact ⟨h2, rfl⟩

/-- The first phase, when no auto-correlation has a Fisher matrix without a table: left out in a batch run when the
tables are there, which is the same if all their Fisher matrices are. -/
theorem first_phase (hC : C.WF) {m : Mode} {d d1 : Disk V} {ok : Bool} (hr : d.autos ≠ some .unreadable)
    (hm : m = .interactive ∨ d.autos = none ∨ ∀ a ∈ C.autos, (d.fishers.lookup a).isSome)
    (h : Phase C d (autoJobs C m d) d1 ok) : ok = true ∧ d1.autos = autosAfter C d C.autos ∧
      ∀ n, d1.fishers.lookup n = if n ∈ C.autos then after C d n else d.fishers.lookup n := by
  unfold autoJobs at h
  split at h
  · rename_i hb
    have hall : ∀ a ∈ C.autos, (d.fishers.lookup a).isSome := by
      rcases hm with rfl | hm | hm
      · simp at hb
      · simp [hm] at hb
      · exact hm
    obtain ⟨rfl, rfl⟩ := no_phase h
    refine ⟨rfl, ?_, fun n => ?_⟩
    · have : ∀ l : List Str, (∀ a ∈ l, (d1.fishers.lookup a).isSome) → autosAfter C d1 l = d1.autos := by
        intro l
        induction l using List.reverseRecOn with
        | nil => exact fun _ => rfl
        | append_singleton l a ih =>
          intro hl
          rw [autosAfter_snoc, ih fun b hb => hl b (List.mem_append_left _ hb)]
          unfold addTable
          rw [if_pos (hl a (by simp))]
      exact (this _ hall).symm
    · split
      · rename_i hn
        rw [after_some (hall n hn)]
      · rfl
  · exact auto_phase hr hC.autos (List.nodup_append.1 hC.nodup).1 h

theorem autos_serve (hC : C.WF) {d : Disk V} (hr : d.autos ≠ some .unreadable) (hd : Right C d) (ht : Tables C d) :
    ∃ t, autosAfter C d C.autos = some (.full t) ∧ Serves C t C.cross ∧
      (∀ a ∈ C.autos, ∀ k, C.single a = some k → t.lookup k = some (C.table k)) := by
  have hright : ∀ k v, (tabs d.autos).lookup k = some v → v = C.table k := by
    intro k v hv
    match hda : d.autos, hv with
    | none, hv => simp [tabs] at hv
    | some .unreadable, hv => simp [tabs] at hv
    | some (.full t), hv => exact hd.autos t k v hda hv
  have hkeys : ∀ a ∈ C.autos, ∀ k, C.single a = some k →
      (tabs (autosAfter C d C.autos)).lookup k = some (C.table k) := by
    intro a ha k hk
    by_cases hex : ∃ b ∈ C.autos, d.fishers.lookup b = none ∧ C.single b = some k
    · exact (autosAfter_lookup hr C.autos k).1 hex
    · rw [(autosAfter_lookup hr C.autos k).2 hex]
      have hs : (d.fishers.lookup a).isSome := by
        by_contra hn
        exact hex ⟨a, ha, Option.not_isSome_iff_eq_none.1 hn, hk⟩
      obtain ⟨t, h1, h2⟩ := ht a k hk hs
      rw [h1, tabs]
      obtain ⟨v, hv⟩ := Option.isSome_iff_exists.1 h2
      rw [hv, hd.autos t k v h1 hv]
  have hr' := autosAfter_readable (C := C) hr C.autos
  have hlen : 3 ≤ (tabs (autosAfter C d C.autos)).length := by
    have hnd : (C.autos.filterMap C.single).Nodup := by
      have : C.autos.map C.single = (C.autos.filterMap C.single).map some := by
        have hA := hC.autos
        revert hA
        generalize C.autos = l
        intro hA
        induction l with
        | nil => rfl
        | cons a l ih =>
          obtain ⟨k, hk⟩ := Option.isSome_iff_exists.1 (hA a (by simp))
          simp [hk, ih fun b hb => hA b (List.mem_cons_of_mem _ hb)]
      have hd' := hC.distinct
      rw [this] at hd'
      exact hd'.of_map _
    have hl : (C.autos.filterMap C.single).length = C.autos.length := by
      have hA := hC.autos
      revert hA
      generalize C.autos = l
      intro hA
      induction l with
      | nil => rfl
      | cons a l ih =>
        obtain ⟨k, hk⟩ := Option.isSome_iff_exists.1 (hA a (by simp))
        simp [hk, ih fun b hb => hA b (List.mem_cons_of_mem _ hb)]
    have hsub : C.autos.filterMap C.single ⊆ (tabs (autosAfter C d C.autos)).map (·.1) := by
      intro k hk
      obtain ⟨a, ha, hk⟩ := List.mem_filterMap.1 hk
      rw [← PyDict.lookup_isSome_iff, hkeys a ha k hk]
      rfl
    have := (List.Nodup.subperm hnd hsub).length_le
    rw [hl, List.length_map] at this
    exact le_trans hC.three this
  match hau : autosAfter C d C.autos with
  | none => simp [hau, tabs] at hlen
  | some .unreadable => exact absurd hau hr'
  | some (.full t) =>
    rw [hau] at hkeys hlen
    refine ⟨t, rfl, ⟨hlen, fun k v hv => ?_, hC.cross, fun n hn p hp => ?_⟩, hkeys⟩
    · by_cases hex : ∃ b ∈ C.autos, d.fishers.lookup b = none ∧ C.single b = some k
      · have := (autosAfter_lookup hr C.autos k).1 hex
        rw [hau, tabs] at this
        rw [this] at hv
        exact (Option.some.inj hv).symm
      · have := (autosAfter_lookup hr C.autos k).2 hex
        rw [hau, tabs] at this
        rw [this] at hv
        exact hright k v hv
    · obtain ⟨a, ha, hk⟩ := hC.probes n hn p hp
      have := hkeys a ha p hk
      rw [tabs] at this
      rw [this]
      rfl

end Seyfert.FTask
