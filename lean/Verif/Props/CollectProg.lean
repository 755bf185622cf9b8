import Verif.Spec.CollectProg
import Verif.Lemmas.PyDict
import Verif.Props.Collector

/-! C150: what the program which collects results leaves behind. -/

namespace Seyfert.CProg
open Collector (Run Frame buildErrorsTable)

variable {P : Type}

/-- The key whose directory a change is in. -/
def keyOf : Act P → Key
  | .mkdir k => k
  | .marg k _ => k
  | .rel k _ => k
  | .pick k _ => k

theorem apply_other (t : Tree P) (a : Act P) (k : Key) (h : keyOf a ≠ k) : (apply t a).lookup k = t.lookup k := by
  cases a with
  | mkdir k' =>
    unfold apply
    dsimp only
    split
    · rfl
    · rw [PyDict.lookup_set, if_neg (fun e => h e.symm)]
  | marg k' f => unfold apply; dsimp only; rw [PyDict.lookup_modify, if_neg (fun e => h e.symm)]
  | rel k' f => unfold apply; dsimp only; rw [PyDict.lookup_modify, if_neg (fun e => h e.symm)]
  | pick k' f => unfold apply; dsimp only; rw [PyDict.lookup_modify, if_neg (fun e => h e.symm)]

theorem foldl_other (l : List (Act P)) (t : Tree P) (k : Key) (h : ∀ a ∈ l, keyOf a ≠ k) :
    (l.foldl apply t).lookup k = t.lookup k := by
  induction l generalizing t with
  | nil => rfl
  | cons a l ih =>
    rw [List.foldl_cons, ih _ fun b hb => h b (List.mem_cons_of_mem _ hb), apply_other _ _ _ (h a List.mem_cons_self)]

theorem lookup_mkdir (t : Tree P) (k : Key) : (apply t (.mkdir k)).lookup k = some ((t.lookup k).getD ⟨none, none, none⟩) := by
  unfold apply
  dsimp only
  cases e : t.lookup k with
  | none => rw [if_neg (by simp), PyDict.lookup_set, if_pos rfl]; rfl
  | some o => rw [if_pos (by rfl), e]; rfl

theorem lookup_marg (t : Tree P) (k : Key) (f : Frame) :
    (apply t (.marg k f)).lookup k = (t.lookup k).map fun o => { o with marg := some f } := by
  unfold apply
  dsimp only
  rw [PyDict.lookup_modify, if_pos rfl]

theorem lookup_rel (t : Tree P) (k : Key) (f : Frame) :
    (apply t (.rel k f)).lookup k = (t.lookup k).map fun o => { o with rel := some f } := by
  unfold apply
  dsimp only
  rw [PyDict.lookup_modify, if_pos rfl]

theorem lookup_pick (t : Tree P) (k : Key) (p : P) :
    (apply t (.pick k p)).lookup k = (t.lookup k).map fun o => { o with pick := some p } := by
  unfold apply
  dsimp only
  rw [PyDict.lookup_modify, if_pos rfl]

theorem dump_keys (src : Key → List Run) (an : Key → Option P) (k : Key) : ∀ a ∈ (dump src an k).1, keyOf a = k := by
  unfold dump
  intro a ha
  split at ha
  · rcases List.mem_singleton.1 ha with rfl; rfl
  split at ha
  · rcases List.mem_singleton.1 ha with rfl; rfl
  split at ha
  · simp only [List.mem_cons, List.not_mem_nil, or_false] at ha
    rcases ha with rfl | rfl | rfl <;> rfl
  · simp only [List.mem_cons, List.not_mem_nil, or_false] at ha
    rcases ha with rfl | rfl | rfl | rfl <;> rfl

theorem dump_ok (src : Key → List Run) (an : Key → Option P) (k : Key) : (dump src an k).2 = none ↔ Able src an k := by
  unfold dump Able
  cases e1 : buildErrorsTable "marginalized_errors".toList (src k) with
  | error e => exact ⟨nofun, fun ⟨⟨_, h⟩, _⟩ => nomatch h⟩
  | ok m =>
    dsimp only
    cases e2 : buildErrorsTable "relative_marginalized_errors".toList (src k) with
    | error e => exact ⟨nofun, fun ⟨_, ⟨_, h⟩, _⟩ => nomatch h⟩
    | ok r =>
      dsimp only
      cases e3 : an k with
      | none => exact ⟨nofun, fun ⟨_, _, ⟨_, h⟩⟩ => nomatch h⟩
      | some p => exact ⟨fun _ => ⟨⟨_, rfl⟩, ⟨_, rfl⟩, ⟨_, rfl⟩⟩, fun _ => rfl⟩

theorem dump_good {src : Key → List Run} {an : Key → Option P} {k : Key} (h : (dump src an k).2 = none) (t : Tree P) :
    Good src an k (((dump src an k).1.foldl apply t).lookup k) := by
  unfold dump at h ⊢
  cases e1 : buildErrorsTable "marginalized_errors".toList (src k) with
  | error e => rw [e1] at h; cases h
  | ok m =>
    rw [e1] at h
    dsimp only at h ⊢
    cases e2 : buildErrorsTable "relative_marginalized_errors".toList (src k) with
    | error e => rw [e2] at h; cases h
    | ok r =>
      rw [e2] at h
      dsimp only at h ⊢
      cases e3 : an k with
      | none => rw [e3] at h; cases h
      | some p =>
        refine ⟨m, r, p, e1, e2, e3, ?_⟩
        dsimp only [List.foldl]
        rw [lookup_pick, lookup_rel, lookup_marg, lookup_mkdir]
        rfl

/-- After any number of the changes for a key its directory is on the way. -/
theorem dump_way (src : Key → List Run) (an : Key → Option P) (k : Key) (n : Nat) (t : Tree P) :
    Way src an k (t.lookup k) ((((dump src an k).1.take n).foldl apply t).lookup k) := by
  have hmade : Way src an k (t.lookup k) ((apply t (.mkdir k)).lookup k) := by rw [lookup_mkdir]; exact .made
  unfold dump
  cases e1 : buildErrorsTable "marginalized_errors".toList (src k) with
  | error e =>
    rcases n with _ | n
    · exact .same
    · dsimp only [List.take, List.foldl]; rw [List.take_nil]; exact hmade
  | ok m =>
    dsimp only
    cases e2 : buildErrorsTable "relative_marginalized_errors".toList (src k) with
    | error e =>
      rcases n with _ | n
      · exact .same
      · dsimp only [List.take, List.foldl]; rw [List.take_nil]; exact hmade
    | ok r =>
      dsimp only
      have w1 : Way src an k (t.lookup k) ((apply (apply t (.mkdir k)) (.marg k m)).lookup k) := by
        rw [lookup_marg, lookup_mkdir]
        have := Way.first (an := an) (old := t.lookup k) m e1
        cases h : t.lookup k with
        | none => rw [h] at this; exact this
        | some o => rw [h] at this; exact this
      have w2 : Way src an k (t.lookup k) ((apply (apply (apply t (.mkdir k)) (.marg k m)) (.rel k r)).lookup k) := by
        rw [lookup_rel, lookup_marg, lookup_mkdir]
        have := Way.tables (an := an) (old := t.lookup k) m r e1 e2
        cases h : t.lookup k with
        | none => rw [h] at this; exact this
        | some o => rw [h] at this; exact this
      cases e3 : an k with
      | none =>
        rcases n with _ | _ | _ | n
        · exact .same
        · exact hmade
        · exact w1
        · dsimp only [List.take, List.foldl]; rw [List.take_nil]; exact w2
      | some p =>
        rcases n with _ | _ | _ | _ | n
        · exact .same
        · exact hmade
        · exact w1
        · exact w2
        · dsimp only [List.take, List.foldl]
          rw [List.take_nil]
          refine .all _ ⟨m, r, p, e1, e2, e3, ?_⟩
          dsimp only [List.foldl]
          rw [lookup_pick, lookup_rel, lookup_marg, lookup_mkdir]
          rfl

theorem collect_keys (src : Key → List Run) (an : Key → Option P) (ks : List Key) :
    ∀ a ∈ (collect src an ks).1, keyOf a ∈ ks := by
  induction ks with
  | nil => nofun
  | cons k ks ih =>
    unfold collect
    have hd := dump_keys src an k
    split
    · rename_i l e h
      rw [h] at hd
      intro a ha
      rw [hd a ha]
      exact List.mem_cons_self
    · rename_i l h
      rw [h] at hd
      intro a ha
      rcases List.mem_append.1 ha with ha | ha
      · rw [hd a ha]; exact List.mem_cons_self
      · exact List.mem_cons_of_mem _ (ih a ha)

/-- The state after any number of changes: the directories before some point of the list are good, at that point one is on the
way, all others are as they were. -/
theorem collect_way (src : Key → List Run) (an : Key → Option P) (ks : List Key) (hn : ks.Nodup) (n : Nat) (t : Tree P) :
    ∃ done rest, ks = done ++ rest ∧
      (∀ k ∈ done, Good src an k ((((collect src an ks).1.take n).foldl apply t).lookup k)) ∧
      (∀ k ∈ rest.head?, Way src an k (t.lookup k) ((((collect src an ks).1.take n).foldl apply t).lookup k)) ∧
      ∀ k, k ∉ done → k ∉ rest.head? → (((collect src an ks).1.take n).foldl apply t).lookup k = t.lookup k := by
  induction ks generalizing n t with
  | nil =>
    refine ⟨[], [], rfl, nofun, nofun, fun k _ _ => ?_⟩
    show (List.foldl apply t (List.take n [])).lookup k = _
    rw [List.take_nil]; rfl
  | cons k ks ih =>
    rw [List.nodup_cons] at hn
    have hd := dump_keys src an k
    have hw := dump_way src an k
    have hg := dump_good (src := src) (an := an) (k := k)
    unfold collect
    split
    · rename_i l e h
      rw [h] at hd hw
      dsimp only at hd hw ⊢
      refine ⟨[], k :: ks, rfl, nofun, ?_, ?_⟩
      · intro k' hk'
        cases hk'
        exact hw n t
      · intro k' _ hk'
        refine foldl_other _ _ _ fun a ha e => hk' ?_
        rw [← e, hd a (List.mem_of_mem_take ha)]
        rfl
    · rename_i l h
      rw [h] at hd hw hg
      dsimp only at hd hw hg ⊢
      by_cases hl : n ≤ l.length
      · rw [List.take_append_of_le_length hl]
        refine ⟨[], k :: ks, rfl, nofun, ?_, ?_⟩
        · intro k' hk'
          cases hk'
          exact hw n t
        · intro k' _ hk'
          refine foldl_other _ _ _ fun a ha e => hk' ?_
          rw [← e, hd a (List.mem_of_mem_take ha)]
          rfl
      · have e : (l ++ (collect src an ks).1).take n = l ++ ((collect src an ks).1).take (n - l.length) := by
          rw [List.take_append, List.take_of_length_le (by omega)]
        rw [e, List.foldl_append]
        obtain ⟨done, rest, h1, h2, h3, h4⟩ := ih hn.2 (n - l.length) (l.foldl apply t)
        have other : ∀ k' ∈ ks, (l.foldl apply t).lookup k' = t.lookup k' := by
          intro k' hk'
          refine foldl_other _ _ _ fun a ha e => ?_
          rw [hd a ha] at e
          exact hn.1 (e ▸ hk')
        have mem : ∀ k', k' ∈ rest.head? → k' ∈ ks := by
          intro k' hk'
          rw [h1]
          cases rest with
          | nil => cases hk'
          | cons x rest => cases hk'; exact List.mem_append_right _ List.mem_cons_self
        have hk1 : k ∉ done := fun hc => hn.1 (by rw [h1]; exact List.mem_append_left _ hc)
        have hk2 : k ∉ rest.head? := fun hc => hn.1 (mem k hc)
        refine ⟨k :: done, rest, by rw [h1]; rfl, ?_, ?_, ?_⟩
        · intro k' hk'
          rcases List.mem_cons.1 hk' with rfl | hk'
          · rw [h4 k' hk1 hk2]
            exact hg rfl t
          · exact h2 k' hk'
        · intro k' hk'
          have := h3 k' hk'
          rwa [other k' (mem k' hk')] at this
        · intro k' hk' hk''
          rw [List.mem_cons, not_or] at hk'
          rw [h4 k' hk'.2 hk'']
          refine foldl_other _ _ _ fun a ha e => hk'.1 ?_
          rw [← e, hd a ha]

theorem collect_ok (src : Key → List Run) (an : Key → Option P) (ks : List Key) :
    (collect src an ks).2 = none ↔ ∀ k ∈ ks, Able src an k := by
  induction ks with
  | nil => exact ⟨fun _ => nofun, fun _ => rfl⟩
  | cons k ks ih =>
    have h := dump_ok src an k
    unfold collect
    rw [List.forall_mem_cons, ← ih, ← h]
    split
    · rename_i l e he
      rw [he]
      exact ⟨nofun, fun h => nomatch h.1⟩
    · rename_i l he
      rw [he]
      exact ⟨fun h => ⟨rfl, h⟩, fun h => h.2⟩

theorem collect_good (src : Key → List Run) (an : Key → Option P) (ks : List Key) (hn : ks.Nodup)
    (h : (collect src an ks).2 = none) (t : Tree P) : ∀ k ∈ ks, Good src an k ((((collect src an ks).1).foldl apply t).lookup k) := by
  induction ks generalizing t with
  | nil => nofun
  | cons k ks ih =>
    rw [List.nodup_cons] at hn
    have hd := collect_keys src an ks
    have hg := dump_good (src := src) (an := an) (k := k)
    unfold collect at h ⊢
    split at h
    · cases h
    rename_i l he
    rw [he] at hg
    dsimp only at h hg ⊢
    intro k' hk'
    rw [List.foldl_append]
    rcases List.mem_cons.1 hk' with rfl | hk'
    · rw [foldl_other _ _ k' (fun a ha (e : keyOf a = k') => hn.1 (e ▸ hd a ha))]
      exact hg rfl t
    · exact ih hn.2 h _ k' hk'

theorem keys_nodup : keys.Nodup := by decide +kernel

/-- The program succeeds exactly if tables and analyses can be built for both cosmologies and all three treatments. -/
theorem succeeds_iff (src : Key → List Run) (an : Key → Option P) (t : Tree P) : (run src an t).2 = none ↔
    ∀ c ∈ ["w0_wa_CDM".toList, "LCDM".toList], ∀ s ∈ ["marg_before".toList, "marg_after".toList, "nuis_fixed".toList],
      Able src an (c, s) := by
  show (collect src an keys).2 = none ↔ _
  rw [collect_ok]
  constructor
  · intro h c hc s hs
    exact h _ (List.mem_flatMap.2 ⟨c, hc, List.mem_map.2 ⟨s, hs, rfl⟩⟩)
  · intro h k hk
    obtain ⟨c, hc, hk⟩ := List.mem_flatMap.1 hk
    obtain ⟨s, hs, rfl⟩ := List.mem_map.1 hk
    exact h c hc s hs

/-- Then all directories have the results of the runs, whatever was there, and nothing else is changed. -/
theorem all_collected (src : Key → List Run) (an : Key → Option P) (t : Tree P) (h : (run src an t).2 = none) :
    (∀ c ∈ ["w0_wa_CDM".toList, "LCDM".toList], ∀ s ∈ ["marg_before".toList, "marg_after".toList, "nuis_fixed".toList],
      Good src an (c, s) ((run src an t).1.lookup (c, s))) ∧
    ∀ k, k ∉ keys → (run src an t).1.lookup k = t.lookup k := by
  constructor
  · intro c hc s hs
    exact collect_good src an keys keys_nodup h t _ (List.mem_flatMap.2 ⟨c, hc, List.mem_map.2 ⟨s, hs, rfl⟩⟩)
  · intro k hk
    exact foldl_other _ _ _ fun a ha e => hk (e ▸ collect_keys src an keys a ha)

/-- Repeating a program that succeeded gives the same files. -/
theorem again (src : Key → List Run) (an : Key → Option P) (t : Tree P) (h : (run src an t).2 = none) (k : Key) :
    (run src an (run src an t).1).1.lookup k = (run src an t).1.lookup k := by
  by_cases hk : k ∈ keys
  · obtain ⟨m, r, p, h1, h2, h3, h4⟩ := collect_good src an keys keys_nodup h t k hk
    obtain ⟨m', r', p', h1', h2', h3', h4'⟩ := collect_good src an keys keys_nodup h (run src an t).1 k hk
    have e1 := Except.ok.inj (h1.symm.trans h1')
    have e2 := Except.ok.inj (h2.symm.trans h2')
    have e3 := Option.some.inj (h3.symm.trans h3')
    subst e1 e2 e3
    exact h4'.trans h4.symm
  · exact foldl_other _ _ _ fun a ha e => hk (e ▸ collect_keys src an keys a ha)

/-- The program stopped at any point, or ended by an exception: the directories before some key have the results of the runs, that
of the key is on the way, all others are as they were. -/
theorem stopped_state (src : Key → List Run) (an : Key → Option P) (n : Nat) (t : Tree P) :
    ∃ done rest, keys = done ++ rest ∧ (∀ k ∈ done, Good src an k ((stopped src an n t).lookup k)) ∧
      (∀ k ∈ rest.head?, Way src an k (t.lookup k) ((stopped src an n t).lookup k)) ∧
      ∀ k, k ∉ done → k ∉ rest.head? → (stopped src an n t).lookup k = t.lookup k :=
  collect_way src an keys keys_nodup n t

/-- A program that ended by an exception is one that was stopped. -/
theorem failed_is_stopped (src : Key → List Run) (an : Key → Option P) (t : Tree P) : ∃ n, (run src an t).1 = stopped src an n t := by
  refine ⟨(collect src an keys).1.length, ?_⟩
  unfold run stopped
  rw [List.take_length]

/-- Stopped at any point and then run to its end, the program leaves what it leaves without the stop. -/
theorem completed_after_stop (src : Key → List Run) (an : Key → Option P) (n : Nat) (t : Tree P)
    (h : (run src an t).2 = none) (k : Key) : (run src an (stopped src an n t)).1.lookup k = (run src an t).1.lookup k := by
  by_cases hk : k ∈ keys
  · obtain ⟨m, r, p, h1, h2, h3, h4⟩ := collect_good src an keys keys_nodup h t k hk
    obtain ⟨m', r', p', h1', h2', h3', h4'⟩ := collect_good src an keys keys_nodup h (stopped src an n t) k hk
    have e1 := Except.ok.inj (h1.symm.trans h1')
    have e2 := Except.ok.inj (h2.symm.trans h2')
    have e3 := Option.some.inj (h3.symm.trans h3')
    subst e1 e2 e3
    exact h4'.trans h4.symm
  · have h1 : (run src an (stopped src an n t)).1.lookup k = (stopped src an n t).lookup k :=
      foldl_other _ _ _ fun a ha e => hk (e ▸ collect_keys src an keys a ha)
    have h2 : (stopped src an n t).lookup k = t.lookup k :=
      foldl_other _ _ _ fun a ha e => hk (e ▸ collect_keys src an keys a (List.mem_of_mem_take ha))
    have h3 : (run src an t).1.lookup k = t.lookup k :=
      foldl_other _ _ _ fun a ha e => hk (e ▸ collect_keys src an keys a ha)
    rw [h1, h2, h3]

/-- If the analyses of the first key cannot be loaded, new tables stand beside the analyses collected before. -/
theorem tables_beside_old (src : Key → List Run) (an : Key → Option P) (t : Tree P) (m r : Frame)
    (h1 : buildErrorsTable "marginalized_errors".toList (src ("w0_wa_CDM".toList, "marg_before".toList)) = .ok m)
    (h2 : buildErrorsTable "relative_marginalized_errors".toList (src ("w0_wa_CDM".toList, "marg_before".toList)) = .ok r)
    (h3 : an ("w0_wa_CDM".toList, "marg_before".toList) = none) :
    (run src an t).2 = some .analyses ∧ (run src an t).1.lookup ("w0_wa_CDM".toList, "marg_before".toList) =
      some ⟨some m, some r, (t.lookup ("w0_wa_CDM".toList, "marg_before".toList)).bind (·.pick)⟩ := by
  obtain ⟨ks, hks⟩ : ∃ ks, keys = ("w0_wa_CDM".toList, "marg_before".toList) :: ks := ⟨_, rfl⟩
  have hd : dump src an ("w0_wa_CDM".toList, "marg_before".toList) =
      ([.mkdir ("w0_wa_CDM".toList, "marg_before".toList), .marg ("w0_wa_CDM".toList, "marg_before".toList) m,
        .rel ("w0_wa_CDM".toList, "marg_before".toList) r], some .analyses) := by
    unfold dump
    rw [h1]
    dsimp only
    rw [h2]
    dsimp only
    rw [h3]
  have hc : collect src an keys = dump src an ("w0_wa_CDM".toList, "marg_before".toList) := by
    rw [hks]
    conv_lhs => unfold collect
    rw [hd]
  unfold run
  rw [hc, hd]
  refine ⟨rfl, ?_⟩
  dsimp only [List.foldl]
  rw [lookup_rel, lookup_marg, lookup_mkdir]
  cases t.lookup ("w0_wa_CDM".toList, "marg_before".toList) <;> rfl

theorem collect_prefix (src : Key → List Run) (an : Key → Option P) (done rest : List Key) (h : ∀ k ∈ done, Able src an k) :
    collect src an (done ++ rest) = ((collect src an done).1 ++ (collect src an rest).1, (collect src an rest).2) := by
  induction done with
  | nil => rfl
  | cons k done ih =>
    have hd := (dump_ok src an k).2 (h k List.mem_cons_self)
    have hc : ∀ ks, collect src an (k :: ks) = ((dump src an k).1 ++ (collect src an ks).1, (collect src an ks).2) := by
      intro ks
      conv_lhs => unfold collect
      cases e : dump src an k with
      | mk l x =>
        rw [e] at hd
        cases hd
        rfl
    show collect src an (k :: (done ++ rest)) = _
    rw [hc, hc, ih fun k' hk' => h k' (List.mem_cons_of_mem _ hk'), List.append_assoc]

/-- Where the program ends at a key whose results cannot be collected: the keys before have their results; if a table cannot be
built the key has its directory and the files of before; if the analyses cannot be loaded it has new tables beside the analyses of
before; all other directories are as they were. -/
theorem failed_at (src : Key → List Run) (an : Key → Option P) (t : Tree P) (done rest : List Key) (k : Key)
    (hk : keys = done ++ k :: rest) (hd : ∀ k' ∈ done, Able src an k') (hn : ¬ Able src an k) :
    (run src an t).2 ≠ none ∧ (∀ k' ∈ done, Good src an k' ((run src an t).1.lookup k')) ∧
    (∀ k', k' ∉ done → k' ≠ k → (run src an t).1.lookup k' = t.lookup k') ∧
    ((run src an t).2 = some .analyses → ∃ m r, buildErrorsTable "marginalized_errors".toList (src k) = .ok m ∧
      buildErrorsTable "relative_marginalized_errors".toList (src k) = .ok r ∧
      (run src an t).1.lookup k = some ⟨some m, some r, (t.lookup k).bind (·.pick)⟩) ∧
    ((run src an t).2 ≠ some .analyses → (run src an t).1.lookup k = some ((t.lookup k).getD ⟨none, none, none⟩)) := by
  have hnd := keys_nodup
  rw [hk] at hnd
  have hkd : k ∉ done := fun hc => List.disjoint_of_nodup_append hnd hc List.mem_cons_self
  have hdn : done.Nodup := (List.nodup_append.1 hnd).1
  have hdd := (collect_ok src an done).2 hd
  have hx : (dump src an k).2 ≠ none := fun e => hn ((dump_ok src an k).1 e)
  have hkr : collect src an (k :: rest) = dump src an k := by
    conv_lhs => unfold collect
    cases e : dump src an k with
    | mk l x =>
      rw [e] at hx
      cases x with
      | none => exact absurd rfl hx
      | some x => rfl
  have hrun : run src an t = ((dump src an k).1.foldl apply ((collect src an done).1.foldl apply t), (dump src an k).2) := by
    unfold run
    rw [hk, collect_prefix src an done _ hd, hkr]
    dsimp only
    rw [List.foldl_append]
  have hkk : ((collect src an done).1.foldl apply t).lookup k = t.lookup k :=
    foldl_other _ _ _ fun a ha e => hkd (e ▸ collect_keys src an done a ha)
  rw [hrun]
  refine ⟨hx, ?_, ?_, ?_⟩
  · intro k' hk'
    rw [foldl_other _ _ k' fun a ha e => hkd (by rw [← dump_keys src an k a ha, e]; exact hk')]
    exact collect_good src an done hdn hdd t k' hk'
  · intro k' h1 h2
    rw [foldl_other _ _ k' fun a ha e => h2 (by rw [← dump_keys src an k a ha, e])]
    exact foldl_other _ _ _ fun a ha e => h1 (e ▸ collect_keys src an done a ha)
  · generalize ((collect src an done).1.foldl apply t) = t' at hkk
    rw [← hkk]
    unfold dump at hx ⊢
    cases e1 : buildErrorsTable "marginalized_errors".toList (src k) with
    | error e => exact ⟨nofun, fun _ => lookup_mkdir t' k⟩
    | ok m =>
      rw [e1] at hx
      dsimp only at hx ⊢
      cases e2 : buildErrorsTable "relative_marginalized_errors".toList (src k) with
      | error e => exact ⟨nofun, fun _ => lookup_mkdir t' k⟩
      | ok r =>
        rw [e2] at hx
        dsimp only at hx ⊢
        cases e3 : an k with
        | some p => rw [e3] at hx; exact absurd rfl hx
        | none =>
          refine ⟨fun _ => ⟨m, r, rfl, rfl, ?_⟩, fun h => absurd rfl h⟩
          dsimp only [List.foldl]
          rw [lookup_rel, lookup_marg, lookup_mkdir]
          cases t'.lookup k <;> rfl

/-! ### Examples -/

/-- One run with its two tables, for every key. -/
def exSrc (_ : Key) : List Run :=
  [⟨[("marginalized_errors.csv".toList, [("WL".toList, [("w0".toList, .num 1)])]),
     ("relative_marginalized_errors.csv".toList, [("WL".toList, [("w0".toList, .num 2)])])], [("n_sp_bins".toList, .num 4)]⟩]

/-- All six directories are filled. -/
example : (run exSrc (fun _ => some 7) []).2 = none ∧ (run exSrc (fun _ => some 7) []).1.length = 6 := by decide +kernel

/-- The analyses of the second cosmology cannot be loaded: half of the collection of before is left, with a mixture at the
border. -/
example : ((run exSrc (fun k => if k.1 = "LCDM".toList then none else some 7) (keys.map fun k => (k, ⟨none, none, some 1⟩))).1.map
    fun p => (p.2.marg.isSome, p.2.pick)) =
    [(true, some 7), (true, some 7), (true, some 7), (true, some 1), (false, some 1), (false, some 1)] := by decide +kernel

end Seyfert.CProg
