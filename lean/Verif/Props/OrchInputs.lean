import Verif.Spec.OrchInputs
import Verif.Lemmas.PyDict
import Verif.Lemmas.PyStr
import Verif.Props.Orchestration
import Verif.Props.CosmoFile

/-! C120: the inputs of the orchestrated runs. -/

namespace Seyfert.OrchIn

open Orch (Pth pname)

variable {C : Type}

/-! ### Making the tree -/

theorem strip_none (base p : Pth) (h : ¬ base <+: p) : readAt.stripPrefix' base p = none := by
  induction base generalizing p with
  | nil => exact absurd (List.nil_prefix) h
  | cons a b ih =>
    cases p with
    | nil => rfl
    | cons x p =>
      rw [readAt.stripPrefix']
      split
      · rename_i e
        subst e
        exact ih p fun hp => h (List.cons_prefix_cons.mpr ⟨rfl, hp⟩)
      · rfl

theorem readAt_outside (outside : Pth → Option C) (base : Pth) (t : Tree C) (p : Pth) (h : ¬ base <+: p) :
    readAt outside base t p = outside p := by
  unfold readAt
  rw [strip_none base p h]

/-- The files of a sub-directory after the given one is put into it. -/
def placed (outside : Pth → Option C) (s : Dict Str C) : Option Pth → Dict Str C
  | none => s
  | some p => match outside p with
    | none => s
    | some c => PyDict.set s (pname p) c

theorem addDir_file (outside : Pth → Option C) (base : Pth) (t : Tree C) (e : Str × Option Pth) (c : C)
    (h : t.lookup e.1 = some (.file c)) : addDir outside base t e = (t, some .exists_) := by
  unfold addDir
  rw [h]

theorem addDir_other (outside : Pth → Option C) (base : Pth) (t : Tree C) (e : Str × Option Pth)
    (h : ∀ c, t.lookup e.1 ≠ some (.file c)) :
    addDir outside base t e = addDir.copyInto outside base t e (filesIn t e.1) := by
  unfold addDir filesIn
  rcases hl : t.lookup e.1 with _ | c | s
  · rfl
  · exact absurd hl (h c)
  · rfl

theorem addDir_ok (outside : Pth → Option C) (base : Pth) (t : Tree C) (e : Str × Option Pth)
    (hf : ∀ c, t.lookup e.1 ≠ some (.file c))
    (hp : ∀ p, e.2 = some p → ¬ base <+: p ∧ (outside p).isSome) :
    (addDir outside base t e).2 = none ∧
      ∀ n, (addDir outside base t e).1.lookup n =
        if n = e.1 then some (.dir (placed outside (filesIn t e.1) e.2)) else t.lookup n := by
  rw [addDir_other outside base t e hf]
  unfold addDir.copyInto placed
  rcases h2 : e.2 with _ | p
  · exact ⟨rfl, fun n => PyDict.lookup_set _ _ _ _⟩
  · obtain ⟨ho, hs⟩ := hp p h2
    obtain ⟨c, hc⟩ := Option.isSome_iff_exists.mp hs
    have hne : p ≠ base ++ [e.1, pname p] := fun h => ho ⟨[e.1, pname p], h.symm⟩
    simp only [readAt_outside outside base _ p ho, hc, if_neg hne]
    refine ⟨trivial, fun n => ?_⟩
    rw [PyDict.lookup_set, PyDict.lookup_set]
    split <;> rfl

theorem addDirs_ok (outside : Pth → Option C) (base : Pth) (es : List (Str × Option Pth))
    (hn : (es.map (·.1)).Nodup) (t : Tree C) (hf : ∀ e ∈ es, ∀ c, t.lookup e.1 ≠ some (.file c))
    (hp : ∀ e ∈ es, ∀ p, e.2 = some p → ¬ base <+: p ∧ (outside p).isSome) :
    (addDirs outside base t es).2 = none ∧
      ∀ n, (addDirs outside base t es).1.lookup n =
        match es.lookup n with
        | none => t.lookup n
        | some o => some (.dir (placed outside (filesIn t n) o)) := by
  induction es generalizing t with
  | nil => exact ⟨rfl, fun n => rfl⟩
  | cons e es ih =>
    obtain ⟨h1, h2⟩ := addDir_ok outside base t e (hf e List.mem_cons_self) (hp e List.mem_cons_self)
    rw [List.map_cons, List.nodup_cons] at hn
    rw [addDirs]
    rcases hd : addDir outside base t e with ⟨t', x⟩
    rw [hd] at h1 h2
    simp only at h1 h2
    subst h1
    have hne : ∀ e' ∈ es, e'.1 ≠ e.1 := fun e' h heq => hn.1 (by rw [← heq]; exact List.mem_map_of_mem h)
    obtain ⟨i1, i2⟩ := ih hn.2 t' (fun e' h c => by
        rw [h2, if_neg (hne e' h)]; exact hf e' (List.mem_cons_of_mem _ h) c)
      (fun e' h => hp e' (List.mem_cons_of_mem _ h))
    refine ⟨i1, fun n => ?_⟩
    simp only
    rw [i2, List.lookup_cons]
    by_cases h : n = e.1
    · subst h
      rw [(PyDict.lookup_none_iff es e.1).mpr hn.1]
      simp only [beq_self_eq_true]
      rw [h2, if_pos rfl]
    · rw [beq_false_of_ne h]
      cases es.lookup n with
      | none => simp only; rw [h2, if_neg h]
      | some o =>
        simp only
        unfold filesIn
        rw [h2, if_neg h]

theorem wanted_keys (g : Given) : (wanted g).map (·.1) = subdirs := rfl

theorem subdirs_nodup : subdirs.Nodup := by decide +kernel

theorem ext_not_subdir : "external_dirs.json".toList ∉ subdirs := by decide +kernel

/-- What a successful call leaves, whatever was there before: the six sub-directories, with the files they had and the
given one; the file of external directories with no directory; and every other entry as it was. -/
theorem create_spec (outside : Pth → Option C) (dump : Ext → C) (base : Pth) (g : Given) (t : Tree C)
    (hg : Readable outside base g) (hf : ∀ n ∈ subdirs, ∀ c, t.lookup n ≠ some (.file c))
    (hx : ∀ s, t.lookup "external_dirs.json".toList ≠ some (.dir s)) :
    (createTree outside dump base g t).2 = none ∧
    (createTree outside dump base g t).1.lookup "external_dirs.json".toList = some (.file (dump noExt)) ∧
    (∀ n, n ∉ subdirs → n ≠ "external_dirs.json".toList →
      (createTree outside dump base g t).1.lookup n = t.lookup n) ∧
    ∀ n o, (n, o) ∈ wanted g → ∃ s, (createTree outside dump base g t).1.lookup n = some (.dir s) ∧
      ∀ f, s.lookup f = match o with
        | some p => if f = pname p then outside p else (filesIn t n).lookup f
        | none => (filesIn t n).lookup f := by
  have hnd : ((wanted g).map (·.1)).Nodup := by rw [wanted_keys]; exact subdirs_nodup
  obtain ⟨a1, a2⟩ := addDirs_ok outside base (wanted g) hnd t
    (fun e he => hf e.1 (by rw [← wanted_keys g]; exact List.mem_map_of_mem he))
    (fun e he p hp => hg e.1 p (by rw [← hp]; exact he))
  unfold createTree
  rcases hd : addDirs outside base t (wanted g) with ⟨t', x⟩
  rw [hd] at a1 a2
  simp only at a1 a2
  subst a1
  simp only
  have hext : t'.lookup "external_dirs.json".toList = t.lookup "external_dirs.json".toList := by
    rw [a2, (PyDict.lookup_none_iff (wanted g) _).mpr (by rw [wanted_keys]; exact ext_not_subdir)]
  have hw : writeExt dump t' = (PyDict.set t' "external_dirs.json".toList (.file (dump noExt)), none) := by
    unfold writeExt
    rw [hext]
    rcases hl : t.lookup "external_dirs.json".toList with _ | c | s
    · rfl
    · rfl
    · exact absurd hl (hx s)
  rw [hw]
  refine ⟨rfl, ?_, ?_, ?_⟩
  · simp only; rw [PyDict.lookup_set, if_pos rfl]
  · intro n hn hne
    simp only
    rw [PyDict.lookup_set, if_neg hne, a2, (PyDict.lookup_none_iff (wanted g) _).mpr (by rw [wanted_keys]; exact hn)]
  · intro n o ho
    have hne : n ≠ "external_dirs.json".toList := by
      rintro rfl
      exact ext_not_subdir (by rw [← wanted_keys g]; exact List.mem_map_of_mem (f := Prod.fst) ho)
    refine ⟨placed outside (filesIn t n) o, ?_, ?_⟩
    · simp only
      rw [PyDict.lookup_set, if_neg hne, a2, PyDict.lookup_of_mem (wanted g) hnd ho]
    · intro f
      unfold placed
      cases o with
      | none => rfl
      | some p =>
        obtain ⟨c, hc⟩ := Option.isSome_iff_exists.mp (hg n p ho).2
        simp only [hc]
        rw [PyDict.lookup_set]

/-- The call succeeds exactly when nothing is in the way, for given files outside the directory. -/
theorem create_ok_iff (outside : Pth → Option C) (dump : Ext → C) (base : Pth) (g : Given) (t : Tree C)
    (hg : ∀ n p, (n, some p) ∈ wanted g → ¬ base <+: p) :
    (createTree outside dump base g t).2 = none ↔
      (∀ n p, (n, some p) ∈ wanted g → (outside p).isSome) ∧
      (∀ n ∈ subdirs, ∀ c, t.lookup n ≠ some (.file c)) ∧
      ∀ s, t.lookup "external_dirs.json".toList ≠ some (.dir s) := by
  constructor
  · intro h
    have key : ∀ (es : List (Str × Option Pth)) (t : Tree C), (es.map (·.1)).Nodup →
        (∀ e ∈ es, ∀ p, e.2 = some p → ¬ base <+: p) → (addDirs outside base t es).2 = none →
        (∀ e ∈ es, ∀ p, e.2 = some p → (outside p).isSome) ∧
        (∀ e ∈ es, ∀ c, t.lookup e.1 ≠ some (.file c)) := by
      intro es
      induction es with
      | nil => intro t _ _ _; exact ⟨fun e he => absurd he (by simp), fun e he => absurd he (by simp)⟩
      | cons e es ih =>
        intro t hn hb h
        rw [List.map_cons, List.nodup_cons] at hn
        have hf : ∀ c, t.lookup e.1 ≠ some (.file c) := by
          intro c hc
          rw [addDirs, addDir_file outside base t e c hc] at h
          exact absurd h (by simp)
        have hp : ∀ p, e.2 = some p → ¬ base <+: p ∧ (outside p).isSome := by
          intro p hp
          have ho := hb e List.mem_cons_self p hp
          refine ⟨ho, ?_⟩
          rcases hs : outside p with _ | c
          · rw [addDirs, addDir_other outside base t e hf] at h
            unfold addDir.copyInto at h
            rw [hp] at h
            simp only [readAt_outside outside base _ p ho, hs] at h
            exact absurd h (by simp)
          · rfl
        obtain ⟨h1, h2⟩ := addDir_ok outside base t e hf hp
        rw [addDirs] at h
        rcases hd : addDir outside base t e with ⟨t', x⟩
        rw [hd] at h h1 h2
        simp only at h1 h2
        subst h1
        simp only at h
        obtain ⟨i1, i2⟩ := ih t' hn.2 (fun e' he' => hb e' (List.mem_cons_of_mem _ he')) h
        constructor
        · intro e' he' p hp'
          rcases List.mem_cons.mp he' with rfl | he'
          · exact (hp p hp').2
          · exact i1 e' he' p hp'
        · intro e' he' c
          rcases List.mem_cons.mp he' with rfl | he'
          · exact hf c
          · have hne : e'.1 ≠ e.1 := fun heq => hn.1 (by rw [← heq]; exact List.mem_map_of_mem he')
            have := i2 e' he' c
            rw [h2, if_neg hne] at this
            exact this
    unfold createTree at h
    rcases hd : addDirs outside base t (wanted g) with ⟨t', x⟩
    rw [hd] at h
    cases x with
    | some x => exact absurd h (by simp)
    | none =>
      have hnd : ((wanted g).map (·.1)).Nodup := by rw [wanted_keys]; exact subdirs_nodup
      obtain ⟨k1, k2⟩ := key (wanted g) t hnd (fun e he p hp => hg e.1 p (by rw [← hp]; exact he)) (by rw [hd])
      obtain ⟨_, a2⟩ := addDirs_ok outside base (wanted g) hnd t k2
        (fun e he p hp => ⟨hg e.1 p (by rw [← hp]; exact he), k1 e he p hp⟩)
      rw [hd] at a2
      simp only at a2 h
      refine ⟨fun n p hp => k1 (n, some p) hp p rfl, ?_, ?_⟩
      · intro n hn
        rw [← wanted_keys g, List.mem_map] at hn
        obtain ⟨e, he, rfl⟩ := hn
        exact k2 e he
      · intro s hs
        have : t'.lookup "external_dirs.json".toList = some (.dir s) := by
          rw [a2, (PyDict.lookup_none_iff (wanted g) _).mpr (by rw [wanted_keys]; exact ext_not_subdir)]
          exact hs
        unfold writeExt at h
        rw [this] at h
        exact absurd h (by simp)
  · rintro ⟨h1, h2, h3⟩
    exact (create_spec outside dump base g t (fun n p hp => ⟨hg n p hp, h1 n p hp⟩) h2 h3).1

/-- Putting a file into a sub-directory leaves the other files there and everything elsewhere. -/
theorem addDir_keeps (outside : Pth → Option C) (base : Pth) (t : Tree C) (e : Str × Option Pth) (n f : Str) (c : C)
    (h : Has t n f c) (hne : ∀ p, e = (n, some p) → pname p ≠ f) : Has (addDir outside base t e).1 n f c := by
  obtain ⟨s, hs, hc⟩ := h
  by_cases hfile : ∃ c', t.lookup e.1 = some (.file c')
  · obtain ⟨c', h'⟩ := hfile
    rw [addDir_file outside base t e c' h']
    exact ⟨s, hs, hc⟩
  · have hfile' : ∀ c', t.lookup e.1 ≠ some (.file c') := fun c' h' => hfile ⟨c', h'⟩
    rw [addDir_other outside base t e hfile']
    have base1 : Has (PyDict.set t e.1 (.dir (filesIn t e.1))) n f c := by
      by_cases hn : n = e.1
      · subst hn
        refine ⟨filesIn t e.1, by rw [PyDict.lookup_set, if_pos rfl], ?_⟩
        unfold filesIn
        rw [hs]
        exact hc
      · exact ⟨s, by rw [PyDict.lookup_set, if_neg hn]; exact hs, hc⟩
    unfold addDir.copyInto
    rcases h2 : e.2 with _ | p
    · exact base1
    · simp only
      split
      · exact base1
      · rename_i c2 _
        split
        · exact base1
        · by_cases hn : n = e.1
          · subst hn
            refine ⟨PyDict.set (filesIn t e.1) (pname p) c2, by rw [PyDict.lookup_set, if_pos rfl], ?_⟩
            have hp : pname p ≠ f := hne p (by rw [← h2])
            rw [PyDict.lookup_set, if_neg (Ne.symm hp)]
            unfold filesIn
            rw [hs]
            exact hc
          · exact ⟨s, by rw [PyDict.lookup_set, if_neg hn, PyDict.lookup_set, if_neg hn]; exact hs, hc⟩

/-- Whatever happens, also when the call fails half way: a file in the directory is lost only if a given file for the
same sub-directory has its name. -/
theorem create_keeps (outside : Pth → Option C) (dump : Ext → C) (base : Pth) (g : Given) (t : Tree C) (n f : Str)
    (c : C) (h : Has t n f c) (hne : ∀ p, (n, some p) ∈ wanted g → pname p ≠ f) :
    Has (createTree outside dump base g t).1 n f c := by
  have key : ∀ (es : List (Str × Option Pth)) (t : Tree C), Has t n f c → (∀ p, (n, some p) ∈ es → pname p ≠ f) →
      Has (addDirs outside base t es).1 n f c := by
    intro es
    induction es with
    | nil => intro t h _; exact h
    | cons e es ih =>
      intro t h hne
      have h1 := addDir_keeps outside base t e n f c h fun p hp => hne p (by rw [hp]; exact List.mem_cons_self)
      rw [addDirs]
      rcases hd : addDir outside base t e with ⟨t', x⟩
      rw [hd] at h1
      cases x with
      | some x => exact h1
      | none => exact ih t' h1 fun p hp => hne p (List.mem_cons_of_mem _ hp)
  have h1 := key (wanted g) t h hne
  unfold createTree
  rcases hd : addDirs outside base t (wanted g) with ⟨t', x⟩
  rw [hd] at h1
  cases x with
  | some x => exact h1
  | none =>
    simp only
    unfold writeExt
    obtain ⟨s, hs, hc⟩ := h1
    split
    · exact ⟨s, hs, hc⟩
    · rename_i hnd
      refine ⟨s, ?_, hc⟩
      simp only
      rw [PyDict.lookup_set, if_neg]
      · exact hs
      · rintro rfl
        exact hnd s hs

/-- Giving as configuration the file that is already in its place is refused. -/
theorem create_same_file (outside : Pth → Option C) (dump : Ext → C) (base : Pth) (g : Given) (t : Tree C) (n f : Str)
    (h : (n, some (base ++ [n, f])) ∈ wanted g) : (createTree outside dump base g t).2 ≠ none := by
  have hname : pname (base ++ [n, f]) = f := by
    unfold Orch.pname
    rw [show base ++ [n, f] = (base ++ [n]) ++ [f] by simp, List.getLast?_concat]
    rfl
  have one : ∀ t : Tree C, (addDir outside base t (n, some (base ++ [n, f]))).2 ≠ none := by
    intro t
    by_cases hfile : ∃ c', t.lookup n = some (.file c')
    · obtain ⟨c', h'⟩ := hfile
      rw [addDir_file outside base t _ c' h']
      simp
    · rw [addDir_other outside base t _ fun c' h' => hfile ⟨c', h'⟩]
      unfold addDir.copyInto
      simp only
      split
      · simp
      · rw [hname, if_pos rfl]
        simp
  have key : ∀ (es : List (Str × Option Pth)) (t : Tree C), (n, some (base ++ [n, f])) ∈ es →
      (addDirs outside base t es).2 ≠ none := by
    intro es
    induction es with
    | nil => intro t h; exact absurd h (by simp)
    | cons e es ih =>
      intro t h
      rw [addDirs]
      rcases hd : addDir outside base t e with ⟨t', x⟩
      cases x with
      | some x => simp
      | none =>
        simp only
        rcases List.mem_cons.mp h with rfl | h
        · exact absurd (by rw [hd]) (one t)
        · exact ih t' h
  unfold createTree
  have := key (wanted g) t h
  rcases hd : addDirs outside base t (wanted g) with ⟨t', x⟩
  rw [hd] at this
  cases x with
  | some x => simp
  | none => exact absurd rfl this

/-! ### Reading the tree -/

theorem ends_iff (suffix s : Str) : endsWith suffix s = true ↔ Ends suffix s := by
  unfold endsWith Ends
  rw [stripPrefix_isSome]
  constructor
  · rintro ⟨r, h⟩
    exact ⟨r.reverse, by rw [← List.reverse_reverse s, h, List.reverse_append, List.reverse_reverse]⟩
  · rintro ⟨r, rfl⟩
    exact ⟨r.reverse, List.reverse_append⟩

/-- What one sub-directory gives. -/
theorem readDir_ok (base : Pth) (n : Str) (s : Dict Str C) (v : Val) (h : readDir base n s = .ok v) :
    (IsList n ∧ ∃ l, v = .many l ∧ ∀ p, p ∈ l ↔ ∃ f, f ∈ s.map (·.1) ∧ Ends ".json".toList f ∧ p = base ++ [n, f]) ∨
    (¬ IsList n ∧ ∃ f, f ∈ s.map (·.1) ∧ v = .one (base ++ [n, f])) := by
  unfold readDir at h
  split at h
  · rename_i hl
    left
    refine ⟨hl, _, (Except.ok.inj h).symm, fun p => ?_⟩
    rw [List.mem_map]
    constructor
    · rintro ⟨f, hf, rfl⟩
      rw [List.mem_filter, ends_iff] at hf
      exact ⟨f.1, List.mem_map_of_mem hf.1, hf.2, rfl⟩
    · rintro ⟨f, hf, he, rfl⟩
      obtain ⟨q, hq, rfl⟩ := List.mem_map.mp hf
      exact ⟨q, List.mem_filter.mpr ⟨hq, (ends_iff _ _).mpr he⟩, rfl⟩
  · rename_i hl
    right
    cases s with
    | nil => exact absurd h (by simp)
    | cons f s => exact ⟨hl, f.1, by simp, (Except.ok.inj h).symm⟩

theorem readDir_iff (base : Pth) (n : Str) (s : Dict Str C) :
    (∃ v, readDir base n s = .ok v) ↔ IsList n ∨ s ≠ [] := by
  unfold readDir
  split
  · rename_i h
    exact ⟨fun _ => Or.inl h, fun _ => ⟨_, rfl⟩⟩
  · rename_i h
    cases s with
    | nil => exact ⟨fun ⟨v, hv⟩ => absurd hv (by simp), fun hc => absurd rfl (hc.resolve_left h)⟩
    | cons f s => exact ⟨fun _ => Or.inr (by simp), fun _ => ⟨_, rfl⟩⟩

/-- The loop: it succeeds when every sub-directory does, and the value for a name is that of its sub-directory. -/
theorem readDirs_spec (base : Pth) (t : Tree C) (hn : (t.map (·.1)).Nodup) (acc : Dict Str Val) :
    ((∃ d, readDirs base t acc = .ok d) ↔ ∀ n s, t.lookup n = some (.dir s) → ∃ v, readDir base n s = .ok v) ∧
    ∀ d, readDirs base t acc = .ok d → ∀ n, d.lookup n =
      match t.lookup n with
      | some (.dir s) => (match readDir base n s with
        | .ok v => some v
        | .error _ => none)
      | _ => acc.lookup n := by
  induction t generalizing acc with
  | nil =>
    refine ⟨⟨fun _ n s h => absurd h (by simp), fun _ => ⟨acc, rfl⟩⟩, ?_⟩
    rintro d h n
    obtain rfl := Except.ok.inj h
    rfl
  | cons e t ih =>
    obtain ⟨m, x⟩ := e
    rw [List.map_cons, List.nodup_cons] at hn
    have hm : t.lookup m = none := (PyDict.lookup_none_iff t m).mpr hn.1
    cases x with
    | file c =>
      rw [readDirs]
      obtain ⟨i1, i2⟩ := ih hn.2 acc
      constructor
      · rw [i1]
        constructor
        · intro h n s hs
          rw [List.lookup_cons] at hs
          by_cases he : n = m
          · subst he; simp at hs
          · rw [beq_false_of_ne he] at hs
            exact h n s hs
        · intro h n s hs
          refine h n s ?_
          have he : n ≠ m := by rintro rfl; rw [hm] at hs; exact absurd hs (by simp)
          rw [List.lookup_cons, beq_false_of_ne he]
          exact hs
      · intro d hd n
        rw [i2 d hd n, List.lookup_cons]
        by_cases he : n = m
        · subst he
          rw [hm, beq_self_eq_true]
        · rw [beq_false_of_ne he]
    | dir s =>
      rw [readDirs]
      rcases hr : readDir base m s with err | v
      · constructor
        · constructor
          · rintro ⟨d, hd⟩
            exact absurd hd (by simp)
          · intro h
            obtain ⟨v, hv⟩ := h m s (by rw [List.lookup_cons, beq_self_eq_true])
            rw [hr] at hv
            exact absurd hv (by simp)
        · intro d hd
          exact absurd hd (by simp)
      · obtain ⟨i1, i2⟩ := ih hn.2 (PyDict.set acc m v)
        simp only
        constructor
        · rw [i1]
          constructor
          · intro h n s' hs
            rw [List.lookup_cons] at hs
            by_cases he : n = m
            · subst he
              rw [beq_self_eq_true] at hs
              obtain rfl := Node.dir.inj (Option.some.inj hs)
              exact ⟨v, hr⟩
            · rw [beq_false_of_ne he] at hs
              exact h n s' hs
          · intro h n s' hs
            refine h n s' ?_
            have he : n ≠ m := by rintro rfl; rw [hm] at hs; exact absurd hs (by simp)
            rw [List.lookup_cons, beq_false_of_ne he]
            exact hs
        · intro d hd n
          rw [i2 d hd n, List.lookup_cons]
          by_cases he : n = m
          · subst he
            rw [hm, beq_self_eq_true]
            simp only
            rw [PyDict.lookup_set, if_pos rfl, hr]
          · rw [beq_false_of_ne he]
            rw [PyDict.lookup_set, if_neg he]

/-- Reading succeeds exactly when every sub-directory other than the three lists has a file, and the file of external
directories is there and is readable. -/
theorem configs_iff (parse : C → Option Ext) (base : Pth) (t : Tree C) (hw : t.WF) :
    (∃ d, getConfigs parse base t = .ok d) ↔
      (∀ n s, t.lookup n = some (.dir s) → IsList n ∨ s ≠ []) ∧
      ∃ c, t.lookup "external_dirs.json".toList = some (.file c) ∧ (parse c).isSome := by
  obtain ⟨h1, _⟩ := readDirs_spec base t hw.keys []
  have h1' : (∃ d, readDirs base t [] = .ok d) ↔ ∀ n s, t.lookup n = some (.dir s) → IsList n ∨ s ≠ [] := by
    rw [h1]
    exact ⟨fun h n s hs => (readDir_iff base n s).mp (h n s hs), fun h n s hs => (readDir_iff base n s).mpr (h n s hs)⟩
  rw [← h1']
  unfold getConfigs
  rcases readDirs base t [] with e | d
  · exact ⟨fun ⟨d, hd⟩ => absurd hd (by simp), fun ⟨⟨d, hd⟩, _⟩ => absurd hd (by simp)⟩
  · simp only
    unfold readExt
    rcases t.lookup "external_dirs.json".toList with _ | c | s
    · exact ⟨fun ⟨d, hd⟩ => absurd hd (by simp), fun ⟨_, c, hc, _⟩ => absurd hc (by simp)⟩
    · simp only
      rcases hp : parse c with _ | x
      · refine ⟨fun ⟨d, hd⟩ => absurd hd (by simp), fun ⟨_, c', hc, hs⟩ => ?_⟩
        obtain rfl := Node.file.inj (Option.some.inj hc)
        rw [hp] at hs
        exact absurd hs (by simp)
      · exact ⟨fun _ => ⟨⟨d, rfl⟩, c, rfl, by rw [hp]; rfl⟩, fun _ => ⟨_, rfl⟩⟩
    · exact ⟨fun ⟨d, hd⟩ => absurd hd (by simp), fun ⟨_, c, hc, _⟩ => absurd hc (by simp)⟩

/-- What is read: for each of the three lists all files named `*.json` of the sub-directory, for every other
sub-directory one of its files, under the name of the sub-directory, and the external directories. -/
theorem configs_spec (parse : C → Option Ext) (base : Pth) (t : Tree C) (hw : t.WF) (d : Dict Str Val)
    (h : getConfigs parse base t = .ok d) :
    (∀ n, n ≠ "ext_dirs".toList → IsList n → ∀ s, t.lookup n = some (.dir s) → ∃ l, d.lookup n = some (.many l) ∧
      ∀ p, p ∈ l ↔ ∃ f, f ∈ s.map (·.1) ∧ Ends ".json".toList f ∧ p = base ++ [n, f]) ∧
    (∀ n, n ≠ "ext_dirs".toList → ¬ IsList n → ∀ s, t.lookup n = some (.dir s) →
      ∃ f, f ∈ s.map (·.1) ∧ d.lookup n = some (.one (base ++ [n, f]))) ∧
    (∀ n, n ≠ "ext_dirs".toList → (∀ s, t.lookup n ≠ some (.dir s)) → d.lookup n = none) ∧
    ∃ c x, t.lookup "external_dirs.json".toList = some (.file c) ∧ parse c = some x ∧
      d.lookup "ext_dirs".toList = some (.ext x) := by
  obtain ⟨h1, h2⟩ := readDirs_spec base t hw.keys []
  unfold getConfigs at h
  rcases hr : readDirs base t [] with e | d'
  · rw [hr] at h; exact absurd h (by simp)
  · rw [hr] at h
    simp only at h
    rcases hx : readExt parse t with e | x
    · rw [hx] at h; exact absurd h (by simp)
    · rw [hx] at h
      obtain rfl := Except.ok.inj h
      have h3 := h2 d' hr
      have hall := h1.mp ⟨d', hr⟩
      refine ⟨?_, ?_, ?_, ?_⟩
      · intro n hne hl s hs
        obtain ⟨v, hv⟩ := hall n s hs
        rw [PyDict.lookup_set, if_neg hne, h3 n, hs]
        simp only [hv]
        rcases readDir_ok base n s v hv with ⟨_, l, rfl, hl'⟩ | ⟨hl', _⟩
        · exact ⟨l, rfl, hl'⟩
        · exact absurd hl hl'
      · intro n hne hl s hs
        obtain ⟨v, hv⟩ := hall n s hs
        rw [PyDict.lookup_set, if_neg hne, h3 n, hs]
        simp only [hv]
        rcases readDir_ok base n s v hv with ⟨hl', _⟩ | ⟨_, f, hf, rfl⟩
        · exact absurd hl' hl
        · exact ⟨f, hf, rfl⟩
      · intro n hne hs
        rw [PyDict.lookup_set, if_neg hne, h3 n]
        rcases hl : t.lookup n with _ | c | s
        · rfl
        · rfl
        · exact absurd hl (hs s)
      · unfold readExt at hx
        rcases hl : t.lookup "external_dirs.json".toList with _ | c | s
        · rw [hl] at hx; exact absurd hx (by simp)
        · rw [hl] at hx
          simp only at hx
          rcases hp : parse c with _ | y
          · rw [hp] at hx; exact absurd hx (by simp)
          · rw [hp] at hx
            obtain rfl := Except.ok.inj hx
            exact ⟨c, y, rfl, hp, by rw [PyDict.lookup_set, if_pos rfl]⟩
        · rw [hl] at hx; exact absurd hx (by simp)

theorem isList_subdir : IsList "fcfg".toList ∧ IsList "cl_cfg".toList ∧ IsList "fish_cfg".toList ∧
    ¬ IsList "pmm_cfg".toList ∧ ¬ IsList "der_cfg".toList ∧ ¬ IsList "res_cfg".toList := by decide +kernel

theorem single_file (s : Dict Str C) (hn : (s.map (·.1)).Nodup) (f : Str) (c : C)
    (h : ∀ f' c', s.lookup f' = some c' ↔ f' = f ∧ c' = c) : s = [(f, c)] := by
  have hm := PyDict.mem_of_lookup ((h f c).mpr ⟨rfl, rfl⟩)
  have only : ∀ e ∈ s, e = (f, c) := by
    intro e he
    obtain ⟨h1, h2⟩ := (h e.1 e.2).mp (PyDict.lookup_of_mem s hn he)
    exact Prod.ext h1 h2
  match s, hm, hn, only with
  | [e], hm, _, only => rw [only e List.mem_cons_self]
  | e :: e' :: s, _, hn, only =>
    rw [only e List.mem_cons_self, only e' (List.mem_cons_of_mem _ List.mem_cons_self)] at hn
    exact absurd hn (by simp)

/-- In a tree made where there was none, the sub-directory of a given configuration holds that file only. -/
theorem fresh_dir (outside : Pth → Option C) (dump : Ext → C) (base : Pth) (g : Given) (hg : Readable outside base g)
    (t' : Tree C) (hw : t'.WF) (hs : Same (createTree outside dump base g []).1 t') (n : Str) (p : Pth)
    (hp : (n, some p) ∈ wanted g) (hn : n ≠ "fcfg".toList) :
    ∃ c, outside p = some c ∧ t'.lookup n = some (.dir [(pname p, c)]) := by
  obtain ⟨_, _, _, h⟩ := create_spec outside dump base g [] hg (fun n _ c h => absurd h (by simp))
    (fun s h => absurd h (by simp))
  obtain ⟨s, hs1, hs2⟩ := h n (some p) hp
  obtain ⟨c, hc⟩ := Option.isSome_iff_exists.mp (hg n p hp).2
  obtain ⟨s', hs'⟩ := (hs.dir n).mpr ⟨s, hs1⟩
  refine ⟨c, hc, ?_⟩
  rw [hs', single_file s' (hw.files n s' hs') (pname p) c]
  intro f' c'
  have e1 : Has t' n f' c' ↔ s'.lookup f' = some c' := by
    constructor
    · rintro ⟨s'', h1, h2⟩
      rw [hs'] at h1
      obtain rfl := Node.dir.inj (Option.some.inj h1)
      exact h2
    · exact fun h => ⟨s', hs', h⟩
  have e2 : Has (createTree outside dump base g []).1 n f' c' ↔ s.lookup f' = some c' := by
    constructor
    · rintro ⟨s'', h1, h2⟩
      rw [hs1] at h1
      obtain rfl := Node.dir.inj (Option.some.inj h1)
      exact h2
    · exact fun h => ⟨s, hs1, h⟩
  rw [← e1, hs.has n f' c' hn, e2, hs2]
  simp only
  split
  · rename_i e
    subst e
    rw [hc, Option.some.injEq]
    exact ⟨fun h => ⟨rfl, h.symm⟩, fun h => h.2.symm⟩
  · rename_i e
    constructor
    · intro h
      unfold filesIn at h
      exact absurd h (by simp)
    · exact fun h => absurd h.1 e

/-- The list read from a sub-directory with one file. -/
theorem single_list (base : Pth) (n f : Str) (c : C) (hl : IsList n) (hj : Ends ".json".toList f) :
    readDir base n [(f, c)] = .ok (.many [base ++ [n, f]]) := by
  unfold IsList at hl
  unfold readDir
  rw [if_pos hl, List.filter_cons, if_pos ((ends_iff _ _).mpr hj)]
  rfl

theorem single_one (base : Pth) (n f : Str) (c : C) (hl : ¬ IsList n) :
    readDir base n [(f, c)] = .ok (.one (base ++ [n, f])) := by
  unfold IsList at hl
  unfold readDir
  rw [if_neg hl]

/-- A tree made where there was none, into which then any forecast configurations are put, is read in whatever order the
system lists its entries, and gives those forecast configurations and the files given. -/
theorem prepared_configs (outside : Pth → Option C) (dump : Ext → C) (parse : C → Option Ext)
    (hext : parse (dump noExt) = some noExt) (base : Pth) (pmm cl der fish res : Pth)
    (hg : Readable outside base ⟨some pmm, some cl, some der, some fish, some res⟩)
    (hcl : Ends ".json".toList (pname cl)) (hfish : Ends ".json".toList (pname fish)) (t' : Tree C) (hw : t'.WF)
    (hs : Same (createTree outside dump base ⟨some pmm, some cl, some der, some fish, some res⟩ []).1 t') :
    ∃ d fs, getConfigs parse base t' = .ok d ∧ fs.Nodup ∧ (∀ p, p ∈ fs ↔ IsForecast base t' p) ∧
      d.lookup "fcfg".toList = some (.many fs) ∧
      toConfigs d = some ⟨fs, [base ++ ["fish_cfg".toList, pname fish]], [base ++ ["cl_cfg".toList, pname cl]],
        base ++ ["pmm_cfg".toList, pname pmm], base ++ ["der_cfg".toList, pname der],
        base ++ ["res_cfg".toList, pname res], noExt⟩ := by
  set g : Given := ⟨some pmm, some cl, some der, some fish, some res⟩ with hgdef
  obtain ⟨l1, l2, l3, l4, l5, l6⟩ := isList_subdir
  obtain ⟨h0, hx, hother, hsub⟩ := create_spec outside dump base g [] hg (fun n _ c h => absurd h (by simp))
    (fun s h => absurd h (by simp))
  have w2 : ("pmm_cfg".toList, some pmm) ∈ wanted g := List.mem_cons_of_mem _ List.mem_cons_self
  have w3 : ("cl_cfg".toList, some cl) ∈ wanted g := List.mem_cons_of_mem _ (List.mem_cons_of_mem _ List.mem_cons_self)
  have w4 : ("der_cfg".toList, some der) ∈ wanted g :=
    List.mem_cons_of_mem _ (List.mem_cons_of_mem _ (List.mem_cons_of_mem _ List.mem_cons_self))
  have w5 : ("fish_cfg".toList, some fish) ∈ wanted g :=
    List.mem_cons_of_mem _ (List.mem_cons_of_mem _ (List.mem_cons_of_mem _ (List.mem_cons_of_mem _ List.mem_cons_self)))
  have w6 : ("res_cfg".toList, some res) ∈ wanted g :=
    List.mem_cons_of_mem _ (List.mem_cons_of_mem _ (List.mem_cons_of_mem _ (List.mem_cons_of_mem _
      (List.mem_cons_of_mem _ List.mem_cons_self))))
  obtain ⟨c2, _, t2⟩ := fresh_dir outside dump base g hg t' hw hs _ _ w2 (by decide +kernel)
  obtain ⟨c3, _, t3⟩ := fresh_dir outside dump base g hg t' hw hs _ _ w3 (by decide +kernel)
  obtain ⟨c4, _, t4⟩ := fresh_dir outside dump base g hg t' hw hs _ _ w4 (by decide +kernel)
  obtain ⟨c5, _, t5⟩ := fresh_dir outside dump base g hg t' hw hs _ _ w5 (by decide +kernel)
  obtain ⟨c6, _, t6⟩ := fresh_dir outside dump base g hg t' hw hs _ _ w6 (by decide +kernel)
  obtain ⟨s1, t1⟩ : ∃ s, t'.lookup "fcfg".toList = some (.dir s) := by
    obtain ⟨s, h, _⟩ := hsub "fcfg".toList none List.mem_cons_self
    exact (hs.dir _).mpr ⟨s, h⟩
  have tx : t'.lookup "external_dirs.json".toList = some (.file (dump noExt)) := (hs.file _ _).mpr hx
  have known : ∀ n s, t'.lookup n = some (.dir s) → n ∈ subdirs := by
    intro n s hn
    obtain ⟨s0, h⟩ := (hs.dir n).mp ⟨s, hn⟩
    by_contra hc
    by_cases he : n = "external_dirs.json".toList
    · subst he
      rw [hx] at h
      exact absurd h (by simp)
    · rw [hother n hc he] at h
      exact absurd h (by simp)
  obtain ⟨d, hd⟩ := (configs_iff parse base t' hw).mpr ⟨by
    intro n s hn
    have hk := known n s hn
    simp only [subdirs, List.mem_cons, List.not_mem_nil, or_false] at hk
    rcases hk with rfl | rfl | rfl | rfl | rfl | rfl
    · exact Or.inl l1
    · rw [t2] at hn; obtain rfl := Node.dir.inj (Option.some.inj hn); exact Or.inr (by simp)
    · exact Or.inl l2
    · rw [t4] at hn; obtain rfl := Node.dir.inj (Option.some.inj hn); exact Or.inr (by simp)
    · exact Or.inl l3
    · rw [t6] at hn; obtain rfl := Node.dir.inj (Option.some.inj hn); exact Or.inr (by simp),
    dump noExt, tx, by rw [hext]; rfl⟩
  obtain ⟨_, h2⟩ := readDirs_spec base t' hw.keys []
  obtain ⟨k1, _, _, c, x, kx1, kx2, kx3⟩ := configs_spec parse base t' hw d hd
  rw [tx] at kx1
  obtain rfl := Node.file.inj (Option.some.inj kx1)
  rw [hext] at kx2
  obtain rfl := Option.some.inj kx2
  obtain ⟨fs, hf1, hf2⟩ := k1 "fcfg".toList (by decide +kernel) l1 s1 t1
  have look : ∀ n s v, t'.lookup n = some (.dir s) → n ≠ "ext_dirs".toList → readDir base n s = .ok v →
      d.lookup n = some v := by
    intro n s v hn hne hv
    have hd' := hd
    unfold getConfigs at hd'
    rcases hr : readDirs base t' [] with e | d'
    · rw [hr] at hd'; exact absurd hd' (by simp)
    · rw [hr] at hd'
      simp only at hd'
      rcases hy : readExt parse t' with e | y
      · rw [hy] at hd'; exact absurd hd' (by simp)
      · rw [hy] at hd'
        obtain rfl := Except.ok.inj hd'
        rw [PyDict.lookup_set, if_neg hne, h2 d' hr n, hn]
        simp only [hv]
  have hfs : fs = (s1.filter fun f => endsWith ".json".toList f.1).map fun f => base ++ ["fcfg".toList, f.1] := by
    have hv : readDir base "fcfg".toList s1 = .ok (.many
        ((s1.filter fun f => endsWith ".json".toList f.1).map fun f => base ++ ["fcfg".toList, f.1])) := by
      unfold IsList at l1
      unfold readDir
      rw [if_pos l1]
    have := look _ _ _ t1 (by decide +kernel) hv
    rw [hf1] at this
    exact Val.many.inj (Option.some.inj this)
  have hnd : fs.Nodup := by
    have e : fs = ((s1.filter fun f => endsWith ".json".toList f.1).map (·.1)).map fun f => base ++ ["fcfg".toList, f] := by
      rw [hfs, List.map_map]
      rfl
    rw [e]
    refine List.Nodup.map ?_ (((List.filter_sublist (l := s1)).map _).nodup (hw.files _ _ t1))
    intro a b hab
    have := List.append_cancel_left hab
    exact (List.cons.inj (List.cons.inj this).2).1
  refine ⟨d, fs, hd, hnd, ?_, hf1, ?_⟩
  · intro p
    rw [hf2]
    constructor
    · rintro ⟨f, hf, he, rfl⟩
      obtain ⟨c, hc⟩ := Option.isSome_iff_exists.mp ((PyDict.lookup_isSome_iff s1 f).mpr hf)
      exact ⟨f, c, ⟨s1, t1, hc⟩, he, rfl⟩
    · rintro ⟨f, c, ⟨s, h1, hc⟩, he, rfl⟩
      rw [t1] at h1
      obtain rfl := Node.dir.inj (Option.some.inj h1)
      exact ⟨f, (PyDict.lookup_isSome_iff s1 f).mp (by rw [hc]; rfl), he, rfl⟩
  · unfold toConfigs
    rw [hf1, look _ _ _ t5 (by decide +kernel) (single_list base _ _ _ l3 hfish),
      look _ _ _ t3 (by decide +kernel) (single_list base _ _ _ l2 hcl),
      look _ _ _ t2 (by decide +kernel) (single_one base _ _ _ l4),
      look _ _ _ t4 (by decide +kernel) (single_one base _ _ _ l5),
      look _ _ _ t6 (by decide +kernel) (single_one base _ _ _ l6), kx3]

/-! ### Power spectra and lists of paths -/

/-- Where the power spectra come from: without angular spectra to compute there are none; otherwise they are the
directory given, or the existing paths on the lines of the file given, whose name must end with `txt`. -/
theorem pmm_dirs_iff (kind : Pth → Option Kind) (text : Pth → Str) (angular : Bool) (pmms : Option Pth)
    (l : List (Option Pth)) :
    getPmmDirs kind text angular pmms = .ok l ↔
      (angular = false ∧ l = [none]) ∨
      (angular = true ∧ ∃ p, pmms = some p ∧
        ((kind p = some .dir ∧ l = [some p]) ∨
          (kind p = some .file ∧ Ends "txt".toList (pname p) ∧
            (∀ line ∈ Boltzmann.splitLines (text p), (kind (toPath line)).isSome) ∧
            l = (Boltzmann.splitLines (text p)).map fun line => some (toPath line)))) := by
  unfold getPmmDirs
  cases angular with
  | false =>
    simp only [Bool.false_eq_true, if_false, Except.ok.injEq, false_and, or_false, true_and]
    exact eq_comm
  | true =>
    simp only [if_true, Bool.true_eq_false, false_and, false_or, true_and]
    cases pmms with
    | none => exact ⟨fun h => absurd h (by simp), fun ⟨p, h, _⟩ => absurd h (by simp)⟩
    | some p =>
      simp only
      constructor
      · intro h
        refine ⟨p, rfl, ?_⟩
        split at h
        · exact absurd h (by simp)
        · rename_i hk
          exact Or.inl ⟨hk, (Except.ok.inj h).symm⟩
        · rename_i hk
          right
          split at h
          · rename_i ht
            split at h
            · rename_i hall
              refine ⟨hk, (ends_iff _ _).mp ht, ?_, ?_⟩
              · intro line hline
                rw [List.all_eq_true] at hall
                exact hall _ (List.mem_map_of_mem hline)
              · rw [← Except.ok.inj h, List.map_map]
                rfl
            · exact absurd h (by simp)
          · exact absurd h (by simp)
        · exact absurd h (by simp)
      · rintro ⟨p', hp, h⟩
        obtain rfl := Option.some.inj hp
        rcases h with ⟨hk, rfl⟩ | ⟨hk, ht, hall, rfl⟩
        · rw [hk]
        · rw [hk]
          simp only
          rw [if_pos ((ends_iff _ _).mpr ht), if_pos]
          · rw [List.map_map]; rfl
          · rw [List.all_eq_true]
            intro q hq
            obtain ⟨line, hline, rfl⟩ := List.mem_map.mp hq
            exact hall line hline

/-- A name has the suffix `.txt` when it ends so and has something before. -/
theorem suffix_txt (name : Str) : suffix name = ".txt".toList ↔ ∃ r, r ≠ [] ∧ name = r ++ ".txt".toList := by
  have e : ".txt".toList = '.' :: "txt".toList := by decide +kernel
  have hdot : '.' ∉ "txt".toList := by decide +kernel
  have hlen : "txt".toList.length = 3 := by decide +kernel
  constructor
  · intro h
    unfold suffix at h
    split at h
    · rename_i i hi
      split at h
      · rename_i hb
        refine ⟨name.take i, ?_, by rw [← h, List.take_append_drop]⟩
        intro h0
        have := congrArg List.length h0
        rw [List.length_take, List.length_nil] at this
        omega
      · rw [e] at h
        exact absurd h (by simp)
    · rw [e] at h
      exact absurd h (by simp)
  · rintro ⟨r, hr, rfl⟩
    have hpos := List.length_pos_of_ne_nil hr
    unfold suffix
    rw [e, Orch.lastDot_append r _ hdot]
    simp only
    rw [if_pos, List.drop_left]
    rw [List.length_append, List.length_cons, hlen]
    omega

/-- If one of the paths is not a list file the paths are taken as they are; otherwise they are those on the lines of the
files, in order, which must all be there. -/
theorem paths_spec (text : Pth → Option Str) (ps : List Pth) :
    ((∃ p ∈ ps, suffix (pname p) ≠ ".txt".toList) → pathsOf text ps = .ok ps) ∧
    ((∀ p ∈ ps, suffix (pname p) = ".txt".toList) →
      ((∃ l, pathsOf text ps = .ok l) ↔ ∀ p ∈ ps, (text p).isSome) ∧
      ∀ l, pathsOf text ps = .ok l → l = ps.flatMap fun p =>
        (Boltzmann.splitLines ((text p).getD [])).map fun line => toPath (Boltzmann.strip line)) := by
  constructor
  · rintro ⟨p, hp, hne⟩
    unfold pathsOf
    rw [if_neg]
    intro h
    rw [List.all_eq_true] at h
    exact hne (of_decide_eq_true (h p hp))
  · intro h
    have e : pathsOf text ps = readLists text ps := by
      unfold pathsOf
      rw [if_pos]
      rw [List.all_eq_true]
      exact fun p hp => decide_eq_true (h p hp)
    rw [e]
    clear h e
    induction ps with
    | nil => exact ⟨⟨fun _ p hp => absurd hp (by simp), fun _ => ⟨[], rfl⟩⟩, fun l h => (Except.ok.inj h).symm⟩
    | cons p ps ih =>
      obtain ⟨i1, i2⟩ := ih
      rw [readLists]
      cases ht : text p with
      | none =>
        refine ⟨⟨fun ⟨l, h⟩ => absurd h (by simp), fun h => ?_⟩, fun l h => absurd h (by simp)⟩
        have := h p List.mem_cons_self
        rw [ht] at this
        exact absurd this (by simp)
      | some s =>
        simp only
        cases hr : readLists text ps with
        | error er =>
          refine ⟨⟨fun ⟨l, h⟩ => absurd h (by simp), fun h => ?_⟩, fun l h => absurd h (by simp)⟩
          obtain ⟨l, hl⟩ := i1.mpr fun q hq => h q (List.mem_cons_of_mem _ hq)
          rw [hr] at hl
          exact absurd hl (by simp)
        | ok l' =>
          refine ⟨⟨fun _ q hq => ?_, fun _ => ⟨_, rfl⟩⟩, fun l h => ?_⟩
          · rcases List.mem_cons.mp hq with rfl | hq
            · rw [ht]; rfl
            · exact i1.mp ⟨l', hr⟩ q hq
          · rw [← Except.ok.inj h, List.flatMap_cons, ht, i2 l' hr]
            rfl

/-- The list of run directories that the program itself writes, a `.json` file, is not read as a list: it is taken to be
a run directory. -/
theorem json_list_not_read (text : Pth → Option Str) (dir : Pth) (name : Str) (h : Ends ".json".toList name) :
    pathsOf text [dir ++ [name]] = .ok [dir ++ [name]] := by
  refine (paths_spec text _).1 ⟨_, List.mem_cons_self, ?_⟩
  have hname : pname (dir ++ [name]) = name := by
    unfold Orch.pname
    rw [List.getLast?_concat]
    rfl
  rw [hname, Ne, suffix_txt]
  rintro ⟨r, _, hr⟩
  obtain ⟨q, hq⟩ := h
  rw [hq] at hr
  have := congrArg List.reverse hr
  rw [List.reverse_append, List.reverse_append] at this
  have e1 : ".json".toList.reverse = 'n' :: "osj.".toList := by decide +kernel
  have e2 : ".txt".toList.reverse = 't' :: "xt.".toList := by decide +kernel
  rw [e1, e2, List.cons_append, List.cons_append] at this
  exact absurd (List.cons.inj this).1 (by decide)

/-! ### Runs on existing directories -/

theorem existing_keyvals (a : Orch.Args) (inputDir rundir : Pth) (inputs : Dict Str Pth) :
    (∃ k, existingKeyvals a inputDir rundir inputs = some k) ↔ Complete inputs := by
  unfold Complete existingKeyvals
  simp only [List.forall_mem_cons, List.not_mem_nil, false_imp_iff, implies_true, and_true]
  cases inputs.lookup "forecast".toList <;> cases inputs.lookup "PowerSpectrum".toList <;>
    cases inputs.lookup "Angular".toList <;> cases inputs.lookup "Derivative".toList <;>
    cases inputs.lookup "Fisher".toList <;> simp

/-- The arguments of a run on an existing directory: the directory itself and the configurations listed in it. -/
theorem existing_arguments (a : Orch.Args) (inputDir rundir : Pth) (inputs : Dict Str Pth) (k : Orch.Keyvals)
    (h : existingKeyvals a inputDir rundir inputs = some k) :
    k.lookup "rd".toList = some rundir ∧ k.lookup "i".toList = some inputDir ∧
    k.lookup "fcfg".toList = (inputs.lookup "forecast".toList).map (rundir ++ ·) ∧
    k.lookup "pmm_cfg".toList = (inputs.lookup "PowerSpectrum".toList).map (rundir ++ ·) ∧
    k.lookup "cl_cfg".toList = (inputs.lookup "Angular".toList).map (rundir ++ ·) ∧
    k.lookup "der_cfg".toList = (inputs.lookup "Derivative".toList).map (rundir ++ ·) ∧
    k.lookup "fish_cfg".toList = (inputs.lookup "Fisher".toList).map (rundir ++ ·) ∧
    k.lookup "ex".toList = some [a.ex] ∧ k.lookup "id".toList = none := by
  unfold existingKeyvals at h
  split at h
  · rename_i f p c d g hf hp hc hd hg
    obtain rfl := Option.some.inj h
    have cliKeys : ∀ n ∈ (Orch.cliItems a).map (·.1),
        n ∈ ["ex".toList, "q".toList, "ncj".toList, "mem".toList, "ini".toList] := by
      intro n hn
      unfold Orch.cliItems at hn
      cases hini : a.ini with
      | none => rw [hini] at hn; exact List.mem_append_left ["ini".toList] hn
      | some q => rw [hini] at hn; exact hn
    have low : ∀ n, n ∉ ["ex".toList, "q".toList, "ncj".toList, "mem".toList, "ini".toList] →
        ∀ base : Orch.Keyvals, (PyDict.update base (Orch.cliItems a)).lookup n = base.lookup n := by
      intro n hn base
      rw [PyDict.lookup_update, (Orch.lookup_reverse_none _ _).mpr, Option.none_or]
      exact fun hc => hn (cliKeys n hc)
    have nd : ∀ (v1 v2 v3 v4 v5 v6 v7 : Pth), (([("rd".toList, v1), ("i".toList, v2), ("fcfg".toList, v3),
      ("pmm_cfg".toList, v4), ("cl_cfg".toList, v5), ("der_cfg".toList, v6),
      ("fish_cfg".toList, v7)] : Orch.Keyvals).map (·.1)).Nodup := by
      intros
      show ["rd".toList, "i".toList, "fcfg".toList, "pmm_cfg".toList, "cl_cfg".toList, "der_cfg".toList,
        "fish_cfg".toList].Nodup
      decide +kernel
    rw [hf, hp, hc, hd, hg]
    simp only [Option.map_some]
    refine ⟨?_, ?_, ?_, ?_, ?_, ?_, ?_, ?_, ?_⟩
    · rw [low _ (by decide +kernel)]
      exact PyDict.lookup_of_mem _ (nd ..) (p := ("rd".toList, rundir)) (by simp only [List.mem_cons, true_or])
    · rw [low _ (by decide +kernel)]
      exact PyDict.lookup_of_mem _ (nd ..) (p := ("i".toList, inputDir)) (by simp only [List.mem_cons, true_or, or_true])
    · rw [low _ (by decide +kernel)]
      exact PyDict.lookup_of_mem _ (nd ..) (p := ("fcfg".toList, rundir ++ f)) (by simp only [List.mem_cons, true_or, or_true])
    · rw [low _ (by decide +kernel)]
      exact PyDict.lookup_of_mem _ (nd ..) (p := ("pmm_cfg".toList, rundir ++ p)) (by simp only [List.mem_cons, true_or, or_true])
    · rw [low _ (by decide +kernel)]
      exact PyDict.lookup_of_mem _ (nd ..) (p := ("cl_cfg".toList, rundir ++ c)) (by simp only [List.mem_cons, true_or, or_true])
    · rw [low _ (by decide +kernel)]
      exact PyDict.lookup_of_mem _ (nd ..) (p := ("der_cfg".toList, rundir ++ d)) (by simp only [List.mem_cons, true_or, or_true])
    · rw [low _ (by decide +kernel)]
      exact PyDict.lookup_of_mem _ (nd ..) (p := ("fish_cfg".toList, rundir ++ g)) (by simp only [List.mem_cons, true_or, or_true])
    · have ndc : ((Orch.cliItems a).map (·.1)).Nodup := by
        unfold Orch.cliItems
        cases a.ini with
        | none =>
          show ["ex".toList, "q".toList, "ncj".toList, "mem".toList].Nodup
          decide +kernel
        | some q =>
          show ["ex".toList, "q".toList, "ncj".toList, "mem".toList, "ini".toList].Nodup
          decide +kernel
      rw [PyDict.lookup_update, PyDict.lookup_reverse _ ndc,
        PyDict.lookup_of_mem _ ndc (p := ("ex".toList, [a.ex])) (by unfold Orch.cliItems; simp only [List.cons_append, List.mem_cons, true_or])]
      rfl
    · rw [low _ (by decide +kernel), PyDict.lookup_none_iff]
      show "id".toList ∉ ["rd".toList, "i".toList, "fcfg".toList, "pmm_cfg".toList, "cl_cfg".toList, "der_cfg".toList,
        "fish_cfg".toList]
      decide +kernel
  · exact absurd h (by simp)

/-- The runs on existing directories are made one after the other, in the order given, up to the first directory whose
list of input files is missing or lacks an entry. -/
theorem existing_runs (a : Orch.Args) (inputDir : Pth) (inputs : Pth → Option (Dict Str Pth)) (rs : List Pth) :
    ((onExisting a inputDir inputs rs).2 = true ↔ ∀ r ∈ rs, ∃ i, inputs r = some i ∧ Complete i) ∧
    ((onExisting a inputDir inputs rs).2 = true → (onExisting a inputDir inputs rs).1.length = rs.length) ∧
    ∀ (i : Nat) (k : Orch.Keyvals), (onExisting a inputDir inputs rs).1[i]? = some k →
      ∃ r f, rs[i]? = some r ∧ inputs r = some f ∧ existingKeyvals a inputDir r f = some k := by
  induction rs with
  | nil => exact ⟨⟨fun _ r hr => absurd hr (by simp), fun _ => rfl⟩, fun _ => rfl, fun i k h => absurd h (by simp [onExisting])⟩
  | cons r rs ih =>
    obtain ⟨i1, i2, i3⟩ := ih
    rw [onExisting]
    cases hb : (inputs r).bind (existingKeyvals a inputDir r) with
    | none =>
      refine ⟨⟨fun h => absurd h (by simp), fun h => ?_⟩, fun h => absurd h (by simp), fun i k h => absurd h (by simp)⟩
      obtain ⟨f, hf, hc⟩ := h r List.mem_cons_self
      obtain ⟨k, hk⟩ := (existing_keyvals a inputDir r f).mpr hc
      rw [hf, Option.bind_some, hk] at hb
      exact absurd hb (by simp)
    | some k0 =>
      obtain ⟨f0, hf0, hk0⟩ := Option.bind_eq_some_iff.mp hb
      simp only
      refine ⟨⟨fun h q hq => ?_, fun h => i1.mpr fun q hq => h q (List.mem_cons_of_mem _ hq)⟩, fun h => ?_, fun i k h => ?_⟩
      · rcases List.mem_cons.mp hq with rfl | hq
        · exact ⟨f0, hf0, (existing_keyvals a inputDir q f0).mp ⟨k0, hk0⟩⟩
        · exact i1.mp h q hq
      · rw [List.length_cons, List.length_cons, i2 h]
      · cases i with
        | zero =>
          obtain rfl := Option.some.inj h
          exact ⟨r, f0, rfl, hf0, hk0⟩
        | succ i => exact i3 i k h

/-! ### The whole program -/

variable (parse : C → Option Ext) (dump : Ext → C) (base inputDir : Pth)

/-- Nothing is done without a task or without a way of execution. -/
theorem main_refuses (w : World C) (c : Cli) (hc : c.create = false)
    (h : (c.args.angular = false ∧ c.args.derivative = false ∧ c.args.fisher = false) ∨ c.execution = none) :
    ∃ e, main parse dump base inputDir w c = .error e := by
  unfold main
  rw [hc]
  simp only [Bool.false_eq_true, if_false]
  rcases h with ⟨h1, h2, h3⟩ | h
  · rw [h1, h2, h3]
    exact ⟨.noTask, rfl⟩
  · rw [h]
    split
    · exact ⟨_, rfl⟩
    · exact ⟨_, rfl⟩

theorem main_work (w : World C) (c : Cli) (hc : c.create = false)
    (ht : c.args.angular = true ∨ c.args.derivative = true ∨ c.args.fisher = true) (he : c.execution ≠ none) :
    main parse dump base inputDir w c = work parse base inputDir w c := by
  unfold main
  rw [hc]
  simp only [Bool.false_eq_true, if_false]
  rw [if_neg]
  · cases h : c.execution with
    | none => exact absurd h he
    | some e => rfl
  · cases h1 : c.args.angular <;> cases h2 : c.args.derivative <;> cases h3 : c.args.fisher <;> simp_all

/-- Making the tree is all that is done when it is asked for, whatever else is. -/
theorem main_create (w : World C) (c : Cli) (hc : c.create = true) :
    main parse dump base inputDir w c =
      .created (createTree w.outside dump base c.given (w.tree.getD [])).1
        (createTree w.outside dump base c.given (w.tree.getD [])).2 := by
  unfold main
  rw [hc]
  rfl

/-- Runs on existing directories need a readable tree of configurations, although none of it is used, and power spectra
when angular spectra are computed. -/
theorem existing_needs (w : World C) (c : Cli) (hc : c.create = false) (rds : List Pth) (hr : c.rundirs = some rds)
    (k : List Orch.Keyvals) (b : Bool) (h : main parse dump base inputDir w c = .resumed k b) :
    (∃ t d, w.tree = some t ∧ getConfigs parse base t = .ok d) ∧
    (c.args.angular = true → ∃ p, c.pmms = some p ∧ (w.kind p).isSome) ∧
    ∃ l, pathsOf w.text rds = .ok l ∧ onExisting c.args inputDir w.inputs l = (k, b) := by
  unfold main at h
  rw [hc] at h
  simp only [Bool.false_eq_true, if_false] at h
  split at h
  · exact absurd h (by simp)
  · split at h
    · exact absurd h (by simp)
    · unfold work at h
      split at h
      · exact absurd h (by simp)
      · rename_i t htree
        split at h
        · exact absurd h (by simp)
        · rename_i d hd
          split at h
          · exact absurd h (by simp)
          · rename_i l hl
            rw [hr] at h
            simp only at h
            unfold resume at h
            split at h
            · exact absurd h (by simp)
            · rename_i l' hl'
              refine ⟨⟨t, d, htree, hd⟩, ?_, l', hl', ?_⟩
              · intro ha
                rcases (pmm_dirs_iff _ _ _ _ _).mp hl with ⟨h0, _⟩ | ⟨_, p, hp, hk⟩
                · rw [ha] at h0; exact absurd h0 (by simp)
                · refine ⟨p, hp, ?_⟩
                  rcases hk with ⟨hk, _⟩ | ⟨hk, _⟩ <;> rw [hk] <;> rfl
              · simp only [Outcome.resumed.injEq] at h
                exact Prod.ext h.1 h.2

/-- The same directories can be resumed whatever the tree holds. -/
theorem existing_ignores_tree (w w' : World C) (c : Cli) (hc : c.create = false) (rds : List Pth)
    (hr : c.rundirs = some rds) (ht : w.text = w'.text) (hi : w.inputs = w'.inputs)
    (k k' : List Orch.Keyvals) (b b' : Bool) (h : main parse dump base inputDir w c = .resumed k b)
    (h' : main parse dump base inputDir w' c = .resumed k' b') : k = k' ∧ b = b' := by
  obtain ⟨_, _, l, h1, h2⟩ := existing_needs parse dump base inputDir w c hc rds hr k b h
  obtain ⟨_, _, l', h1', h2'⟩ := existing_needs parse dump base inputDir w' c hc rds hr k' b' h'
  rw [ht, h1'] at h1
  obtain rfl := Except.ok.inj h1
  rw [hi, h2'] at h2
  exact ⟨(congrArg Prod.fst h2).symm, (congrArg Prod.snd h2).symm⟩

theorem multiple_mem (a : Orch.Args) (cs : Orch.Configs) (ps : List (Option Pth)) (inp : Pth) (ls : List Orch.Launch)
    (b : Bool) (h : Orch.multiple a cs ps inp = some (ls, b)) (run : Orch.Launch) (hr : run ∈ ls) :
    ∃ m : Orch.Combo, m.fcfg ∈ cs.fcfg ∧ m.fish ∈ cs.fish ∧ m.cl ∈ cs.cl ∧ m.pmm ∈ ps ∧
      Orch.newRun a cs (decide (cs.fish.length > 1)) (decide (cs.cl.length > 1)) inp m = some run := by
  have hn : Orch.multiple a cs ps inp ≠ none := by rw [h]; simp
  rw [Ne, Orch.refused_iff] at hn
  unfold Orch.multiple at h
  rw [if_neg (by tauto), if_neg (by tauto), if_neg (by tauto), if_neg (by tauto)] at h
  have h' := Option.some.inj h
  obtain ⟨i, hi⟩ := List.mem_iff_getElem?.mp hr
  have hi' : (Orch.runAll (Orch.newRun a cs (decide (cs.fish.length > 1)) (decide (cs.cl.length > 1)) inp)
      (Orch.combos (Orch.sortConfigs cs.fcfg) cs.fish cs.cl ps)).1[i]? = some run := by rw [h']; exact hi
  obtain ⟨m, hm, hrun⟩ := Orch.runAll_get _ _ _ _ hi'
  have hmem := List.mem_of_getElem? hm
  unfold Orch.combos at hmem
  obtain ⟨f, hf, hmem⟩ := List.mem_flatMap.mp hmem
  obtain ⟨g, hg, hmem⟩ := List.mem_flatMap.mp hmem
  obtain ⟨c, hc, hmem⟩ := List.mem_flatMap.mp hmem
  obtain ⟨p, hp, rfl⟩ := List.mem_map.mp hmem
  exact ⟨_, (Orch.sort_spec cs.fcfg).1.mem_iff.mp hf, hg, hc, hp, hrun⟩

/-- From making the tree to the runs. The tree is made with five files, forecast configurations are put into it, and the
program is started again: unless it is refused, for want of forecast configurations or of power spectra, every run it
makes has as arguments one of those forecast configurations, or one of the paths given on the command line instead, one
of the power spectra, and the copies of the five files; when no exception stops it there is one run for each forecast
configuration and each of the power spectra. -/
theorem orchestrated (outside : Pth → Option C) (hext : parse (dump noExt) = some noExt) (pmm cl der fish res : Pth)
    (hg : Readable outside base ⟨some pmm, some cl, some der, some fish, some res⟩)
    (hcl : Ends ".json".toList (pname cl)) (hfish : Ends ".json".toList (pname fish)) (t' : Tree C) (hwf : t'.WF)
    (hs : Same (createTree outside dump base ⟨some pmm, some cl, some der, some fish, some res⟩ []).1 t')
    (w : World C) (ht : w.tree = some t') (c : Cli) (hc : c.create = false) (hr : c.rundirs = none)
    (htask : c.args.angular = true ∨ c.args.derivative = true ∨ c.args.fisher = true) (he : c.execution ≠ none)
    (ps : List (Option Pth)) (hps : getPmmDirs w.kind (fun p => (w.text p).getD []) c.args.angular c.pmms = .ok ps)
    (F : List Pth) (hF : match c.fcfgs with
      | none => F.Nodup ∧ ∀ p, p ∈ F ↔ IsForecast base t' p
      | some l => pathsOf w.text l = .ok F) :
    ((F = [] ∨ ps = []) → main parse dump base inputDir w c = .error .refused) ∧
    ((F ≠ [] ∧ ps ≠ []) → ∃ l b, main parse dump base inputDir w c = .launched l b ∧
      (b = true → l.length = F.length * ps.length) ∧
      ∀ run ∈ l, ∃ f p, f ∈ F ∧ p ∈ ps ∧ run.keyvals.lookup "fcfg".toList = some f ∧
        run.keyvals.lookup "pmm_dir".toList = p ∧
        run.keyvals.lookup "cl_cfg".toList = some (base ++ ["cl_cfg".toList, pname cl]) ∧
        run.keyvals.lookup "fish_cfg".toList = some (base ++ ["fish_cfg".toList, pname fish]) ∧
        run.keyvals.lookup "pmm_cfg".toList = some (base ++ ["pmm_cfg".toList, pname pmm]) ∧
        run.keyvals.lookup "der_cfg".toList = some (base ++ ["der_cfg".toList, pname der]) ∧
        run.keyvals.lookup "res_cfg".toList = some (base ++ ["res_cfg".toList, pname res]) ∧
        run.keyvals.lookup "i".toList = some inputDir) := by
  obtain ⟨d, fs, hd, hnd, hfs, hlook, hcfg⟩ := prepared_configs outside dump parse hext base pmm cl der fish res hg hcl
    hfish t' hwf hs
  have hang : ps = [] → c.args.angular = true := by
    intro h0
    rcases (pmm_dirs_iff _ _ _ _ _).mp hps with ⟨_, h1⟩ | ⟨h1, _⟩
    · rw [h0] at h1; exact absurd h1 (by simp)
    · exact h1
  obtain ⟨G, hG, hmain⟩ : ∃ G : List Pth, G.Perm F ∧ main parse dump base inputDir w c =
      match Orch.multiple c.args ⟨G, [base ++ ["fish_cfg".toList, pname fish]], [base ++ ["cl_cfg".toList, pname cl]],
        base ++ ["pmm_cfg".toList, pname pmm], base ++ ["der_cfg".toList, pname der],
        base ++ ["res_cfg".toList, pname res], noExt⟩ ps inputDir with
      | none => .error .refused
      | some (l, b) => .launched l b := by
    rw [main_work parse dump base inputDir w c hc htask he]
    unfold work
    rw [ht]
    simp only [hd, hps, hr]
    unfold newRuns
    cases hf : c.fcfgs with
    | none =>
      rw [hf] at hF
      simp only at hF
      refine ⟨fs, (List.perm_ext_iff_of_nodup hnd hF.1).mpr fun p => (hfs p).trans (hF.2 p).symm, ?_⟩
      simp only [hcfg]
      split <;> simp_all only
    | some l =>
      rw [hf] at hF
      simp only at hF
      refine ⟨F, List.Perm.refl _, ?_⟩
      simp only [hF]
      have : toConfigs (PyDict.set d "fcfg".toList (.many F)) = some ⟨F, [base ++ ["fish_cfg".toList, pname fish]],
          [base ++ ["cl_cfg".toList, pname cl]], base ++ ["pmm_cfg".toList, pname pmm],
          base ++ ["der_cfg".toList, pname der], base ++ ["res_cfg".toList, pname res], noExt⟩ := by
        unfold toConfigs at hcfg ⊢
        rw [PyDict.lookup_set, PyDict.lookup_set, PyDict.lookup_set, PyDict.lookup_set, PyDict.lookup_set,
          PyDict.lookup_set, PyDict.lookup_set, if_pos rfl, if_neg (by decide +kernel), if_neg (by decide +kernel),
          if_neg (by decide +kernel), if_neg (by decide +kernel), if_neg (by decide +kernel), if_neg (by decide +kernel)]
        rw [hlook] at hcfg
        split at hcfg
        · rename_i f g q p1 p2 p3 e h1 h2 h3 h4 h5 h6 h7
          rw [h2, h3, h4, h5, h6, h7]
          simp only [Option.some.injEq, Orch.Configs.mk.injEq] at hcfg ⊢
          exact ⟨trivial, hcfg.2⟩
        · exact absurd hcfg (by simp)
      simp only [this]
      split <;> simp_all only
  rw [hmain]
  constructor
  · intro h
    have : Orch.multiple c.args ⟨G, [base ++ ["fish_cfg".toList, pname fish]], [base ++ ["cl_cfg".toList, pname cl]],
        base ++ ["pmm_cfg".toList, pname pmm], base ++ ["der_cfg".toList, pname der],
        base ++ ["res_cfg".toList, pname res], noExt⟩ ps inputDir = none := by
      rw [Orch.refused_iff]
      rcases h with rfl | h
      · exact Or.inl hG.eq_nil
      · exact Or.inr (Or.inr (Or.inr ⟨h, hang h⟩))
    rw [this]
  · rintro ⟨h1, h2⟩
    cases hm : Orch.multiple c.args ⟨G, [base ++ ["fish_cfg".toList, pname fish]], [base ++ ["cl_cfg".toList, pname cl]],
        base ++ ["pmm_cfg".toList, pname pmm], base ++ ["der_cfg".toList, pname der],
        base ++ ["res_cfg".toList, pname res], noExt⟩ ps inputDir with
    | none =>
      rw [Orch.refused_iff] at hm
      rcases hm with hm | hm | hm | hm
      · simp only at hm
        rw [hm] at hG
        exact absurd hG.symm.eq_nil h1
      · exact absurd hm (by simp)
      · exact absurd hm (by simp)
      · exact absurd hm.1 h2
    | some r =>
      obtain ⟨l, b⟩ := r
      refine ⟨l, b, rfl, ?_, ?_⟩
      · rintro rfl
        have := (Orch.one_per_combination _ _ _ _ _ hm).1
        simp only [List.length_singleton, Nat.one_mul] at this
        rw [this, hG.length_eq]
      · intro run hrun
        obtain ⟨m, m1, m2, m3, m4, m5⟩ := multiple_mem _ _ _ _ _ _ hm run hrun
        simp only [List.mem_singleton] at m1 m2 m3
        have noP : ∀ key p, (key, some p) ∉ noExt := by
          intro key p h
          unfold noExt at h
          rcases List.mem_cons.mp h with h | h
          · exact absurd (congrArg Prod.snd h) (by simp)
          · rcases List.mem_cons.mp h with h | h
            · exact absurd (congrArg Prod.snd h) (by simp)
            · rcases List.mem_cons.mp h with h | h
              · exact absurd (congrArg Prod.snd h) (by simp)
              · cases h
        obtain ⟨a1, a2, a3, a4, _⟩ := Orch.run_arguments_partial _ _ _ _ _ _ _ m5 (fun key _ p => noP key p)
        obtain ⟨b1, b2, b3, b4⟩ := Orch.run_settings _ _ _ _ _ _ _ m5 (fun key _ p => noP key p)
        refine ⟨m.fcfg, m.pmm, hG.mem_iff.mp m1, m4, a1, a4, ?_, ?_, b1, b2, b3, b4⟩
        · rw [a2, m3]
        · rw [a3, m2]

/-! ## Witnesses

Contents of files are natural numbers; `7` is the content of an untouched `external_dirs.json`. -/

def exDump (_ : Ext) : Nat := 7
def exParse (n : Nat) : Option Ext := if n = 7 then some noExt else none
def exBase : Pth := ["w".toList, "config".toList]
def exSrc (n : String) : Pth := ["src".toList, n.toList]
def exGiven : Given :=
  ⟨some (exSrc "p.json"), some (exSrc "c.json"), some (exSrc "d.json"), some (exSrc "f.json"), some (exSrc "r.json")⟩
def exOutside (p : Pth) : Option Nat := if p.head? = some "src".toList then some 3 else none
def exTree : Tree Nat := (createTree exOutside exDump exBase exGiven []).1
/-- The tree with the forecast configurations `a.json` and `b.json` and a stray `n.txt`. -/
def exFull : Tree Nat :=
  PyDict.set exTree "fcfg".toList (.dir [("a.json".toList, 1), ("n.txt".toList, 1), ("b.json".toList, 2)])
def exText (p : Pth) : Option Str := if p = ["l.txt".toList] then some "x/a\n\ny/b\n".toList else none
def exKind (p : Pth) : Option Kind := if p = ["pmm".toList] then some .dir else if p = ["l.txt".toList] then some .file
  else if p = [] then some .dir else if p.length = 2 then some .dir else none
def exInputs : Dict Str Pth :=
  [("forecast".toList, ["in".toList, "a".toList]), ("PowerSpectrum".toList, ["in".toList, "b".toList]),
    ("Angular".toList, ["in".toList, "c".toList]), ("Derivative".toList, ["in".toList, "d".toList]),
    ("Fisher".toList, ["in".toList, "e".toList])]
def exWorld (t : Tree Nat) : World Nat := ⟨exOutside, exKind, exText, fun _ => some exInputs, some t⟩
def exArgs : Orch.Args := ⟨true, false, true, "no".toList, "q".toList, "1".toList, "1".toList, none, []⟩
def exCli : Cli := ⟨exArgs, some "no".toList, false, exGiven, some ["pmm".toList], none, none⟩

example : (createTree exOutside exDump exBase exGiven []).2 = none := by decide +kernel
example : (filesIn exTree "cl_cfg".toList) = [("c.json".toList, 3)] := by decide +kernel

/-- Files in a fresh tree are where the reader expects them. -/
example : getConfigs exParse exBase exFull = .ok
    [("fcfg".toList, .many [exBase ++ ["fcfg".toList, "a.json".toList], exBase ++ ["fcfg".toList, "b.json".toList]]),
     ("pmm_cfg".toList, .one (exBase ++ ["pmm_cfg".toList, "p.json".toList])),
     ("cl_cfg".toList, .many [exBase ++ ["cl_cfg".toList, "c.json".toList]]),
     ("der_cfg".toList, .one (exBase ++ ["der_cfg".toList, "d.json".toList])),
     ("fish_cfg".toList, .many [exBase ++ ["fish_cfg".toList, "f.json".toList]]),
     ("res_cfg".toList, .one (exBase ++ ["res_cfg".toList, "r.json".toList])),
     ("ext_dirs".toList, .ext noExt)] := by rfl

/-- Two forecast configurations and one power spectrum directory: two runs. -/
example : ∃ l, main exParse exDump exBase [] (exWorld exFull) exCli = .launched l true ∧ l.length = 2 := ⟨_, rfl, rfl⟩

/-- A tree which was only made holds no forecast configuration: the program refuses to run on it. -/
theorem fresh_refused : main exParse exDump exBase [] (exWorld exTree) exCli = .error .refused := by rfl

/-- With two files where one is expected, the one the system lists first is taken: the configuration in use depends on
the order of a directory. -/
theorem one_file_by_order : ∃ s s' : Dict Str Nat, s'.Perm s ∧
    getConfigs exParse exBase (PyDict.set exFull "der_cfg".toList (.dir s)) ≠
      getConfigs exParse exBase (PyDict.set exFull "der_cfg".toList (.dir s')) := by
  refine ⟨[("x.json".toList, 1), ("y.json".toList, 2)], [("y.json".toList, 2), ("x.json".toList, 1)],
    List.Perm.swap _ _ _, ?_⟩
  intro h
  have e : ∀ a b : Except Err (Dict Str Val), a = b →
      (match a with | .ok d => List.lookup "der_cfg".toList d | .error _ => none) =
      (match b with | .ok d => List.lookup "der_cfg".toList d | .error _ => none) := by rintro a _ rfl; rfl
  have := e _ _ h
  revert this
  decide +kernel

/-- An emptied sub-directory of a single file makes the reading fail. -/
theorem one_file_missing : getConfigs exParse exBase (PyDict.set exFull "res_cfg".toList (.dir [])) = .error .empty := by
  rfl

/-- Making the tree again over an edited one sets the external directories back: `9` was the edited content. -/
theorem create_resets_external :
    (createTree exOutside exDump exBase exGiven (PyDict.set exFull "external_dirs.json".toList (.file 9))).2 = none ∧
    (createTree exOutside exDump exBase exGiven
      (PyDict.set exFull "external_dirs.json".toList (.file 9))).1.lookup "external_dirs.json".toList = some (.file 7) :=
  ⟨rfl, rfl⟩

/-- A blank line of a list is the current directory, in the list of power spectra and in the lists of forecast
configurations and of run directories. -/
theorem blank_lines :
    getPmmDirs exKind (fun p => (exText p).getD []) true (some ["l.txt".toList]) =
      .ok [some ["x".toList, "a".toList], some [], some ["y".toList, "b".toList]] ∧
    pathsOf exText [["l.txt".toList]] = .ok [["x".toList, "a".toList], [], ["y".toList, "b".toList]] := by
  exact ⟨rfl, rfl⟩

/-- The runs on existing directories are launched whatever the execution asked for, and need the tree. -/
theorem existing_launched_though_no :
    (∃ k, main exParse exDump exBase [] (exWorld exFull)
      { exCli with rundirs := some [["r1".toList], ["r2".toList]] } = .resumed k true ∧ k.length = 2) ∧
    main exParse exDump exBase [] { exWorld exFull with tree := none }
      { exCli with rundirs := some [["r1".toList], ["r2".toList]] } = .error .missing := ⟨⟨_, rfl, rfl⟩, rfl⟩

example : Complete exInputs := by unfold Complete; decide +kernel
example : Readable exOutside exBase exGiven := by
  intro n p h
  have : p ∈ (wanted exGiven).filterMap (·.2) := List.mem_filterMap.mpr ⟨_, h, rfl⟩
  have all : ∀ q ∈ (wanted exGiven).filterMap (·.2), ¬ exBase <+: q ∧ (exOutside q).isSome := by decide +kernel
  exact all p this

/-! ### Files inside the tree, and paths in lists -/

theorem strip_append (base q : Pth) : readAt.stripPrefix' base (base ++ q) = some q := by
  induction base with
  | nil => rfl
  | cons a b ih => rw [List.cons_append, readAt.stripPrefix', if_pos rfl, ih]

/-- C120. A configuration file that already lies in another sub-directory of the tree, or beside them, is copied too:
the sub-directory gets the content it has there under its own name, and nothing else changes. -/
theorem copies_from_tree (outside : Pth → Option C) (base : Pth) (t : Tree C) (d a f : Str) (s : Dict Str C) (c : C)
    (hd : ∀ x, t.lookup d ≠ some (.file x)) :
    (a ≠ d → t.lookup a = some (.dir s) → s.lookup f = some c →
      addDir outside base t (d, some (base ++ [a, f])) =
        (PyDict.set (PyDict.set t d (.dir (filesIn t d))) d (.dir (PyDict.set (filesIn t d) f c)), none)) ∧
    (a ≠ d → t.lookup a = some (.file c) → addDir outside base t (d, some (base ++ [a])) =
        (PyDict.set (PyDict.set t d (.dir (filesIn t d))) d (.dir (PyDict.set (filesIn t d) a c)), none)) := by
  have name2 : pname (base ++ [a, f]) = f := by simp [pname]
  have name1 : pname (base ++ [a]) = a := by simp [pname]
  constructor
  · intro hne ha hf
    rw [addDir_other outside base t _ hd]
    unfold addDir.copyInto readAt
    simp only [strip_append]
    rw [PyDict.lookup_set, if_neg hne, ha]
    simp only [hf, name2]
    rw [if_neg]
    intro e
    have := List.append_cancel_left e
    injection this with h _
    exact hne h
  · intro hne ha
    rw [addDir_other outside base t _ hd]
    unfold addDir.copyInto readAt
    simp only [strip_append]
    rw [PyDict.lookup_set, if_neg hne, ha]
    simp only [name1]
    rw [if_neg]
    intro e
    have := List.append_cancel_left e
    injection this with _ h
    cases h

/-- C120. A path written in a list: its components in order, without empty ones and single dots, after a first empty
one exactly if it begins with a slash. -/
theorem path_components (l : List Str) (hl : l ≠ []) (h : ∀ p ∈ l, '/' ∉ p) :
    toPath ('/' :: joinStr ['/'] l) = [] :: l.filter (fun p => decide (p ≠ [] ∧ p ≠ ".".toList)) ∧
    (l.head? ≠ some [] → toPath (joinStr ['/'] l) = l.filter (fun p => decide (p ≠ [] ∧ p ≠ ".".toList))) := by
  constructor
  · have e : '/' :: joinStr ['/'] l = joinStr ['/'] ([] :: l) := by
      cases l with
      | nil => exact absurd rfl hl
      | cons a l => rfl
    unfold toPath
    simp only
    rw [e, splitChar_join '/' ([] :: l) (by simp) (by
      intro p hp
      rcases List.mem_cons.mp hp with rfl | hp
      · simp
      · exact h p hp)]
    rfl
  · intro hh
    have hs : ∀ r, joinStr ['/'] l ≠ '/' :: r := by
      intro r e
      cases l with
      | nil => exact absurd rfl hl
      | cons a l =>
        cases a with
        | nil => exact hh rfl
        | cons x a =>
          have hx : x = '/' := by
            cases l with
            | nil => exact (List.cons.inj e).1
            | cons b l => exact (List.cons.inj e).1
          exact h _ List.mem_cons_self (by rw [hx]; exact List.mem_cons_self)
    have e : toPath (joinStr ['/'] l) = (splitChar '/' (joinStr ['/'] l)).filter fun p => decide (p ≠ [] ∧ p ≠ ['.']) := by
      unfold toPath
      split
      · rename_i r e; exact absurd e (hs r)
      · rfl
    rw [e, splitChar_join '/' l hl h]
    rfl

example : toPath "/a/./b//c".toList = [[], "a".toList, "b".toList, "c".toList] ∧
    toPath "./a/b".toList = ["a".toList, "b".toList] := by decide +kernel

/-! ## The theorems on these inputs -/

theorem exReadable : Readable exOutside exBase exGiven := by
  intro n p h
  have : p ∈ (wanted exGiven).filterMap (·.2) := List.mem_filterMap.mpr ⟨_, h, rfl⟩
  have all : ∀ q ∈ (wanted exGiven).filterMap (·.2), ¬ exBase <+: q ∧ (exOutside q).isSome := by decide +kernel
  exact all p this

example : exTree.lookup "external_dirs.json".toList = some (.file 7) :=
  (create_spec exOutside exDump exBase exGiven [] exReadable (fun _ _ _ h => absurd h nofun)
    (fun _ h => absurd h nofun)).2.1

/-- A source that cannot be read stops the making of the tree. -/
example : (createTree (fun _ => (none : Option Nat)) exDump exBase exGiven []).2 ≠ none := by
  intro h
  have := ((create_ok_iff (fun _ => (none : Option Nat)) exDump exBase exGiven []
    (fun n p hp => (exReadable n p hp).1)).mp h).1 "cl_cfg".toList (exSrc "c.json") (by decide +kernel)
  cases this

example : Has (createTree exOutside exDump exBase exGiven exFull).1 "fcfg".toList "a.json".toList 1 :=
  create_keeps _ _ _ _ _ _ _ _ ⟨_, rfl, by decide +kernel⟩ (fun p hp => by
    have : ∀ e ∈ wanted exGiven, e.1 = "fcfg".toList → e.2 = none := by decide +kernel
    exact absurd (this _ hp rfl) nofun)

/-- Giving the file which is already in the tree. -/
example : (createTree exOutside exDump exBase
    { exGiven with cl := some (exBase ++ ["cl_cfg".toList, "c.json".toList]) } exTree).2 ≠ none :=
  create_same_file _ _ _ _ _ "cl_cfg".toList "c.json".toList (by decide +kernel)

theorem exFull_wf : exFull.WF where
  keys := by decide +kernel
  files := by
    have all : ∀ e ∈ exFull, ((match e.2 with | .dir s => s | .file _ => [] : Dict Str Nat).map (·.1)).Nodup := by decide +kernel
    intro n s h
    exact all _ (PyDict.mem_of_lookup h)

example : ∃ c, exFull.lookup "external_dirs.json".toList = some (.file c) ∧ (exParse c).isSome :=
  ((configs_iff exParse exBase exFull exFull_wf).mp ⟨_, rfl⟩).2

/-- The stray text file is not among the forecast configurations. -/
example (d : Dict Str Val) (h : getConfigs exParse exBase exFull = .ok d) :
    ∃ l, d.lookup "fcfg".toList = some (.many l) ∧ exBase ++ ["fcfg".toList, "a.json".toList] ∈ l := by
  obtain ⟨l, hl, hp⟩ := (configs_spec exParse exBase exFull exFull_wf d h).1 "fcfg".toList (by decide +kernel) (Or.inl rfl)
    _ rfl
  exact ⟨l, hl, (hp _).mpr ⟨"a.json".toList, by decide +kernel, ⟨"a".toList, by decide +kernel⟩, rfl⟩⟩

example : pathsOf exText [["d".toList] ++ ["l.json".toList]] = .ok [["d".toList] ++ ["l.json".toList]] :=
  json_list_not_read _ _ _ ⟨"l".toList, by decide +kernel⟩

example : ∃ e, main exParse exDump exBase [] (exWorld exFull) { exCli with execution := none } = .error e :=
  main_refuses _ _ _ _ _ _ rfl (Or.inr rfl)

example : main exParse exDump exBase [] (exWorld exFull) exCli = work exParse exBase [] (exWorld exFull) exCli :=
  main_work _ _ _ _ _ _ rfl (Or.inl rfl) nofun

example : main exParse exDump exBase [] (exWorld exFull) { exCli with create := true } =
    .created (createTree exOutside exDump exBase exGiven exFull).1 (createTree exOutside exDump exBase exGiven exFull).2 :=
  main_create _ _ _ _ _ _ rfl

example (k : List Orch.Keyvals) (b : Bool) (h : main exParse exDump exBase [] (exWorld exFull)
      { exCli with rundirs := some [["r1".toList], ["r2".toList]] } = .resumed k b) :
    ∃ t d, (exWorld exFull).tree = some t ∧ getConfigs exParse exBase t = .ok d :=
  (existing_needs _ _ _ _ _ _ rfl _ rfl k b h).1

/-- The bare tree and the one with forecast configurations. -/
example (k k' : List Orch.Keyvals) (b b' : Bool)
    (h : main exParse exDump exBase [] (exWorld exFull)
      { exCli with rundirs := some [["r1".toList], ["r2".toList]] } = .resumed k b)
    (h' : main exParse exDump exBase [] (exWorld exTree)
      { exCli with rundirs := some [["r1".toList], ["r2".toList]] } = .resumed k' b') : k = k' ∧ b = b' :=
  existing_ignores_tree _ _ _ _ _ _ _ rfl _ rfl rfl rfl k k' b b' h h'

end Seyfert.OrchIn
