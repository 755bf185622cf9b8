import Verif.Spec.Args
import Verif.Lemmas.PyDict
import Verif.Props.Compare
import Verif.Props.OrchInputs

/-! C151: objects with the options of a program. -/

namespace Seyfert.Args
open OrchIn (toPath)

theorem lookup_update_nodup (o d : Dict Str Val) (h : (d.map (·.1)).Nodup) (n : Str) :
    (PyDict.update o d).lookup n = (d.lookup n).or (o.lookup n) := by
  rw [PyDict.lookup_update, PyDict.lookup_reverse d h]

theorem lookup_step (o : Obj) (x : Op) (hx : Regular x) (n : Str) :
    (step o x).1.lookup n = latest (fun m => o.lookup m) [x] n := by
  cases x with
  | setAttr m v => exact PyDict.lookup_set o m n v
  | setItem m v => exact PyDict.lookup_set o m n v
  | update d =>
    show (PyDict.update o d).lookup n = _
    rw [lookup_update_nodup o d hx]
    show _ = match d.lookup n with | some v => some v | none => o.lookup n
    cases d.lookup n <;> rfl
  | delAttr m =>
    show (if m ∈ o.map (·.1) then (PyDict.erase o m, none) else (o, some Err.attributeError)).1.lookup n =
      if n = m then none else o.lookup n
    split
    · exact PyDict.lookup_erase o m n
    · rename_i h
      split
      · rename_i e
        rw [e]
        exact (PyDict.lookup_none_iff o m).2 h
      · rfl
  | delItem m =>
    show (if m ∈ o.map (·.1) then (PyDict.erase o m, none) else (o, some Err.keyError)).1.lookup n =
      if n = m then none else o.lookup n
    split
    · exact PyDict.lookup_erase o m n
    · rename_i h
      split
      · rename_i e
        rw [e]
        exact (PyDict.lookup_none_iff o m).2 h
      · rfl

theorem latest_append (start : Str → Option Val) (x : Op) (l : List Op) (n : Str) :
    latest start (x :: l) n = latest (fun m => latest start l m) [x] n := by
  cases x <;> rfl

theorem lookup_steps (o : Obj) (l : List Op) (h : ∀ x ∈ l, Regular x) (n : Str) :
    (steps o l).lookup n = latest (fun m => o.lookup m) l.reverse n := by
  induction l using List.reverseRecOn generalizing n with
  | nil => rfl
  | append_singleton l x ih =>
    have e : steps o (l ++ [x]) = (step (steps o l) x).1 := by
      unfold steps
      rw [List.foldl_append]
      rfl
    have e' : (l ++ [x]).reverse = x :: l.reverse := by rw [List.reverse_append]; rfl
    rw [e, e', lookup_step _ _ (h x (List.mem_append_right _ List.mem_cons_self))]
    have : (fun m => (steps o l).lookup m) = fun m => latest (fun m => o.lookup m) l.reverse m :=
      funext fun m => ih (fun y hy => h y (List.mem_append_left _ hy)) m
    rw [this]
    exact (latest_append _ _ _ _).symm

/-- After any history of changes, by attributes or by items, an attribute that is not a method has the value given last, and is
missing if it was deleted since or never given. -/
theorem attribute_history (o : Obj) (l : List Op) (h : ∀ x ∈ l, Regular x) (n : Str) (hn : n ∉ methods) (v : Val) :
    (getAttr (steps o l) n = .ok (.val v) ↔ latest (fun m => o.lookup m) l.reverse n = some v) ∧
    (getAttr (steps o l) n = .error .attributeError ↔ latest (fun m => o.lookup m) l.reverse n = none) := by
  rw [← lookup_steps o l h]
  unfold getAttr
  rw [if_neg hn]
  cases (steps o l).lookup n with
  | none => exact ⟨⟨nofun, nofun⟩, ⟨fun _ => rfl, fun _ => rfl⟩⟩
  | some w => exact ⟨⟨fun e => by cases e; rfl, fun e => by cases e; rfl⟩, ⟨nofun, nofun⟩⟩

/-- A change is refused exactly if it deletes what is not there, and then changes nothing. -/
theorem refused_iff (o : Obj) (x : Op) : ((step o x).2 ≠ none ↔ ∃ n, n ∉ o.map (·.1) ∧ (x = .delAttr n ∨ x = .delItem n)) ∧
    ((step o x).2 ≠ none → (step o x).1 = o) := by
  cases x with
  | setAttr m v => exact ⟨⟨fun h => absurd rfl h, fun ⟨n, _, h⟩ => by rcases h with h | h <;> cases h⟩, fun h => absurd rfl h⟩
  | setItem m v => exact ⟨⟨fun h => absurd rfl h, fun ⟨n, _, h⟩ => by rcases h with h | h <;> cases h⟩, fun h => absurd rfl h⟩
  | update d => exact ⟨⟨fun h => absurd rfl h, fun ⟨n, _, h⟩ => by rcases h with h | h <;> cases h⟩, fun h => absurd rfl h⟩
  | delAttr m =>
    by_cases hm : m ∈ o.map (·.1)
    · have e : step o (.delAttr m) = (PyDict.erase o m, none) := if_pos hm
      rw [e]
      exact ⟨⟨fun h => absurd rfl h, fun ⟨n, hn, h⟩ => by rcases h with h | h <;> cases h; exact absurd hm hn⟩, fun h => absurd rfl h⟩
    · have e : step o (.delAttr m) = (o, some .attributeError) := if_neg hm
      rw [e]
      exact ⟨⟨fun _ => ⟨m, hm, .inl rfl⟩, fun _ => nofun⟩, fun _ => rfl⟩
  | delItem m =>
    by_cases hm : m ∈ o.map (·.1)
    · have e : step o (.delItem m) = (PyDict.erase o m, none) := if_pos hm
      rw [e]
      exact ⟨⟨fun h => absurd rfl h, fun ⟨n, hn, h⟩ => by rcases h with h | h <;> cases h; exact absurd hm hn⟩, fun h => absurd rfl h⟩
    · have e : step o (.delItem m) = (o, some .keyError) := if_neg hm
      rw [e]
      exact ⟨⟨fun _ => ⟨m, hm, .inr rfl⟩, fun _ => nofun⟩, fun _ => rfl⟩

/-- An option with the name of a method can be given but never be read as an attribute. -/
theorem method_hides (o : Obj) (n : Str) (hn : n ∈ methods) (v : Val) :
    getAttr (step o (.setAttr n v)).1 n = .ok .method ∧ (step o (.setAttr n v)).1.lookup n = some v := by
  refine ⟨if_pos hn, ?_⟩
  show (PyDict.set o n v).lookup n = _
  rw [PyDict.lookup_set, if_pos rfl]

/-! ### Changing the types -/

theorem castPath_eq (v : Val) : castPath v = match asPath v with | some w => .ok w | none => .error .typeError := by
  cases v <;> rfl

theorem castAll_cons (pl : Str → Bool) (n : Str) (v : Val) (o : Obj) : castAll pl ((n, v) :: o) =
    match want pl n v with
    | none => ((n, v) :: o, some .typeError)
    | some w => ((n, w) :: (castAll pl o).1, (castAll pl o).2) := by
  unfold want
  conv_lhs => unfold castAll
  cases pl n with
  | false => rfl
  | true =>
    rw [if_pos rfl, if_pos rfl, castPath_eq]
    cases asPath v <;> rfl

theorem castAll_ok (pl : Str → Bool) (o : Obj) : (castAll pl o).2 = none ↔ ∀ p ∈ o, (want pl p.1 p.2).isSome := by
  induction o with
  | nil => exact ⟨fun _ => nofun, fun _ => rfl⟩
  | cons p o ih =>
    obtain ⟨n, v⟩ := p
    rw [castAll_cons, List.forall_mem_cons, ← ih]
    dsimp only
    cases e : want pl n v with
    | none => exact ⟨nofun, fun h => nomatch h.1⟩
    | some w => exact ⟨fun h => ⟨rfl, h⟩, fun h => h.2⟩

theorem castAll_err (pl : Str → Bool) (o : Obj) (e : Err) (h : (castAll pl o).2 = some e) : e = .typeError := by
  induction o with
  | nil => cases h
  | cons p o ih =>
    obtain ⟨n, v⟩ := p
    rw [castAll_cons] at h
    cases hw : want pl n v with
    | none => rw [hw] at h; cases h; rfl
    | some w => rw [hw] at h; exact ih h

theorem castAll_keys (pl : Str → Bool) (o : Obj) : (castAll pl o).1.map (·.1) = o.map (·.1) := by
  induction o with
  | nil => rfl
  | cons p o ih =>
    obtain ⟨n, v⟩ := p
    rw [castAll_cons]
    cases hw : want pl n v with
    | none => rfl
    | some w =>
      show n :: (castAll pl o).1.map (·.1) = _
      rw [ih]
      rfl

theorem castAll_lookup (pl : Str → Bool) (o : Obj) (h : (castAll pl o).2 = none) (n : Str) :
    (castAll pl o).1.lookup n = (o.lookup n).bind (want pl n) := by
  induction o with
  | nil => rfl
  | cons p o ih =>
    obtain ⟨m, v⟩ := p
    rw [castAll_cons] at h ⊢
    cases hw : want pl m v with
    | none => rw [hw] at h; cases h
    | some w =>
      rw [hw] at h
      dsimp only at h ⊢
      rw [List.lookup_cons, List.lookup_cons]
      by_cases e : n = m
      · subst e
        rw [beq_self_eq_true]
        exact hw.symm
      · rw [beq_false_of_ne e]
        exact ih h

theorem castInt_ok (v w : Val) : castInt v = .ok w ↔ asInt v = some w := by
  cases v with
  | text s =>
    unfold castInt asInt
    dsimp only
    cases RunS.parseInt s with
    | none => exact ⟨nofun, nofun⟩
    | some n => exact ⟨fun e => by cases e; rfl, fun e => by cases e; rfl⟩
  | path p => exact ⟨nofun, nofun⟩
  | none => exact ⟨fun e => by cases e; rfl, fun e => by cases e; rfl⟩
  | int n => exact ⟨fun e => by cases e; rfl, fun e => by cases e; rfl⟩
  | bool b => exact ⟨fun e => by cases e; rfl, fun e => by cases e; rfl⟩

theorem cast_spec (c : Cls) (hs : c.hasStep = true → c.pathLike "step".toList = false) (o : Obj)
    (hd : c.hasStep = true → "step".toList ∈ o.map (·.1)) (hn : (o.map (·.1)).Nodup) :
    ((cast c o).2 = none ↔ ∀ p ∈ o, (final c p.1 p.2).isSome) ∧
    ((cast c o).2 = none → ∀ n, (cast c o).1.lookup n = (o.lookup n).bind (final c n)) := by
  have hok := castAll_ok c.pathLike o
  have hlk := castAll_lookup c.pathLike o
  unfold cast
  cases hst : c.hasStep with
  | false =>
    have hf : ∀ n v, final c n v = want c.pathLike n v := fun n v => if_neg (by rw [hst]; exact fun h => nomatch h.1)
    simp only [hf]
    cases hc : castAll c.pathLike o with
    | mk o' x =>
      rw [hc] at hok hlk
      cases x with
      | some e => exact ⟨⟨nofun, fun h => nomatch hok.2 h⟩, nofun⟩
      | none => exact ⟨⟨fun _ => hok.1 rfl, fun _ => rfl⟩, fun _ n => hlk rfl n⟩
  | true =>
    have hw : ∀ v, want c.pathLike "step".toList v = some v := fun v => if_neg (by rw [hs hst]; exact Bool.false_ne_true)
    have hf : ∀ n v, n ≠ "step".toList → final c n v = want c.pathLike n v := fun n v e => if_neg fun h => e h.2
    have hf' : ∀ v, final c "step".toList v = asInt v := fun v => if_pos ⟨hst, rfl⟩
    obtain ⟨v, hv⟩ := Option.isSome_iff_exists.1 ((PyDict.lookup_isSome_iff o _).2 (hd hst))
    have hall : (∀ p ∈ o, (final c p.1 p.2).isSome) ↔ (∀ p ∈ o, (want c.pathLike p.1 p.2).isSome) ∧ (asInt v).isSome := by
      constructor
      · intro h
        refine ⟨fun p hp => ?_, ?_⟩
        · by_cases e : p.1 = "step".toList
          · rw [e, hw]; rfl
          · rw [← hf _ _ e]; exact h p hp
        · have := h ("step".toList, v) (PyDict.mem_of_lookup hv)
          rwa [hf'] at this
      · intro h p hp
        by_cases e : p.1 = "step".toList
        · obtain ⟨n, w⟩ := p
          dsimp only at e
          subst e
          have := PyDict.lookup_of_mem o hn hp
          dsimp only at this
          rw [hv] at this
          cases this
          rw [hf']
          exact h.2
        · rw [hf _ _ e]; exact h.1 p hp
    rw [hall]
    cases hc : castAll c.pathLike o with
    | mk o' x =>
      rw [hc] at hok hlk
      cases x with
      | some e => exact ⟨⟨nofun, fun h => nomatch hok.2 h.1⟩, nofun⟩
      | none =>
        have hv' : o'.lookup "step".toList = some v := by rw [hlk rfl, hv]; exact hw v
        dsimp only
        rw [if_pos rfl, hv']
        dsimp only
        cases hi : castInt v with
        | error e =>
          refine ⟨⟨nofun, fun h => ?_⟩, nofun⟩
          obtain ⟨w, hw⟩ := Option.isSome_iff_exists.1 h.2
          rw [← castInt_ok, hi] at hw
          cases hw
        | ok w =>
          have hi' := (castInt_ok v w).1 hi
          dsimp only
          split
          · rename_i e
            refine ⟨⟨fun _ => ⟨hok.1 rfl, by rw [hi']; rfl⟩, fun _ => rfl⟩, fun _ n => ?_⟩
            rw [hlk rfl]
            by_cases en : n = "step".toList
            · rw [en, hv]
              show want c.pathLike "step".toList v = final c "step".toList v
              rw [hw, hf', hi', e]
              subst e
              cases hi'
              rfl
            · cases o.lookup n with
              | none => rfl
              | some u => exact (hf _ _ en).symm
          · refine ⟨⟨fun _ => ⟨hok.1 rfl, by rw [hi']; rfl⟩, fun _ => rfl⟩, fun _ n => ?_⟩
            dsimp only
            rw [PyDict.lookup_set]
            by_cases en : n = "step".toList
            · rw [if_pos en, en, hv]
              show some w = final c "step".toList v
              rw [hf', hi']
            · rw [if_neg en, hlk rfl]
              cases o.lookup n with
              | none => rfl
              | some u => exact (hf _ _ en).symm

/-! ### The classes -/

theorem class_facts : ∀ c ∈ classes, c.names.Nodup ∧ (∀ n ∈ c.names, n ∉ methods) ∧
    (c.hasStep = true → c.pathLike "step".toList = false ∧ "step".toList ∈ c.names) := by
  intro c hc
  simp only [classes, List.mem_cons, List.not_mem_nil, or_false] at hc
  rcases hc with rfl | rfl | rfl | rfl | rfl <;> decide +kernel

theorem blank_eq (c : Cls) (h : c.names.Nodup) : blank c = c.names.map fun n => (n, Val.none) := by
  unfold blank
  refine PyDict.ofItems_nodup _ ?_
  rw [List.map_map]
  have : ((fun p : Str × Val => p.1) ∘ fun n => (n, Val.none)) = id := rfl
  rw [this, List.map_id]
  exact h

theorem blank_keys (c : Cls) (h : c.names.Nodup) : (blank c).map (·.1) = c.names := by
  rw [blank_eq c h, List.map_map]
  exact List.map_id _

theorem blank_lookup (c : Cls) (h : c.names.Nodup) (n : Str) : (blank c).lookup n = if n ∈ c.names then some .none else none := by
  by_cases hn : n ∈ c.names
  · rw [if_pos hn]
    refine PyDict.lookup_of_mem _ (by rw [blank_keys c h]; exact h) (p := (n, Val.none)) ?_
    rw [blank_eq c h]
    exact List.mem_map.2 ⟨n, hn, rfl⟩
  · rw [if_neg hn, PyDict.lookup_none_iff, blank_keys c h]
    exact hn

theorem readArgs_spec {c : Cls} (hc : c ∈ classes) (o : Obj) (hk : ∀ n ∈ c.names, n ∈ o.map (·.1)) (ho : (o.map (·.1)).Nodup)
    (g : Given) (d : Dict Str Val) (hg : g.items = some d) (hd : (d.map (·.1)).Nodup) :
    ((readArgs c o g).2 = none ↔ ∀ n v, ((d.lookup n).or (o.lookup n)) = some v → (final c n v).isSome) ∧
    ((readArgs c o g).2 = none → ∀ n, (readArgs c o g).1.lookup n = ((d.lookup n).or (o.lookup n)).bind (final c n)) := by
  have e : readArgs c o g = cast c (PyDict.update o d) := by
    cases g with
    | dict d' => cases hg; rfl
    | ns d' => cases hg; rfl
    | other => cases hg
  have hn := PyDict.nodup_update o d ho
  have hs := (class_facts c hc).2.2
  have hl := lookup_update_nodup o d hd
  have h := cast_spec c (fun h => (hs h).1) (PyDict.update o d) (fun h => by
    rw [← PyDict.lookup_isSome_iff, hl]
    have := (PyDict.lookup_isSome_iff o _).2 (hk _ (hs h).2)
    cases d.lookup "step".toList with
    | none => exact this
    | some v => rfl) hn
  rw [e, h.1]
  refine ⟨⟨fun h' n v hv => ?_, fun h' p hp => ?_⟩, fun h' n => ?_⟩
  · rw [← hl] at hv
    exact h' (n, v) (PyDict.mem_of_lookup hv)
  · refine h' p.1 p.2 ?_
    rw [← hl]
    exact PyDict.lookup_of_mem _ hn hp
  · rw [h.2 (h.1.2 h') n, hl]

/-- An object of a program is made exactly if the arguments that are paths and the step can be made so; the other arguments are
free. -/
theorem construct_iff {c : Cls} (hc : c ∈ classes) (g : Given) (d : Dict Str Val) (hg : g.items = some d)
    (hd : (d.map (·.1)).Nodup) : (∃ o, construct c (some g) = .ok o) ↔ ∀ n v, d.lookup n = some v → (final c n v).isSome := by
  have hf := class_facts c hc
  have h := readArgs_spec hc (blank c) (fun n hn => by rw [blank_keys c hf.1]; exact hn) (by rw [blank_keys c hf.1]; exact hf.1)
    g d hg hd
  have e : (∃ o, construct c (some g) = .ok o) ↔ (readArgs c (blank c) g).2 = none := by
    unfold construct
    dsimp only
    cases readArgs c (blank c) g with
    | mk o x =>
      cases x with
      | none => exact ⟨fun _ => rfl, fun _ => ⟨o, rfl⟩⟩
      | some x => exact ⟨fun ⟨_, h⟩ => (nomatch h), nofun⟩
  rw [e, h.1]
  constructor
  · intro h n v hv
    exact h n v (by rw [hv]; rfl)
  · intro h n v hv
    cases hl : d.lookup n with
    | some w => rw [hl] at hv; cases hv; exact h n _ hl
    | none =>
      rw [hl, Option.none_or, blank_lookup c hf.1] at hv
      split at hv
      · cases hv
        unfold final want
        split
        · rfl
        · split <;> rfl
      · cases hv

/-- Its attributes: what was given, changed to a path or number where its name says so; nothing (`None`) for the other options of the
program; all others are missing. -/
theorem construct_attributes {c : Cls} (hc : c ∈ classes) (g : Given) (d : Dict Str Val) (hg : g.items = some d)
    (hd : (d.map (·.1)).Nodup) (o : Obj) (h : construct c (some g) = .ok o) (n : Str) (hn : n ∉ methods) :
    (∀ v, d.lookup n = some v → ∃ w, final c n v = some w ∧ getAttr o n = .ok (.val w)) ∧
    (d.lookup n = none → n ∈ c.names → getAttr o n = .ok (.val .none)) ∧
    (d.lookup n = none → n ∉ c.names → getAttr o n = .error .attributeError) := by
  have hf := class_facts c hc
  have hr := readArgs_spec hc (blank c) (fun n hn => by rw [blank_keys c hf.1]; exact hn) (by rw [blank_keys c hf.1]; exact hf.1)
    g d hg hd
  unfold construct at h
  dsimp only at h
  cases e : readArgs c (blank c) g with
  | mk o' x =>
    rw [e] at h hr
    cases x with
    | some x => cases h
    | none =>
      cases h
      have hlk := hr.2 rfl n
      dsimp only at hlk
      have hok := hr.1.1 rfl n
      unfold getAttr
      rw [if_neg hn, hlk]
      refine ⟨fun v hv => ?_, fun hv hm => ?_, fun hv hm => ?_⟩
      · have hv' : (d.lookup n).or ((blank c).lookup n) = some v := by rw [hv]; rfl
        obtain ⟨w, hw⟩ := Option.isSome_iff_exists.1 (hok v hv')
        refine ⟨w, hw, ?_⟩
        rw [hv']
        show (match final c n v with | some v => Except.ok (Attr.val v) | none => .error Err.attributeError) = _
        rw [hw]
      · rw [hv, Option.none_or, blank_lookup c hf.1, if_pos hm]
        have : final c n .none = some .none := by
          unfold final want
          split
          · rfl
          · split <;> rfl
        show (match final c n .none with | some v => Except.ok (Attr.val v) | none => .error Err.attributeError) = _
        rw [this]
      · rw [hv, Option.none_or, blank_lookup c hf.1, if_neg hm]
        rfl

/-- Without arguments all options of the program are there, with nothing in them. -/
theorem without_arguments {c : Cls} (hc : c ∈ classes) : ∃ o, construct c none = .ok o ∧ ∀ n, n ∉ methods →
    getAttr o n = if n ∈ c.names then .ok (.val .none) else .error .attributeError := by
  refine ⟨_, rfl, fun n hn => ?_⟩
  unfold getAttr
  rw [if_neg hn, blank_lookup c (class_facts c hc).1]
  split
  · rename_i v hv
    split at hv
    · rename_i hm
      cases hv
      rw [if_pos hm]
    · cases hv
  · rename_i hv
    split at hv
    · cases hv
    · rename_i hm
      rw [if_neg hm]

/-- Something that is neither a dictionary nor a namespace is refused. -/
theorem other_refused (c : Cls) (o : Obj) : readArgs c o .other = (o, some .typeError) ∧ construct c (some .other) = .error .typeError :=
  ⟨rfl, rfl⟩

/-- The step given to the program which computes spectra becomes the whole number it stands for, and the object is not
made if there is none; a step given to the other programs stays as it is. -/
theorem step_number (g : Given) (d : Dict Str Val) (hg : g.items = some d) (hd : (d.map (·.1)).Nodup) (v : Val)
    (hv : d.lookup "step".toList = some v) :
    (∀ o, construct cl (some g) = .ok o → ∃ w, asInt v = some w ∧ getAttr o "step".toList = .ok (.val w)) ∧
    (asInt v = none → ∀ o, construct cl (some g) ≠ .ok o) ∧
    (∀ c ∈ classes, c.names ≠ cl.names → ∀ o, construct c (some g) = .ok o → getAttr o "step".toList = .ok (.val v)) := by
  have hcl : cl ∈ classes := by simp only [classes, List.mem_cons, true_or, or_true]
  have hm : "step".toList ∉ methods := by decide +kernel
  have key : ∀ o, construct cl (some g) = .ok o → ∃ w, asInt v = some w ∧ getAttr o "step".toList = .ok (.val w) := by
    intro o ho
    obtain ⟨w, hw, ha⟩ := (construct_attributes hcl g d hg hd o ho "step".toList hm).1 v hv
    exact ⟨w, by rw [← hw]; exact (if_pos ⟨rfl, rfl⟩).symm, ha⟩
  refine ⟨key, fun hn o ho => ?_, fun c hc hne o ho => ?_⟩
  · obtain ⟨w, hw, _⟩ := key o ho
    rw [hn] at hw
    cases hw
  · obtain ⟨w, hw, ha⟩ := (construct_attributes hc g d hg hd o ho "step".toList hm).1 v hv
    have e : c.hasStep = false ∧ c.pathLike "step".toList = false := by
      simp only [classes, List.mem_cons, List.not_mem_nil, or_false] at hc
      rcases hc with rfl | rfl | rfl | rfl | rfl
      · decide +kernel
      · decide +kernel
      · exact absurd rfl hne
      · decide +kernel
      · decide +kernel
    have : final c "step".toList v = some v := by
      unfold final want
      rw [if_neg (fun h => by rw [e.1] at h; cases h.1), if_neg (by rw [e.2]; decide)]
    rw [this] at hw
    cases hw
    exact ha

/-- The options of each program, all of which can be read as attributes; those which are made paths. -/
theorem path_options :
    (∀ c ∈ classes, ∀ n ∈ c.names, n ∉ methods) ∧
    job.names.filter job.pathLike = ["forecast_config".toList, "powerspectrum_config".toList, "angular_config".toList,
      "derivative_config".toList, "fisher_config".toList, "input_data_dir".toList, "powerspectrum_dir".toList,
      "angular_dir".toList, "derivative_dir".toList, "fisher_dir".toList] ∧
    main.names.filter main.pathLike = ["rundir".toList, "workdir".toList, "main_config".toList, "forecast_config".toList,
      "input_data_dir".toList] ∧
    cl.names.filter cl.pathLike = ["rundir".toList, "workdir".toList, "main_config".toList, "forecast_config".toList,
      "input_data_dir".toList, "power_spectrum_dir".toList] ∧
    der.names.filter der.pathLike = ["rundir".toList, "workdir".toList, "main_config".toList, "forecast_config".toList,
      "input_data_dir".toList, "angular_dir".toList] ∧
    fisher.names.filter fisher.pathLike = ["rundir".toList, "workdir".toList, "main_config".toList, "forecast_config".toList,
      "input_data_dir".toList, "outdir".toList] :=
  ⟨fun c hc => (class_facts c hc).2.1, by decide +kernel, by decide +kernel, by decide +kernel, by decide +kernel, by decide +kernel⟩

theorem endsWith_iff (w s : Str) : OrchIn.endsWith w s = true ↔ w <:+ s := by
  unfold OrchIn.endsWith
  rw [Option.isSome_iff_exists]
  constructor
  · rintro ⟨t, ht⟩
    have := (stripPrefix_eq_some _ _ _).1 ht
    refine ⟨t.reverse, ?_⟩
    rw [← List.reverse_reverse s, this, List.reverse_append, List.reverse_reverse]
  · rintro ⟨t, rfl⟩
    refine ⟨t.reverse, ?_⟩
    rw [List.reverse_append]
    exact stripPrefix_append _ _

/-- For the submission of jobs a name is a path if it contains `_config` or `_dir` anywhere; for the other programs if it ends in
`config` or `dir`. -/
theorem path_names (n : Str) : (job.pathLike n = true ↔ "_config".toList <:+: n ∨ "_dir".toList <:+: n) ∧
    (main.pathLike n = true ↔ "config".toList <:+ n ∨ "dir".toList <:+ n) := by
  constructor
  · show jobPath n = true ↔ _
    unfold jobPath
    rw [Bool.or_eq_true, Compare.contains_iff, Compare.contains_iff]
  · show mainPath n = true ↔ _
    unfold mainPath
    rw [Bool.or_eq_true, endsWith_iff, endsWith_iff]

/-- Directory and file names of digits only, which the conversion of the command line makes numbers, are refused. -/
theorem number_refused {c : Cls} (hc : c ∈ classes) (d : Dict Str Val) (hd : (d.map (·.1)).Nodup) (n : Str)
    (hp : c.pathLike n = true) (k : Int) (hk : d.lookup n = some (.int k)) : ∀ o, construct c (some (.dict d)) ≠ .ok o := by
  intro o ho
  have := (construct_iff hc (.dict d) d rfl hd).1 ⟨o, ho⟩ n _ hk
  have hne : ¬ (c.hasStep = true ∧ n = "step".toList) := by
    rintro ⟨h1, rfl⟩
    rw [((class_facts c hc).2.2 h1).1] at hp
    cases hp
  unfold final want at this
  rw [if_neg hne, if_pos hp] at this
  cases this

theorem construct_keys {c : Cls} (hc : c ∈ classes) (d : Dict Str Val) (hd : (d.map (·.1)).Nodup) (o : Obj)
    (h : construct c (some (.dict d)) = .ok o) : (o.map (·.1)).Nodup ∧ ∀ n ∈ c.names, n ∈ o.map (·.1) := by
  have hf := class_facts c hc
  have hu := PyDict.nodup_update (blank c) d (by rw [blank_keys c hf.1]; exact hf.1)
  have hn : (o.map (·.1)).Nodup := by
    unfold construct at h
    change (match cast c (PyDict.update (blank c) d) with | (_, some e) => Except.error e | (o, none) => .ok o) = _ at h
    have hk := castAll_keys c.pathLike (PyDict.update (blank c) d)
    unfold cast at h
    cases e : castAll c.pathLike (PyDict.update (blank c) d) with
    | mk o' x =>
      rw [e] at h hk
      dsimp only at hk
      have hu' : (o'.map (·.1)).Nodup := by rw [hk]; exact hu
      cases x with
      | some x => cases h
      | none =>
        dsimp only at h
        split at h
        · cases h
        · rename_i o2 h2
          cases h
          split at h2
          · split at h2
            · cases h2
            · split at h2
              · cases h2
              · split at h2
                · cases h2; exact hu'
                · cases h2; exact PyDict.nodup_set _ _ _ hu'
          · cases h2; exact hu'
  refine ⟨hn, fun n hm => ?_⟩
  rw [← PyDict.lookup_isSome_iff]
  have h3 := construct_attributes hc (.dict d) d rfl hd o h n (hf.2.1 n hm)
  have hg : ∀ w, getAttr o n = .ok (.val w) → (o.lookup n).isSome := by
    intro w hw
    unfold getAttr at hw
    rw [if_neg (hf.2.1 n hm)] at hw
    cases hl : o.lookup n with
    | none => rw [hl] at hw; cases hw
    | some u => rfl
  cases hl : d.lookup n with
  | none => exact hg _ (h3.2.1 hl hm)
  | some v =>
    obtain ⟨w, _, hw⟩ := h3.1 v hl
    exact hg w hw

/-- Reading the same arguments again changes nothing. -/
theorem read_again {c : Cls} (hc : c ∈ classes) (d : Dict Str Val) (hd : (d.map (·.1)).Nodup) (o : Obj)
    (h : construct c (some (.dict d)) = .ok o) :
    (readArgs c o (.dict d)).2 = none ∧ ∀ n, (readArgs c o (.dict d)).1.lookup n = o.lookup n := by
  have hf := class_facts c hc
  obtain ⟨ho, hk⟩ := construct_keys hc d hd o h
  have hr := readArgs_spec hc (blank c) (fun n hn => by rw [blank_keys c hf.1]; exact hn) (by rw [blank_keys c hf.1]; exact hf.1)
    (.dict d) d rfl hd
  have hr2 := readArgs_spec hc o hk ho (.dict d) d rfl hd
  unfold construct at h
  dsimp only at h
  cases e : readArgs c (blank c) (.dict d) with
  | mk o' x =>
    rw [e] at h hr
    cases x with
    | some x => cases h
    | none =>
      cases h
      have idem : ∀ n v w, final c n v = some w → final c n w = some w := by
        intro n v w h
        unfold final at h ⊢
        split at h
        · rename_i hh
          rw [if_pos hh]
          cases v with
          | none => cases h; rfl
          | text s =>
            change (RunS.parseInt s).map Val.int = some w at h
            cases hp : RunS.parseInt s with
            | none => rw [hp] at h; cases h
            | some k => rw [hp] at h; cases h; rfl
          | path p => cases h
          | int k => cases h; rfl
          | bool b => cases h; rfl
        · rename_i hh
          rw [if_neg hh]
          unfold want at h ⊢
          split at h
          · rename_i hp
            rw [if_pos hp]
            cases v <;> cases h <;> rfl
          · rename_i hp
            rw [if_neg hp]
      have key : ∀ n v, (d.lookup n).or (o.lookup n) = some v → final c n v = o.lookup n := by
        intro n v hv
        have h1 := hr.2 rfl n
        dsimp only at h1
        cases hl : d.lookup n with
        | some w =>
          rw [hl] at hv h1
          cases hv
          exact h1.symm
        | none =>
          rw [hl, Option.none_or] at hv h1
          rw [hv]
          rw [hv] at h1
          cases hb : (blank c).lookup n with
          | none => rw [hb] at h1; cases h1
          | some u => rw [hb] at h1; exact idem n u v h1.symm
      have some_of : ∀ n v, (d.lookup n).or (o.lookup n) = some v → (o.lookup n).isSome := by
        intro n v hv
        cases hl : d.lookup n with
        | none => rw [hl, Option.none_or] at hv; rw [hv]; rfl
        | some w =>
          have h1 := hr.2 rfl n
          have h2 := hr.1.1 rfl n w (by rw [hl]; rfl)
          dsimp only at h1
          rw [h1, hl]
          exact h2
      have ok2 := hr2.1.2 fun n v hv => by rw [key n v hv]; exact some_of n v hv
      refine ⟨ok2, fun n => ?_⟩
      rw [hr2.2 ok2 n]
      cases hv : (d.lookup n).or (o.lookup n) with
      | some v => exact key n v hv
      | none =>
        cases hl : d.lookup n with
        | some w => rw [hl] at hv; cases hv
        | none => rw [hl, Option.none_or] at hv; exact hv.symm

/-! ### Examples -/

/-- A directory is made a path, the step a number. -/
example : (construct cl (some (.ns [("rundir".toList, .text "a/b".toList), ("step".toList, .text "-3".toList),
    ("logfile".toList, .text "a/b".toList)]))).map
      (fun o => (getAttr o "rundir".toList, getAttr o "step".toList, getAttr o "logfile".toList, getAttr o "dvar".toList)) =
    .ok (.ok (.val (.path ["a".toList, "b".toList])), .ok (.val (.int (-3))), .ok (.val (.text "a/b".toList)),
      .ok (.val .none)) := by decide +kernel

/-- A directory with a name of digits. -/
example : construct job (some (.dict [("input_data_dir".toList, .int 2020)])) = .error .typeError := by decide +kernel

/-- The run directory is left as it is by the submission of jobs. -/
example : (construct job (some (.dict [("rundir".toList, .text "a".toList)]))).map (getAttr · "rundir".toList) =
    .ok (.ok (.val (.text "a".toList))) := by decide +kernel

/-- A history: deleted, then missing. -/
example : (getAttr (steps [] [.setAttr "a".toList (.int 1), .setItem "a".toList (.int 2)]) "a".toList = .ok (.val (.int 2))) ∧
    getAttr (steps [] [.setAttr "a".toList (.int 1), .delItem "a".toList]) "a".toList = .error .attributeError := by decide +kernel

end Seyfert.Args
