import Mathlib.Tactic.Ring
import Mathlib.Tactic.Linarith
import Mathlib.Tactic.FieldSimp
import Mathlib.Data.Rat.Cast.Order
import Verif.Spec.TaskConfig
import Verif.Lemmas.PyDict

/-!
C133: a job computes with the settings which its runner had. C134: the settings are used as they stand in the file.
-/

namespace Seyfert.TaskCfg

/-! ### Settings are places -/

theorem item_obj (d : List (Str × J)) (k : Str) : (J.obj d).item k = match d.lookup k with
    | some v => .ok v
    | none => .error .keyError := rfl

theorem item_at (v : J) (k : Str) (ks : List Str) : ((v.item k).toOption.bind (·.at ks)) = v.at (k :: ks) := by
  cases v with
  | obj d =>
    rw [item_obj, J.at]
    cases d.lookup k <;> rfl
  | _ => rfl

theorem bind_toOption {α β : Type} (x : Except Err α) (f : α → Except Err β) :
    (x.bind f).toOption = x.toOption.bind (fun a => (f a).toOption) := by
  cases x <;> rfl

theorem at_nil (v : J) : v.at [] = some v := by cases v <;> rfl

theorem item_one (v : J) (k : Str) : (v.item k).toOption = v.at [k] := by
  rw [← item_at]
  cases v.item k with
  | error e => rfl
  | ok w => exact (at_nil w).symm

theorem read_two (v : J) (k l : Str) : ((v.item k).bind (·.item l)).toOption = v.at [k, l] := by
  rw [bind_toOption, ← item_at]
  congr 1
  funext w
  exact item_one w l

theorem read_three (v : J) (k l m : Str) : (((v.item k).bind (·.item l)).bind (·.item m)).toOption = v.at [k, l, m] := by
  rw [bind_toOption, bind_toOption, ← item_at, Option.bind_assoc]
  congr 1
  funext w
  rw [← item_at]
  congr 1
  funext w
  exact item_one w m

/-- **C133, what a setting is.** Every setting gives what stands at its place in the dictionary, and there is an exception
if there is nothing. -/
theorem get_place (t : Setting) (o : Obj) : (t.get o).toOption = (J.obj o.dict).at t.place := by
  cases t
  · exact read_two (.obj o.dict) "redshift_grid".toList "z_min".toList
  · exact read_two (.obj o.dict) "redshift_grid".toList "z_max".toList
  · exact read_two (.obj o.dict) "redshift_grid".toList "n_redshifts".toList
  · exact read_two (.obj o.dict) "boltzmann_codes_settings".toList "code".toList
  · exact read_two (.obj o.dict) "boltzmann_codes_settings".toList "class".toList
  · exact read_three (.obj o.dict) "boltzmann_codes_settings".toList "camb".toList "ini_filename".toList
  · exact read_two (.obj o.dict) "cl_integration_settings".toList "lensing_efficiency".toList
  · exact read_two (.obj o.dict) "cl_integration_settings".toList "cl".toList
  · exact read_two (.obj o.dict) "limber_pmm_spline_settings".toList "kx".toList
  · exact read_two (.obj o.dict) "limber_pmm_spline_settings".toList "ky".toList
  · exact read_two (.obj o.dict) "limber_pmm_spline_settings".toList "s".toList
  · exact item_one (.obj o.dict) "angular_dir".toList
  · exact item_one (.obj o.dict) "shot_noise_phsp_xc_factor".toList
  · exact item_one (.obj o.dict) "fisher_formula".toList
  · exact item_one (.obj o.dict) "cl_derivatives".toList

/-! ### Setting -/

/-- `f` sets what is at the place `p` to `x`. -/
structure Sets (f : J → Except Err J) (p : List Str) (x : J) : Prop where
  here : ∀ v w, f v = .ok w → w.at p = some x
  away : ∀ v w, f v = .ok w → ∀ q, ¬ q <+: p → ¬ p <+: q → w.at q = v.at q
  shape : ∀ v w, f v = .ok w → ∃ d k y, v = .obj d ∧ w = .obj (PyDict.set d k y) ∧ p.head? = some k
  works : ∀ v, (∃ w, f v = .ok w) ↔ ∃ d, v.at p.dropLast = some (.obj d)

theorem at_cons (d : List (Str × J)) (k : Str) (ks : List Str) : (J.obj d).at (k :: ks) = (d.lookup k).bind (·.at ks) := by
  rw [J.at]
  cases d.lookup k <;> rfl

theorem sets_item (x : J) (k : Str) : Sets (J.setItem x k) [k] x where
  here v w h := by
    cases v with
    | obj d =>
      obtain rfl : J.obj (PyDict.set d k x) = w := by injection h
      rw [at_cons, PyDict.lookup_set, if_pos rfl, Option.bind_some, at_nil]
    | _ => cases h
  away v w h q h1 h2 := by
    cases v with
    | obj d =>
      obtain rfl : J.obj (PyDict.set d k x) = w := by injection h
      cases q with
      | nil => exact absurd (List.nil_prefix) h1
      | cons a q =>
        rw [at_cons, at_cons, PyDict.lookup_set, if_neg]
        rintro rfl
        exact h2 ⟨q, rfl⟩
    | _ => cases h
  shape v w h := by
    cases v with
    | obj d =>
      obtain rfl : J.obj (PyDict.set d k x) = w := by injection h
      exact ⟨d, k, x, rfl, rfl, rfl⟩
    | _ => cases h
  works v := by
    rw [show [k].dropLast = ([] : List Str) from rfl, at_nil]
    cases v with
    | obj d => exact ⟨fun _ => ⟨d, rfl⟩, fun _ => ⟨_, rfl⟩⟩
    | _ =>
      constructor
      · rintro ⟨w, h⟩; cases h
      · rintro ⟨d, h⟩; cases h

theorem inPlace_ok {f : J → Except Err J} {k : Str} {v w : J} (h : J.inPlace k f v = .ok w) :
    ∃ d u u', v = .obj d ∧ d.lookup k = some u ∧ f u = .ok u' ∧ w = .obj (PyDict.set d k u') := by
  unfold J.inPlace at h
  cases v with
  | obj d =>
    cases hk : d.lookup k with
    | none => rw [show (J.obj d).item k = .error .keyError by rw [item_obj, hk]] at h; cases h
    | some u =>
      rw [show (J.obj d).item k = .ok u by rw [item_obj, hk]] at h
      dsimp only at h
      cases hf : f u with
      | error e => rw [hf] at h; cases h
      | ok u' =>
        rw [hf] at h
        exact ⟨d, u, u', rfl, hk, hf, by injection h with h; exact h.symm⟩
  | _ => cases h

theorem sets_inPlace {f : J → Except Err J} {p : List Str} {x : J} (k : Str) (hp : p ≠ []) (hf : Sets f p x) :
    Sets (J.inPlace k f) (k :: p) x where
  here v w h := by
    obtain ⟨d, u, u', rfl, h1, h2, rfl⟩ := inPlace_ok h
    rw [at_cons, PyDict.lookup_set, if_pos rfl]
    exact hf.here u u' h2
  away v w h q h1 h2 := by
    obtain ⟨d, u, u', rfl, h3, h4, rfl⟩ := inPlace_ok h
    cases q with
    | nil => exact absurd (List.nil_prefix) h1
    | cons a q =>
      rw [at_cons, at_cons, PyDict.lookup_set]
      by_cases e : a = k
      · subst e
        rw [if_pos rfl, h3, Option.bind_some, Option.bind_some]
        exact hf.away u u' h4 q (fun e => h1 (List.cons_prefix_cons.mpr ⟨rfl, e⟩))
          (fun e => h2 (List.cons_prefix_cons.mpr ⟨rfl, e⟩))
      · rw [if_neg e]
  shape v w h := by
    obtain ⟨d, u, u', rfl, h3, h4, rfl⟩ := inPlace_ok h
    exact ⟨d, k, u', rfl, rfl, rfl⟩
  works v := by
    rw [List.dropLast_cons_of_ne_nil hp]
    constructor
    · rintro ⟨w, h⟩
      obtain ⟨d, u, u', rfl, h3, h4, rfl⟩ := inPlace_ok h
      rw [at_cons, h3, Option.bind_some]
      exact (hf.works u).mp ⟨u', h4⟩
    · rintro ⟨d', h⟩
      cases v with
      | obj d =>
        rw [at_cons] at h
        obtain ⟨u, h3, h4⟩ := Option.bind_eq_some_iff.mp h
        obtain ⟨u', h5⟩ := (hf.works u).mpr ⟨d', h4⟩
        refine ⟨.obj (PyDict.set d k u'), ?_⟩
        unfold J.inPlace
        rw [show (J.obj d).item k = .ok u by rw [item_obj, h3]]
        dsimp only
        rw [h5]
        rfl
      | _ => cases h

/-- Every setter sets its place. -/
theorem setter_sets (s : Setter) (v : J) :
    ∃ f, Sets f s.setting.place v ∧ ∀ o, s.set o v = o.change f := by
  cases s
  · exact ⟨_, sets_inPlace _ (by decide) (sets_item v _), fun _ => rfl⟩
  · exact ⟨_, sets_inPlace _ (by decide) (sets_item v _), fun _ => rfl⟩
  · exact ⟨_, sets_inPlace _ (by decide) (sets_item v _), fun _ => rfl⟩
  · exact ⟨_, sets_inPlace _ (by decide) (sets_item v _), fun _ => rfl⟩
  · exact ⟨_, sets_inPlace _ (by decide) (sets_inPlace _ (by decide) (sets_item v _)), fun _ => rfl⟩
  · exact ⟨_, sets_item v _, fun _ => rfl⟩

theorem change_ok {f : J → Except Err J} {o o' : Obj} (h : o.change f = .ok o') :
    f (.obj o.dict) = .ok (.obj o'.dict) ∧ o'.type = o.type := by
  unfold Obj.change at h
  split at h
  · next d hd => injection h with h; rw [← h]; exact ⟨hd, rfl⟩
  · cases h
  · cases h

theorem setting_all (P : Setting → Prop) [DecidablePred P]
    (h : [Setting.zMin, .zMax, .nRedshifts, .code, .classSettings, .cambIni, .lensingMethod, .clMethod, .kx, .ky, .smoothing,
      .clDir, .xcFactor, .formula, .clDerivatives].all (fun s => decide (P s)) = true) (s : Setting) : P s := by
  rw [List.all_eq_true] at h
  exact of_decide_eq_true (h s (by cases s <;> decide))

/-- No place lies on the way to another one. -/
theorem places_apart (s t : Setting) (h : s ≠ t) : ¬ s.place <+: t.place := by
  revert t
  refine setting_all (fun s => ∀ t ∈ [Setting.zMin, .zMax, .nRedshifts, .code, .classSettings, .cambIni, .lensingMethod,
    .clMethod, .kx, .ky, .smoothing, .clDir, .xcFactor, .formula, .clDerivatives], s ≠ t → ¬ s.place <+: t.place) ?_ s |>
    fun key t => key t (by cases t <;> decide)
  decide +kernel

/-- **C133, setting a value.** If a setter succeeds, the setting has the new value, and all other settings are as before. -/
theorem set_get (s : Setter) (o o' : Obj) (v : J) (h : s.set o v = .ok o') :
    (s.setting.get o').toOption = some v ∧
    (∀ t, t ≠ s.setting → (t.get o').toOption = (t.get o).toOption) ∧ o'.type = o.type := by
  obtain ⟨f, hf, e⟩ := setter_sets s v
  rw [e] at h
  obtain ⟨h1, h2⟩ := change_ok h
  refine ⟨?_, fun t ht => ?_, h2⟩
  · rw [get_place]
    exact hf.here _ _ h1
  · rw [get_place, get_place]
    exact hf.away _ _ h1 _ (places_apart t _ ht) (places_apart _ t (fun e => ht e.symm))

/-- **C133, when setting works.** A setter succeeds if and only if the dictionary which the setting is in exists: a setting
can be added to its section, a section can not be added. -/
theorem set_works (s : Setter) (o : Obj) (v : J) :
    (∃ o', s.set o v = .ok o') ↔ ∃ d, (J.obj o.dict).at s.setting.place.dropLast = some (.obj d) := by
  obtain ⟨f, hf, e⟩ := setter_sets s v
  rw [e, ← hf.works]
  constructor
  · rintro ⟨o', h⟩
    exact ⟨_, (change_ok h).1⟩
  · rintro ⟨w, h⟩
    obtain ⟨d, k, y, h1, h2, -⟩ := hf.shape _ _ h
    unfold Obj.change
    rw [h, h2]
    exact ⟨_, rfl⟩

/-! ### Objects in histories -/

/-- The keys of a dictionary are distinct. -/
def Obj.Sound (o : Obj) : Prop := (o.dict.map (·.1)).Nodup

/-- The type stands first. -/
def Obj.Typed (o : Obj) : Prop := ∃ v l, o.dict = (typeKey, v) :: l

theorem set_first {d : List (Str × J)} (h : ∃ v l, d = (typeKey, v) :: l) (k : Str) (x : J) :
    ∃ v l, PyDict.set d k x = (typeKey, v) :: l := by
  obtain ⟨v, l, rfl⟩ := h
  unfold PyDict.set
  split
  · exact ⟨_, _, rfl⟩
  · exact ⟨_, _, rfl⟩

theorem update_first (o : List (Str × J)) : ∀ {d : List (Str × J)}, (∃ v l, d = (typeKey, v) :: l) →
    ∃ v l, PyDict.update d o = (typeKey, v) :: l := by
  induction o with
  | nil => exact id
  | cons p o ih => intro d h; exact ih (set_first h p.1 p.2)

theorem load_keeps {o o' : Obj} {c : Option J} (h : o.load c = .ok o') :
    (o.Sound → o'.Sound) ∧ (o.Typed → o'.Typed) ∧ o'.type = o.type := by
  cases c with
  | none => cases h
  | some j =>
    cases j with
    | obj d =>
      obtain rfl : { o with dict := PyDict.update o.dict d } = o' := by injection h
      exact ⟨fun h => PyDict.nodup_update _ _ h, fun h => update_first d h, rfl⟩
    | _ => cases h

theorem create_good {cls : Str} {c : Option (Option J)} {o : Obj} (h : create cls c = .ok o) :
    o.Sound ∧ o.Typed ∧ o.type = cls := by
  have h0 : (⟨cls, PyDict.set [] typeKey (.str cls)⟩ : Obj).Sound ∧ (⟨cls, PyDict.set [] typeKey (.str cls)⟩ : Obj).Typed :=
    ⟨List.pairwise_singleton _ _, _, _, rfl⟩
  cases c with
  | none =>
    obtain rfl : (⟨cls, PyDict.set [] typeKey (.str cls)⟩ : Obj) = o := by injection h
    exact ⟨h0.1, h0.2, rfl⟩
  | some c =>
    obtain ⟨h1, h2, h3⟩ := load_keeps h
    exact ⟨h1 h0.1, h2 h0.2, h3⟩

theorem put_objs {s : State} {i : Nat} {x : Except Err Obj} {P : Nat → Obj → Prop} (h : ∀ j o, s.objs j = some o → P j o)
    (hx : ∀ o, x = .ok o → P i o) : ∀ j o, (put s i x).1.objs j = some o → P j o := by
  intro j o hj
  cases x with
  | error e => exact h j o hj
  | ok o1 =>
    change (if j = i then some o1 else s.objs j) = some o at hj
    split at hj
    · next e =>
      rw [e]
      refine hx o ?_
      injection hj with hj
      rw [hj]
    · exact h j o hj

theorem set_keeps {s : Setter} {o o' : Obj} {v : J} (h : s.set o v = .ok o') :
    (o.Sound → o'.Sound) ∧ (o.Typed → o'.Typed) := by
  obtain ⟨f, hf, e⟩ := setter_sets s v
  rw [e] at h
  obtain ⟨h1, -⟩ := change_ok h
  obtain ⟨d, k, y, h2, h3, -⟩ := hf.shape _ _ h1
  injection h2 with h2
  injection h3 with h3
  unfold Obj.Sound Obj.Typed
  rw [h3, ← h2]
  exact ⟨fun h => PyDict.nodup_set _ _ _ h, fun h => set_first h k y⟩

theorem step_sound (s : State) (op : Op) (h : ∀ j o, s.objs j = some o → o.Sound) :
    ∀ j o, (step s op).1.objs j = some o → o.Sound := by
  cases op with
  | create i cls p =>
    cases p with
    | none => exact put_objs h (fun o e => (create_good e).1)
    | some p => exact put_objs h (fun o e => (create_good e).1)
  | task i t p =>
    refine put_objs h (fun o e => ?_)
    unfold configForTask at e
    split at e
    · exact (create_good e).1
    · cases e
  | load i p =>
    cases hi : s.objs i with
    | none => simp only [step, hi]; exact h
    | some o1 => simp only [step, hi]; exact put_objs h (fun o e => (load_keeps e).1 (h i o1 hi))
  | set i x v =>
    cases hi : s.objs i with
    | none => simp only [step, hi]; exact h
    | some o1 => simp only [step, hi]; exact put_objs h (fun o e => (set_keeps e).1 (h i o1 hi))
  | setItem i k v =>
    cases hi : s.objs i with
    | none => simp only [step, hi]; exact h
    | some o1 =>
      simp only [step, hi]
      refine put_objs h (fun o e => ?_)
      obtain rfl : { o1 with dict := PyDict.set o1.dict k v } = o := by injection e
      exact PyDict.nodup_set _ _ _ (h i o1 hi)
  | delItem i k =>
    cases hi : s.objs i with
    | none => simp only [step, hi]; exact h
    | some o1 =>
      cases hk : o1.dict.lookup k with
      | none => simp only [step, hi, hk]; exact h
      | some _ =>
        simp only [step, hi, hk]
        refine put_objs h (fun o e => ?_)
        obtain rfl : { o1 with dict := PyDict.erase o1.dict k } = o := by injection e
        show ((PyDict.erase o1.dict k).map (·.1)).Nodup
        rw [PyDict.keys_erase]
        exact (h i o1 hi).filter _
  | write i p =>
    cases hi : s.objs i with
    | none => simp only [step, hi]; exact h
    | some o1 => simp only [step, hi]; exact h
  | other p c => exact h

theorem run_sound : ∀ (ops : List Op) (s : State), (∀ j o, s.objs j = some o → o.Sound) →
    ∀ j o, (run s ops).objs j = some o → o.Sound
  | [], _, h => h
  | op :: ops, s, h => run_sound ops _ (step_sound s op h)

theorem step_typed (s : State) (op : Op) (hop : ∀ i, op ≠ .delItem i typeKey) (h : ∀ j o, s.objs j = some o → o.Typed) :
    ∀ j o, (step s op).1.objs j = some o → o.Typed := by
  cases op with
  | create i cls p =>
    cases p with
    | none => exact put_objs h (fun o e => (create_good e).2.1)
    | some p => exact put_objs h (fun o e => (create_good e).2.1)
  | task i t p =>
    refine put_objs h (fun o e => ?_)
    unfold configForTask at e
    split at e
    · exact (create_good e).2.1
    · cases e
  | load i p =>
    cases hi : s.objs i with
    | none => simp only [step, hi]; exact h
    | some o1 => simp only [step, hi]; exact put_objs h (fun o e => (load_keeps e).2.1 (h i o1 hi))
  | set i x v =>
    cases hi : s.objs i with
    | none => simp only [step, hi]; exact h
    | some o1 => simp only [step, hi]; exact put_objs h (fun o e => (set_keeps e).2 (h i o1 hi))
  | setItem i k v =>
    cases hi : s.objs i with
    | none => simp only [step, hi]; exact h
    | some o1 =>
      simp only [step, hi]
      refine put_objs h (fun o e => ?_)
      obtain rfl : { o1 with dict := PyDict.set o1.dict k v } = o := by injection e
      exact set_first (h i o1 hi) k v
  | delItem i k =>
    cases hi : s.objs i with
    | none => simp only [step, hi]; exact h
    | some o1 =>
      cases hk : o1.dict.lookup k with
      | none => simp only [step, hi, hk]; exact h
      | some _ =>
        simp only [step, hi, hk]
        refine put_objs h (fun o e => ?_)
        obtain rfl : { o1 with dict := PyDict.erase o1.dict k } = o := by injection e
        obtain ⟨v, l, hd⟩ := h i o1 hi
        have hne : typeKey ≠ k := fun e => hop i (by rw [e])
        refine ⟨v, PyDict.erase l k, ?_⟩
        show PyDict.erase o1.dict k = _
        rw [hd]
        unfold PyDict.erase
        exact List.filter_cons_of_pos (p := fun p : Str × J => decide (p.1 ≠ k)) (decide_eq_true hne)
  | write i p =>
    cases hi : s.objs i with
    | none => simp only [step, hi]; exact h
    | some o1 => simp only [step, hi]; exact h
  | other p c => exact h

theorem run_typed : ∀ (ops : List Op) (s : State), (∀ op ∈ ops, ∀ i, op ≠ .delItem i typeKey) →
    (∀ j o, s.objs j = some o → o.Typed) → ∀ j o, (run s ops).objs j = some o → o.Typed
  | [], _, _, h => h
  | op :: ops, s, hop, h => run_typed ops _ (fun op ho => hop op (.tail _ ho)) (step_typed s op (hop op (.head _)) h)

theorem step_file (s : State) (op : Op) (p : Path) (h : ¬ op.writes p) : (step s op).1.file p = s.file p := by
  have hput : ∀ i x, (put s i x).1.file = s.file := fun i x => by cases x <;> rfl
  cases op with
  | create i cls q => cases q <;> exact congrFun (hput _ _) p
  | task i t q => exact congrFun (hput _ _) p
  | load i q => cases hi : s.objs i with
    | none => simp only [step, hi]
    | some o1 => simp only [step, hi, hput]
  | set i x v => cases hi : s.objs i with
    | none => simp only [step, hi]
    | some o1 => simp only [step, hi, hput]
  | setItem i k v => cases hi : s.objs i with
    | none => simp only [step, hi]
    | some o1 => simp only [step, hi, hput]
  | delItem i k => cases hi : s.objs i with
    | none => simp only [step, hi]
    | some o1 => cases hk : o1.dict.lookup k with
      | none => simp only [step, hi, hk]
      | some _ => simp only [step, hi, hk, hput]
  | write i q => cases hi : s.objs i with
    | none => simp only [step, hi]
    | some o1 =>
      simp only [step, hi]
      exact if_neg (fun e => h e.symm)
  | other q c => exact if_neg (fun e => h e.symm)

theorem run_file : ∀ (ops : List Op) (s : State) (p : Path), (∀ op ∈ ops, ¬ op.writes p) → (run s ops).file p = s.file p
  | [], _, _, _ => rfl
  | op :: ops, s, p, h => (run_file ops _ p (fun op ho => h op (.tail _ ho))).trans (step_file s op p (h op (.head _)))

/-- The places do not use the entry for the type. -/
theorem place_head (t : Setting) : ∃ k ks, t.place = k :: ks ∧ k ≠ typeKey := by
  cases t
  all_goals exact ⟨_, _, rfl, by decide +kernel⟩

theorem run_append (s : State) (a b : List Op) : run s (a ++ b) = run (run s a) b := List.foldl_append

/-- **C133, a job has the settings of its runner.** Whatever was done before, beginning without objects: if the
configuration `i` is written to the file `p`, and `p` is not written after, then every object created from `p` later, for
any class, has the settings which `i` had when it was written, with exceptions for the same settings. -/
theorem job_settings (s : State) (hs : ∀ j, s.objs j = none) (before ops : List Op) (i j : Nat) (o : Obj) (p : Path) (cls : Str)
    (hi : (run s before).objs i = some o) (hp : ∀ op ∈ ops, ¬ op.writes p) :
    ∃ o', (step (run s (before ++ .write i p :: ops)) (.create j cls (some p))).1.objs j = some o' ∧ o'.type = cls ∧
      ∀ t : Setting, (t.get o').toOption = (t.get o).toOption := by
  have hsound : o.Sound := run_sound before s (fun j o h => by rw [hs j] at h; cases h) i o hi
  have hfile : (run s (before ++ .write i p :: ops)).file p = some (.obj o.dict) := by
    rw [run_append]
    show (run (step (run s before) (.write i p)).1 ops).file p = _
    rw [run_file ops _ p hp]
    simp only [step, hi]
    exact if_pos trivial
  refine ⟨⟨cls, PyDict.update (PyDict.set [] typeKey (.str cls)) o.dict⟩, ?_, rfl, fun t => ?_⟩
  · show (put _ j (create cls (some ((run s (before ++ .write i p :: ops)).file p)))).1.objs j = _
    rw [hfile]
    exact if_pos rfl
  · obtain ⟨k, ks, h1, h2⟩ := place_head t
    rw [get_place, get_place, h1, at_cons, at_cons, PyDict.lookup_update, PyDict.lookup_reverse _ hsound]
    cases hk : o.dict.lookup k with
    | some v => rfl
    | none =>
      have : (PyDict.set [] typeKey (J.str cls)).lookup k = none := by
        rw [PyDict.lookup_set, if_neg h2]; rfl
      rw [this]; rfl

/-- **C133, exact copies.** If in addition nobody has deleted the entry for the type, the new object has the same dictionary:
the same keys in the same order, also those which the program does not know. -/
theorem job_copy (s : State) (hs : ∀ j, s.objs j = none) (before ops : List Op) (i j : Nat) (o : Obj) (p : Path) (cls : Str)
    (hi : (run s before).objs i = some o) (hp : ∀ op ∈ ops, ¬ op.writes p)
    (hd : ∀ op ∈ before, ∀ i, op ≠ .delItem i typeKey) :
    (step (run s (before ++ .write i p :: ops)) (.create j cls (some p))).1.objs j = some ⟨cls, o.dict⟩ := by
  have hsound : o.Sound := run_sound before s (fun j o h => by rw [hs j] at h; cases h) i o hi
  obtain ⟨v, l, hdict⟩ : o.Typed := run_typed before s hd (fun j o h => by rw [hs j] at h; cases h) i o hi
  have hfile : (run s (before ++ .write i p :: ops)).file p = some (.obj o.dict) := by
    rw [run_append]
    show (run (step (run s before) (.write i p)).1 ops).file p = _
    rw [run_file ops _ p hp]
    simp only [step, hi]
    exact if_pos trivial
  show (put _ j (create cls (some ((run s (before ++ .write i p :: ops)).file p)))).1.objs j = _
  rw [hfile]
  refine (if_pos rfl).trans ?_
  have : PyDict.update (PyDict.set [] typeKey (.str cls)) o.dict = o.dict := by
    rw [hdict]
    show PyDict.update (PyDict.set (PyDict.set [] typeKey (J.str cls)) typeKey v) l = _
    have : PyDict.set (PyDict.set [] typeKey (J.str cls)) typeKey v = [(typeKey, v)] := by
      show (if typeKey = typeKey then _ else _) = _
      rw [if_pos rfl]
    rw [this]
    refine PyDict.update_nodup _ _ ?_
    unfold Obj.Sound at hsound
    rw [hdict] at hsound
    exact hsound
  rw [this]

/-- **C133, exceptions.** A call with an exception changes nothing, neither the objects nor the files. -/
theorem failed_unchanged (s : State) (op : Op) (e : Err) (h : (step s op).2 = some e) : (step s op).1 = s := by
  have hput : ∀ i x, (put s i x).2 = some e → (put s i x).1 = s := fun i x h => by
    cases x with
    | ok o => cases h
    | error e => rfl
  cases op with
  | create i cls q => cases q <;> exact hput _ _ h
  | task i t q => exact hput _ _ h
  | load i q => cases hi : s.objs i with
    | none => simp only [step, hi]
    | some o1 => simp only [step, hi] at h ⊢; exact hput _ _ h
  | set i x v => cases hi : s.objs i with
    | none => simp only [step, hi]
    | some o1 => simp only [step, hi] at h ⊢; exact hput _ _ h
  | setItem i k v => cases hi : s.objs i with
    | none => simp only [step, hi]
    | some o1 => simp only [step, hi] at h ⊢; exact hput _ _ h
  | delItem i k => cases hi : s.objs i with
    | none => simp only [step, hi]
    | some o1 => cases hk : o1.dict.lookup k with
      | none => simp only [step, hi, hk]
      | some _ => simp only [step, hi, hk] at h ⊢; exact hput _ _ h
  | write i q => cases hi : s.objs i with
    | none => simp only [step, hi]
    | some o1 => simp only [step, hi] at h; cases h
  | other q c => cases h

/-! ### Tasks -/

/-- **C134, the tasks.** `config_for_task` succeeds if and only if the task is one of the four and the file is there and
holds a dictionary; it does not look at what the dictionary holds. -/
theorem for_task_iff (task : Str) (c : Option J) :
    (∃ o, configForTask task c = .ok o) ↔ task ∈ taskNames ∧ ∃ d, c = some (.obj d) := by
  rw [show taskNames = tasks from rfl]
  unfold configForTask
  constructor
  · rintro ⟨o, h⟩
    split at h
    · next ht =>
      refine ⟨ht, ?_⟩
      cases c with
      | none => cases h
      | some j => cases j with
        | obj d => exact ⟨d, rfl⟩
        | _ => cases h
    · cases h
  · rintro ⟨h1, d, rfl⟩
    rw [if_pos h1]
    exact ⟨_, rfl⟩

/-- **C134, false: the type in the file.** The configuration of any task can be read as that of any other: the entry for the
type then is the one of the file. -/
theorem other_task_accepted (task : Str) (d : List (Str × J)) (cls : Str) (ht : task ∈ taskNames)
    (hd : (d.map (·.1)).Nodup) (hc : d.lookup typeKey = some (.str cls)) :
    ∃ o, configForTask task (some (.obj d)) = .ok o ∧ o.type = task ++ "Config".toList ∧
      o.dict.lookup typeKey = some (.str cls) := by
  refine ⟨⟨task ++ "Config".toList, PyDict.update (PyDict.set [] typeKey (.str (task ++ "Config".toList))) d⟩, ?_, rfl, ?_⟩
  · unfold configForTask
    rw [if_pos (show task ∈ tasks from ht)]
    rfl
  · show (PyDict.update _ d).lookup typeKey = _
    rw [PyDict.lookup_update, PyDict.lookup_reverse _ hd, hc]
    rfl

/-! ### The grid -/

theorem linspace_even (a b : ℚ) (n : Nat) (hn : n ≠ 1) : Even a b n (linspace a b n) := by
  match n, hn with
  | 0, _ => exact ⟨rfl, fun i x h => by cases h⟩
  | n + 2, _ =>
    have hlen : (linspace a b (n + 2)).length = n + 2 := by simp [linspace]
    refine ⟨hlen, fun i x h => ?_⟩
    have hne : ((n + 1 : Nat) : ℚ) ≠ 0 := Nat.cast_ne_zero.mpr (Nat.succ_ne_zero n)
    have hc : ((n + 2 : Nat) : ℚ) - 1 = ((n + 1 : Nat) : ℚ) := by push_cast; ring
    rw [hc]
    unfold linspace at h
    by_cases hi : i < n + 1
    · rw [List.getElem?_append_left (by simpa using hi), List.getElem?_map, List.getElem?_range hi] at h
      obtain rfl : a + (i : ℚ) * ((b - a) / ((n + 1 : Nat) : ℚ)) = x := by injection h
      field_simp
      ring
    · rw [List.getElem?_append_right (by simpa using Nat.le_of_not_lt hi)] at h
      simp only [List.length_map, List.length_range] at h
      have hi' : i = n + 1 := by
        by_contra hne'
        rw [List.getElem?_eq_none (by simp; omega)] at h
        cases h
      subst hi'
      rw [Nat.sub_self] at h
      obtain rfl : b = x := by injection h
      ring

/-- A grid is given by its ends and its length. -/
theorem even_unique (a b : ℚ) (n : Nat) (l l' : List ℚ) (h : Even a b n l) (h' : Even a b n l') (hn : n ≠ 1) : l = l' := by
  refine List.ext_getElem? (fun i => ?_)
  by_cases hi : i < n
  · have e : ∃ x, l[i]? = some x := ⟨_, List.getElem?_eq_getElem (by rw [h.1]; exact hi)⟩
    have e' : ∃ x, l'[i]? = some x := ⟨_, List.getElem?_eq_getElem (by rw [h'.1]; exact hi)⟩
    obtain ⟨x, e⟩ := e
    obtain ⟨x', e'⟩ := e'
    have h1 := h.2 i _ e
    have h2 := h'.2 i _ e'
    rw [e, e']
    have : (n : ℚ) - 1 ≠ 0 := by
      intro h0
      have : (n : ℚ) = ((1 : Nat) : ℚ) := by push_cast; linarith
      exact hn (by exact_mod_cast this)
    rw [mul_right_cancel₀ this (h1.trans h2.symm)]
  · rw [List.getElem?_eq_none (by rw [h.1]; omega), List.getElem?_eq_none (by rw [h'.1]; omega)]

theorem isNum_toNum {j : J} {a : ℚ} (h : j.IsNum a) : j.toNum = .ok a := by
  cases j with
  | int n => rw [show a = n from h]; rfl
  | num x => rw [show a = x from h]; rfl
  | _ => exact h.elim

theorem zGrid_eq (o : Obj) (ja jb jn : J) (ha : zMin o = .ok ja) (hb : zMax o = .ok jb) (hn : nRedshifts o = .ok jn) (a b : ℚ)
    (n : Nat) (ha' : ja.toNum = .ok a) (hb' : jb.toNum = .ok b) (hn' : jn.toIndex = .ok (n : Int)) :
    zGrid o = .ok (linspace a b n) := by
  unfold zGrid
  rw [ha, hb, hn]
  show jn.toIndex.bind _ = _
  rw [hn']
  show (if (n : Int) < 0 then Except.error Err.valueError
    else ja.toNum.bind fun a => jb.toNum.bind fun b => Except.ok (linspace a b (n : Int).toNat)) = _
  rw [if_neg (by omega), ha', hb']
  rfl

/-- **C134, the redshift grid.** If the settings are numbers, and the number of points is a natural number other than
one, the grid has this number of points and divides the interval evenly from `z_min` to `z_max`; by `even_unique` there is
one such grid only. Missing for the full claim: one point (`one_point`). -/
theorem grid_even_partial (o : Obj) (ja jb : J) (a b : ℚ) (n : Nat) (ha : zMin o = .ok ja) (hb : zMax o = .ok jb)
    (hn : nRedshifts o = .ok (.int n)) (ha' : ja.IsNum a) (hb' : jb.IsNum b) (h1 : n ≠ 1) :
    ∃ l, zGrid o = .ok l ∧ Even a b n l :=
  ⟨_, zGrid_eq o ja jb (.int n) ha hb hn a b n (isNum_toNum ha') (isNum_toNum hb') rfl, linspace_even a b n h1⟩

/-- **C134, the ends of the grid.** An even grid of two points or more begins with `a`, ends with `b`, and increases if
`a < b`. -/
theorem even_ends (a b : ℚ) (n : Nat) (l : List ℚ) (h : Even a b n l) (hn : 2 ≤ n) :
    l[0]? = some a ∧ l[n - 1]? = some b ∧
    (a < b → ∀ (i j : Nat) (x y : ℚ), i < j → l[i]? = some x → l[j]? = some y → x < y) := by
  have hpos : (0 : ℚ) < n - 1 := by
    have : ((2 : Nat) : ℚ) ≤ n := by exact_mod_cast hn
    push_cast at this
    linarith
  have get : ∀ i, i < n → ∃ x, l[i]? = some x := fun i hi => ⟨_, List.getElem?_eq_getElem (by rw [h.1]; exact hi)⟩
  refine ⟨?_, ?_, ?_⟩
  · obtain ⟨x, hx⟩ := get 0 (by omega)
    have := h.2 0 x hx
    rw [hx]
    congr 1
    refine mul_right_cancel₀ hpos.ne' (this.trans ?_)
    push_cast
    ring
  · obtain ⟨x, hx⟩ := get (n - 1) (by omega)
    have := h.2 _ x hx
    rw [hx]
    congr 1
    refine mul_right_cancel₀ hpos.ne' (this.trans ?_)
    rw [Nat.cast_sub (by omega)]
    push_cast
    ring
  · intro hab i j x y hij hx hy
    have h1 := h.2 i x hx
    have h2 := h.2 j y hy
    refine lt_of_mul_lt_mul_right (a := (n : ℚ) - 1) ?_ hpos.le
    rw [h1, h2]
    have : (i : ℚ) < j := by exact_mod_cast hij
    nlinarith

/-- **C134, false: grids of one point.** With one point the grid is `z_min` only; with a negative number there is an
exception. -/
theorem one_point (o : Obj) (ja jb : J) (a b : ℚ) (ha : zMin o = .ok ja) (hb : zMax o = .ok jb)
    (hn : nRedshifts o = .ok (.int 1)) (ha' : ja.IsNum a) (hb' : jb.IsNum b) : zGrid o = .ok [a] :=
  zGrid_eq o ja jb (.int 1) ha hb hn a b 1 (isNum_toNum ha') (isNum_toNum hb') rfl

/-- A number of points with a decimal point is refused, even if it is whole. -/
theorem grid_points_whole (o : Obj) (ja jb : J) (x : ℚ) (ha : zMin o = .ok ja) (hb : zMax o = .ok jb)
    (hn : nRedshifts o = .ok (.num x)) : zGrid o = .error .typeError := by
  unfold zGrid
  rw [ha, hb, hn]
  rfl

theorem grid_negative (o : Obj) (ja jb : J) (n : Int) (ha : zMin o = .ok ja) (hb : zMax o = .ok jb)
    (hn : nRedshifts o = .ok (.int n)) (h : n < 0) : zGrid o = .error .valueError := by
  unfold zGrid
  rw [ha, hb, hn]
  show (if n < 0 then _ else _) = _
  rw [if_pos h]

/-! ### The spline -/

theorem toInt_frac (ofText : Str → Option Int) (x : ℚ) (h : -1 < x) (h1 : x < 1) : (J.num x).toInt ofText = .ok 0 := by
  unfold J.toInt
  dsimp only
  split
  · next h0 => rw [Int.floor_eq_zero_iff.mpr ⟨h0, h1⟩]
  · next h0 => rw [Int.ceil_eq_zero_iff.mpr ⟨h, (not_le.mp h0).le⟩]

/-- **C134, false: the smoothing.** The smoothing of the spline is cut off to a whole number: every smoothing below one in
the file is the same as none. -/
theorem smoothing_cut (ofText : Str → Option Int) (o : Obj) (x : ℚ) (h : (Setting.smoothing.get o) = .ok (.num x))
    (h0 : -1 < x) (h1 : x < 1) : splineS ofText o = .ok 0 := by
  unfold splineS
  change ((splineSettings o).bind (·.item "s".toList)) = _ at h
  rw [h]
  exact toInt_frac ofText x h0 h1

/-- **C134, the spline.** Whole numbers are used as they are. Missing for the full claim: other numbers, which are cut off
(`smoothing_cut`). -/
theorem spline_partial (ofText : Str → Option Int) (o : Obj) (n : Int) :
    (Setting.kx.get o = .ok (.int n) → splineKx ofText o = .ok n) ∧
    (Setting.ky.get o = .ok (.int n) → splineKy ofText o = .ok n) ∧
    (Setting.smoothing.get o = .ok (.int n) → splineS ofText o = .ok n) := by
  refine ⟨fun h => ?_, fun h => ?_, fun h => ?_⟩
  · unfold splineKx
    change ((splineSettings o).bind (·.item "kx".toList)) = _ at h
    rw [h]; rfl
  · unfold splineKy
    change ((splineSettings o).bind (·.item "ky".toList)) = _ at h
    rw [h]; rfl
  · unfold splineS
    change ((splineSettings o).bind (·.item "s".toList)) = _ at h
    rw [h]; rfl

/-! ### The files which come with the program -/

/-- `seyfert/data/config_files/power_spectrum_config.json`. -/
def powerFile : J := .obj
  [("redshift_grid".toList, .obj [("z_min".toList, .num (1/1000)), ("z_max".toList, .num (5/2)), ("n_redshifts".toList, .int 500)]),
   ("boltzmann_codes_settings".toList, .obj [("code".toList, .str "CLASS".toList),
     ("camb".toList, .obj [("k_max".toList, .int 50), ("k_per_logint".toList, .int 65),
       ("ini_filename".toList, .str "cosmoist_params_full_withnu.ini".toList)]),
     ("class".toList, .obj [("k_max".toList, .int 50), ("k_min".toList, .num (1/100000)), ("n_k".toList, .int 1000)])])]

/-- `seyfert/data/config_files/angular_config.json`. -/
def angularFile : J := .obj
  [("cl_integration_settings".toList, .obj [("lensing_efficiency".toList, .str "simpson".toList), ("cl".toList, .str "simpson".toList)]),
   ("limber_pmm_spline_settings".toList, .obj [("kx".toList, .int 5), ("ky".toList, .int 5), ("s".toList, .int 0)])]

/-- `seyfert/data/config_files/derivative_config.json`. -/
def derivativeFile : J := .obj [("dvar".toList, .str "h".toList), ("angular_dir".toList, .str "None".toList)]

/-- The settings which a task uses. -/
def uses : List (Str × J × List Setting) :=
  [("PowerSpectrum".toList, powerFile, [.zMin, .zMax, .nRedshifts, .code, .classSettings, .cambIni]),
   ("Angular".toList, angularFile, [.lensingMethod, .clMethod, .kx, .ky, .smoothing]),
   ("Derivative".toList, derivativeFile, [.clDir])]

/-- The files have all the settings of their tasks. -/
example : uses.all (fun u => match configForTask u.1 (some u.2.1) with
    | .ok o => u.2.2.all (fun t => (t.get o).toOption.isSome)
    | .error _ => false) = true := by decide +kernel

/-- The grid of the file. -/
example : (configForTask "PowerSpectrum".toList (some powerFile)).toOption.bind (fun o => (zGrid o).toOption.map (fun l =>
    (l.length, l.head?, l.getLast?))) = some (500, some (1/1000), some (5/2)) := by decide +kernel

/-- A file of another task is accepted, and the exception comes when a setting is read. -/
example : (configForTask "Angular".toList (some derivativeFile)).toOption.map (fun o => (o.type, (splineKx (fun _ => none) o).toOption,
    (clMethod o).toOption.isSome)) = some ("AngularConfig".toList, none, false) := by decide +kernel

/-- An unknown task. -/
example : (configForTask "Final".toList (some powerFile)).toOption.isSome = false := by decide +kernel

def exState : State := ⟨fun _ => none, fun p => if p = ["p".toList] then some powerFile else none⟩

/-- A runner reads its file, sets the number of redshifts, and writes the configuration of a job; then the setting is
changed again. The job has the first value. -/
example : ((step (run exState ([.task 0 "PowerSpectrum".toList ["p".toList], .set 0 .nRedshifts (.int 3)] ++
      .write 0 ["j".toList] :: [.set 0 .nRedshifts (.int 4)])) (.create 1 "PowerSpectrumConfig".toList (some ["j".toList]))).1.objs 1).bind
      (fun o => (zGrid o).toOption) = some [1/1000, 2501/2000, 5/2] := by decide +kernel

/-- Sections can not be added by the setters. -/
example : (setZMin ⟨[], []⟩ (.int 0)).toOption.isSome = false ∧ (setClDir ⟨[], []⟩ (.int 0)).toOption.isSome = true := by
  decide +kernel

/-- A smoothing of nine tenths. -/
example : splineS (fun _ => none) ⟨[], [("limber_pmm_spline_settings".toList, .obj [("s".toList, .num (9/10))])]⟩ = .ok 0 :=
  smoothing_cut _ _ (9/10) rfl (by norm_num) (by norm_num)

/-! ### The theorems on concrete settings -/

/-- Three points from 0 to 2. -/
theorem exEven : Even 0 2 3 [0, 1, 2] := by
  refine ⟨rfl, fun i x h => ?_⟩
  match i, h with
  | 0, h => cases h; norm_num
  | 1, h => cases h; norm_num
  | 2, h => cases h; norm_num
  | i + 3, h => simp at h

example (l : List ℚ) (h : Even 0 2 3 l) : l = [0, 1, 2] := even_unique 0 2 3 _ _ h exEven (by norm_num)

example : ([0, 1, 2] : List ℚ)[2]? = some 2 := (even_ends 0 2 3 _ exEven (by norm_num)).2.1

/-- A file of the power spectrum given to the task of the derivatives. -/
example : ∃ o, configForTask "Derivative".toList (some (.obj [(typeKey, .str "PowerSpectrumConfig".toList)])) = .ok o ∧
    o.type = "Derivative".toList ++ "Config".toList := by
  obtain ⟨o, h1, h2, -⟩ := other_task_accepted "Derivative".toList [(typeKey, .str "PowerSpectrumConfig".toList)]
    "PowerSpectrumConfig".toList (by decide +kernel) (by decide +kernel) rfl
  exact ⟨o, h1, h2⟩

end Seyfert.TaskCfg
