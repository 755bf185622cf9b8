import Verif.Spec.Retro
import Verif.Lemmas.StoredDict
import Verif.Lemmas.RunSeyfert
import Verif.Props.Stored
import Verif.Props.CosmoFile
import Verif.Props.Compare

/-! Properties of the readers of old files. -/

namespace Seyfert.Retro
open H5 (Path File begins)
open Stored (Op Val View Err putO view runOps kids readDict)
open CosmoFile (Cosmo Power attNum attFlag)

variable {A : Type}

theorem bind_ok {E X Y : Type} {x : Except E X} {g : X → Except E Y} {y : Y} :
    x.bind g = .ok y ↔ ∃ a, x = .ok a ∧ g a = .ok y := by
  cases x with
  | error e => exact ⟨fun h => (by cases h), fun ⟨a, h, _⟩ => (by cases h)⟩
  | ok a => exact ⟨fun h => ⟨a, rfl, h⟩, fun ⟨b, h, h2⟩ => by cases h; exact h2⟩

theorem num_iff {v : View (Val A)} {p : Path} {a : A} : v.num p = .ok a ↔ v.data p = some (.num a) := by
  unfold View.num
  split
  · next x h => rw [h]; exact ⟨fun e => by cases e; rfl, fun e => by cases e; rfl⟩
  · next x h1 h2 => rw [h2]; exact ⟨fun e => (by cases e), fun e => by injection e with e; exact absurd e (h1 _)⟩
  · next h => rw [h]; exact ⟨fun e => (by cases e), fun e => (by cases e)⟩

theorem holds_iff {f : File (Val A)} {r p : Path} {a : A} : (view f r).num p = .ok a ↔ Holds f (r ++ p) a := num_iff

theorem holds_has {f : File (Val A)} {p : Path} {a : A} (h : Holds f p a) : Has f p :=
  Stored.has_iff.mpr (.inr (.inr (List.mem_map.mpr ⟨_, PyDict.mem_of_lookup h, rfl⟩)))

theorem holds_unique {f : File (Val A)} {p : Path} {a b : A} (h : Holds f p a) (h' : Holds f p b) : a = b := by
  unfold Holds at h h'
  rw [h] at h'
  cases h'
  rfl

theorem opt_iff {f : File (Val A)} {r p : Path} {t : Option A} : (view f r).opt p = .ok t ↔ Maybe f (r ++ p) t := by
  unfold View.opt
  by_cases hh : (view f r).has p = true
  · rw [if_pos hh]
    cases hn : (view f r).num p with
    | ok a =>
      dsimp only
      have h2 := holds_iff.mp hn
      cases t with
      | none => exact ⟨fun e => (by cases e), fun e => absurd hh e⟩
      | some b => exact ⟨fun e => by cases e; exact h2, fun e => by rw [holds_unique h2 e]⟩
    | error e =>
      dsimp only
      cases t with
      | none => exact ⟨fun e => (by cases e), fun e => absurd hh e⟩
      | some b => exact ⟨fun e => (by cases e), fun h => by rw [holds_iff.mpr h] at hn; cases hn⟩
  · rw [if_neg hh]
    cases t with
    | none => exact ⟨fun _ => hh, fun _ => rfl⟩
    | some b => exact ⟨fun e => (by cases e), fun h => absurd (holds_has h) hh⟩

theorem maybe_unique {f : File (Val A)} {p : Path} {a b : Option A} (h : Maybe f p a) (h' : Maybe f p b) : a = b := by
  cases a with
  | none => cases b with
    | none => rfl
    | some b => exact absurd (holds_has h') h
  | some a => cases b with
    | none => exact absurd (holds_has h) h'
    | some b => rw [holds_unique h h']

/-! ### Cosmologies of version 1.0.4 -/

/-- **C138, cosmologies before 1.1.0.** A file is read exactly if it has the six arrays of this format, and growth and
transfer function are arrays if they are there. The cosmology has these arrays, but neither the growth nor parameters nor
flatness. -/
theorem read104_iff (f : File (Val A)) (c : Cosmo A) : read104 f = .ok c ↔
    ∃ e r z k l n g t, Is104 f e r z k l n g t ∧
      c = { grid := some z, hubble := some e, distance := some r,
            power := some { z := some z, k := some k, lin := some l, nonlin := some n, transfer := t } } := by
  unfold read104
  simp only [bind_ok, holds_iff, opt_iff]
  constructor
  · rintro ⟨e, he, r, hr, z, hz, k, hk, l, hl, n, hn, g, hg, t, ht, h⟩
    cases h
    exact ⟨e, r, z, k, l, n, g, t, ⟨he, hr, hz, hk, hl, hn, hg, ht⟩, rfl⟩
  · rintro ⟨e, r, z, k, l, n, g, t, h, rfl⟩
    exact ⟨e, h.hubble, r, h.distance, z, h.grid, k, h.waves, l, h.linear, n, h.nonlinear, g, h.growth, t, h.transfer, rfl⟩

/-- **C138, growth and parameters.** Whatever an old file has, the cosmology read from it has no growth, and nothing that
depends on the Hubble constant can be computed from it. -/
theorem read104_lost (f : File (Val A)) (c : Cosmo A) (h : read104 f = .ok c) :
    c.growth = none ∧ c.flat = none ∧ reducedHubble c = .error .attributeError := by
  obtain ⟨e, r, z, k, l, n, g, t, -, rfl⟩ := (read104_iff f c).mp h
  exact ⟨rfl, rfl, rfl⟩

/-! ### The writer of old files -/

theorem data_step {f g : File (Val A)} {o : Op (Val A)} (h : Stored.step f o = .ok g) {p : Path} {v : Val A}
    (hp : (p, v) ∈ g.data) : (p, v) ∈ f.data ∨ o = .put p v := by
  cases o with
  | enter q =>
    simp only [Stored.step] at h
    split at h
    · cases h; exact .inl hp
    · unfold Stored.mkGroup at h
      split at h
      · cases h
      · cases h; exact .inl hp
  | group q =>
    simp only [Stored.step] at h
    split at h
    · cases h
    · unfold Stored.mkGroup at h
      split at h
      · cases h
      · cases h; exact .inl hp
  | put q w =>
    simp only [Stored.step] at h
    split at h
    · cases h
    · split at h
      · cases h
      · cases h
        rcases List.mem_append.mp hp with hp | hp
        · exact .inl hp
        · rw [List.mem_singleton] at hp
          cases hp
          exact .inr rfl
  | att q n w => cases h; exact .inl hp
  | fail e => cases h

/-- What is in a file after some calls was there before or was put by one of them. -/
theorem data_run (ops : List (Op (Val A))) : ∀ (f : File (Val A)) (p : Path) (v : Val A), (p, v) ∈ (runOps f ops).2.data →
    (p, v) ∈ f.data ∨ .put p v ∈ ops := by
  induction ops with
  | nil => intro f p v h; exact .inl h
  | cons o ops ih =>
    intro f p v h
    simp only [runOps] at h
    cases hs : Stored.step f o with
    | error e => rw [hs] at h; exact .inl h
    | ok g =>
      rw [hs] at h
      rcases ih g p v h with h | h
      · rcases data_step hs h with h | h
        · exact .inl h
        · exact .inr (h ▸ List.mem_cons_self)
      · exact .inr (List.mem_cons_of_mem _ h)

theorem attr_step {f g : File (Val A)} {o : Op (Val A)} (h : Stored.step f o = .ok g) {p : Path} {n : Str}
    (hp : (p, n) ∈ g.attrs.map (·.1)) : (p, n) ∈ f.attrs.map (·.1) ∨ ∃ v, o = .att p n v := by
  cases o with
  | enter q =>
    simp only [Stored.step] at h
    split at h
    · cases h; exact .inl hp
    · unfold Stored.mkGroup at h
      split at h
      · cases h
      · cases h; exact .inl hp
  | group q =>
    simp only [Stored.step] at h
    split at h
    · cases h
    · unfold Stored.mkGroup at h
      split at h
      · cases h
      · cases h; exact .inl hp
  | put q w =>
    simp only [Stored.step] at h
    split at h
    · cases h
    · split at h
      · cases h
      · cases h; exact .inl hp
  | att q m w =>
    cases h
    unfold File.setAttr at hp
    rw [PyDict.keys_set] at hp
    split at hp
    · exact .inl hp
    · rcases List.mem_append.mp hp with hp | hp
      · exact .inl hp
      · rw [List.mem_singleton] at hp
        cases hp
        exact .inr ⟨w, rfl⟩
  | fail e => cases h

theorem attr_run (ops : List (Op (Val A))) : ∀ (f : File (Val A)) (p : Path) (n : Str),
    (p, n) ∈ (runOps f ops).2.attrs.map (·.1) → (p, n) ∈ f.attrs.map (·.1) ∨ ∃ v, .att p n v ∈ ops := by
  induction ops with
  | nil => intro f p v h; exact .inl h
  | cons o ops ih =>
    intro f p n h
    simp only [runOps] at h
    cases hs : Stored.step f o with
    | error e => rw [hs] at h; exact .inl h
    | ok g =>
      rw [hs] at h
      rcases ih g p n h with h | ⟨v, h⟩
      · rcases attr_step hs h with h | ⟨v, h⟩
        · exact .inl h
        · exact .inr ⟨v, h ▸ List.mem_cons_self⟩
      · exact .inr ⟨v, List.mem_cons_of_mem _ h⟩

theorem writeOld_ok (c : Cosmo A) (z : A) (p : Power A) (k l n : A) (hz : c.grid = some z) (hp : c.power = some p)
    (hk : p.k = some k) (hl : p.lin = some l) (hn : p.nonlin = some n) :
    (writeOld c).1 = .ok () ∧ (writeOld c).2.data = [(path ["cosmology", "z_array"], .num z),
      (path ["power_spectrum", "k_array"], .num k), (path ["power_spectrum", "p_mm_values", "lin_p_mm_z_k"], .num l),
      (path ["power_spectrum", "p_mm_values", "nonlin_p_mm_z_k"], .num n)] := by
  have h : oldOps c = [.put [N .cosmology, N .zArray] (.num z), .put [N .power, N .kArray] (.num k),
      .put [N .power, N .values, N .lin] (.num l), .put [N .power, N .values, N .nonlin] (.num n)] := by
    unfold oldOps
    rw [hz, hp]
    dsimp only
    rw [hk, hl, hn]
    rfl
  unfold writeOld
  rw [h]
  exact ⟨rfl, rfl⟩

/-- **C138, the writer of old files.** It ends well exactly for a cosmology on a grid with a complete power spectrum, and
then writes four arrays and nothing else. -/
theorem writeOld_iff (c : Cosmo A) : (writeOld c).1 = .ok () ↔ ∃ z p k l n, c.grid = some z ∧ c.power = some p ∧
    p.k = some k ∧ p.lin = some l ∧ p.nonlin = some n ∧ (writeOld c).2.data =
      [(path ["cosmology", "z_array"], .num z), (path ["power_spectrum", "k_array"], .num k),
       (path ["power_spectrum", "p_mm_values", "lin_p_mm_z_k"], .num l),
       (path ["power_spectrum", "p_mm_values", "nonlin_p_mm_z_k"], .num n)] := by
  constructor
  · intro h
    have hno : ∀ e, .fail e ∉ oldOps c := fun e he => CosmoFile.fail_run _ e _ he h
    cases hz : c.grid with
    | none => exact absurd (show Op.fail Err.typeError ∈ oldOps c by unfold oldOps; rw [hz]; exact .head _) (hno _)
    | some z => cases hp : c.power with
      | none => exact absurd (show Op.fail Err.attributeError ∈ oldOps c by
          unfold oldOps; rw [hp]; exact .tail _ (.head _)) (hno _)
      | some p => cases hk : p.k with
        | none => exact absurd (show Op.fail Err.typeError ∈ oldOps c by
            unfold oldOps; rw [hp]; dsimp only; rw [hk]; exact .tail _ (.head _)) (hno _)
        | some k => cases hl : p.lin with
          | none => exact absurd (show Op.fail Err.typeError ∈ oldOps c by
              unfold oldOps; rw [hp]; dsimp only; rw [hl]; exact .tail _ (.tail _ (.head _))) (hno _)
          | some l => cases hn : p.nonlin with
            | none => exact absurd (show Op.fail Err.typeError ∈ oldOps c by
                unfold oldOps; rw [hp]; dsimp only; rw [hn]; exact .tail _ (.tail _ (.tail _ (.head _)))) (hno _)
            | some n => exact ⟨z, p, k, l, n, rfl, rfl, hk, hl, hn, (writeOld_ok c z p k l n hz hp hk hl hn).2⟩
  · rintro ⟨z, p, k, l, n, hz, hp, hk, hl, hn, -⟩
    exact (writeOld_ok c z p k l n hz hp hk hl hn).1

/-- **C138, old files are not read.** No file written by the writer of old files is read by the reader of old files,
whatever the cosmology is and however far the writer comes. -/
theorem old_unreadable (c : Cosmo A) : read104 (writeOld c).2 = .error .keyError := by
  have h : ∀ v, ((path ["cosmology", "dimensionless_hubble_parameter"], v) : Path × Val A) ∉ (writeOld c).2.data := by
    intro v hv
    rcases data_run (oldOps c) File.empty _ _ hv with h | h
    · cases h
    · have key : ∀ (p : Path) (x : Option A), p ≠ path ["cosmology", "dimensionless_hubble_parameter"] →
          Op.put (path ["cosmology", "dimensionless_hubble_parameter"]) v ≠ putO p x := by
        intro p x hne e
        cases x with
        | none => cases e
        | some a => injection e with e; exact hne e.symm
      unfold oldOps at h
      rcases List.mem_cons.mp h with h | h
      · exact key _ _ (by decide) h
      · cases hp : c.power with
        | none => rw [hp] at h; rcases List.mem_singleton.mp h with h; cases h
        | some p =>
          rw [hp] at h
          rcases List.mem_cons.mp h with h | h
          · exact key _ _ (by decide) h
          rcases List.mem_cons.mp h with h | h
          · exact key _ _ (by decide) h
          rcases List.mem_cons.mp h with h | h
          · exact key _ _ (by decide) h
          · cases h
  have hnone : (writeOld c).2.data.lookup (path ["cosmology", "dimensionless_hubble_parameter"]) = none := by
    rw [PyDict.lookup_none_iff]
    intro hm
    obtain ⟨q, hq, e⟩ := List.mem_map.mp hm
    obtain ⟨a, b⟩ := q
    cases e
    exact h b hq
  have hn : (view (writeOld c).2 []).num [N .cosmology, N .hubble] = .error .keyError := by
    unfold View.num
    have : (view (writeOld c).2 []).data [N .cosmology, N .hubble] = none := hnone
    rw [this]
  unfold read104
  dsimp only
  rw [hn]
  rfl

/-! ### Cosmologies of version 1.1.0 -/

theorem readDict_keys {B : Type} {g : Str → Except Err B} {ns : List Str} {l : Dict Str B} (h : readDict g ns = .ok l) :
    l.map (·.1) = ns := by
  induction ns generalizing l with
  | nil => cases h; rfl
  | cons n ns ih =>
    rw [readDict] at h
    cases hg : g n with
    | error e => rw [hg] at h; cases h
    | ok a =>
      rw [hg] at h
      dsimp only at h
      cases hr : readDict g ns with
      | error e => rw [hr] at h; cases h
      | ok m => rw [hr] at h; cases h; rw [List.map_cons, ih hr]

theorem readDict_mem {B : Type} {g : Str → Except Err B} {ns : List Str} {l : Dict Str B} (h : readDict g ns = .ok l) :
    ∀ i ∈ l, g i.1 = .ok i.2 := by
  induction ns generalizing l with
  | nil => cases h; intro i hi; cases hi
  | cons n ns ih =>
    rw [readDict] at h
    cases hg : g n with
    | error e => rw [hg] at h; cases h
    | ok a =>
      rw [hg] at h
      dsimp only at h
      cases hr : readDict g ns with
      | error e => rw [hr] at h; cases h
      | ok m =>
        rw [hr] at h
        cases h
        intro i hi
        rcases List.mem_cons.mp hi with rfl | hi
        · exact hg
        · exact ih hr i hi

theorem readDict_ok {B : Type} {g : Str → Except Err B} {ns : List Str} :
    (∃ l, readDict g ns = .ok l) ↔ ∀ n ∈ ns, ∃ a, g n = .ok a := by
  constructor
  · rintro ⟨l, h⟩ n hn
    rw [← readDict_keys h] at hn
    obtain ⟨i, hi, rfl⟩ := List.mem_map.mp hn
    exact ⟨i.2, readDict_mem h i hi⟩
  · intro h
    induction ns with
    | nil => exact ⟨[], rfl⟩
    | cons n ns ih =>
      obtain ⟨a, ha⟩ := h n List.mem_cons_self
      obtain ⟨l, hl⟩ := ih (fun m hm => h m (List.mem_cons_of_mem _ hm))
      exact ⟨(n, a) :: l, by rw [readDict, ha]; dsimp only; rw [hl]⟩

theorem readDict_lookup {B : Type} {g : Str → Except Err B} {ns : List Str} {l : Dict Str B} (h : readDict g ns = .ok l)
    (n : Str) (a : B) : l.lookup n = some a ↔ n ∈ ns ∧ g n = .ok a := by
  constructor
  · intro hl
    have hm := PyDict.mem_of_lookup hl
    refine ⟨?_, readDict_mem h _ hm⟩
    rw [← readDict_keys h]
    exact List.mem_map.mpr ⟨_, hm, rfl⟩
  · rintro ⟨hn, hg⟩
    rw [← readDict_keys h] at hn
    cases hl : l.lookup n with
    | none => exact absurd hn ((PyDict.lookup_none_iff l n).mp hl)
    | some b =>
      have := readDict_mem h _ (PyDict.mem_of_lookup hl)
      dsimp only at this
      rw [hg] at this
      cases this
      rfl

theorem childOf_iff {p q : Path} {n : Str} : Stored.childOf p q = some n ↔ q = p ++ [n] := by
  unfold Stored.childOf
  constructor
  · intro h
    split at h
    · next hc =>
      have := List.dropLast_append_getLast? n h
      rw [← this, hc.2]
    · cases h
  · rintro rfl
    rw [if_pos ⟨by simp, by simp⟩]
    simp

theorem mem_kids {V : Type} {f : File V} {p : Path} {n : Str} : n ∈ kids f p ↔ f.has (p ++ [n]) = true := by
  unfold kids
  rw [List.mem_insertionSort, List.mem_filterMap, Stored.has_iff]
  constructor
  · rintro ⟨q, hq, h⟩
    rw [childOf_iff] at h
    subst h
    rcases List.mem_append.mp hq with h | h
    · exact .inr (.inl h)
    · exact .inr (.inr h)
  · rintro (h | h | h)
    · simp at h
    · exact ⟨_, List.mem_append.mpr (.inl h), childOf_iff.mpr rfl⟩
    · exact ⟨_, List.mem_append.mpr (.inr h), childOf_iff.mpr rfl⟩

theorem attNum_iff {v : View (Val A)} {n : Str} {a : A} : attNum v n = .ok a ↔ v.att [] n = some (.num a) := by
  unfold attNum
  split
  · next x h => rw [h]; exact ⟨fun e => by cases e; rfl, fun e => by cases e; rfl⟩
  · next x h1 h2 => rw [h2]; exact ⟨fun e => (by cases e), fun e => by injection e with e; exact absurd e (h1 _)⟩
  · next h => rw [h]; exact ⟨fun e => (by cases e), fun e => (by cases e)⟩

theorem attFlag_iff {v : View (Val A)} {n : Str} {a : Bool} : attFlag v n = .ok a ↔ v.att [] n = some (.flag a) := by
  unfold attFlag
  split
  · next x h => rw [h]; exact ⟨fun e => by cases e; rfl, fun e => by cases e; rfl⟩
  · next x h1 h2 => rw [h2]; exact ⟨fun e => (by cases e), fun e => by injection e with e; exact absurd e (h1 _)⟩
  · next h => rw [h]; exact ⟨fun e => (by cases e), fun e => (by cases e)⟩

variable [One A]

theorem par110_iff {f : File (Val A)} {n : Str} {p : Param.Par A} :
    par110 ((view f [N .cosmology]).sub [N .pars]) n = .ok p ↔
      Par110 f n p ∧ p.probe = none ∧ p.numpyFlag = true ∧ p.stem = 1 ∧ p.description = [] ∧ p.units = "None".toList ∧
        p.method = "SteM".toList := by
  unfold par110
  simp only [bind_ok, attNum_iff, attFlag_iff]
  constructor
  · rintro ⟨x, hx, b, hb, y, hy, h⟩
    cases h
    exact ⟨⟨rfl, rfl, hx, hy, hb⟩, rfl, rfl, rfl, rfl, rfl, rfl⟩
  · rintro ⟨h, h1, h2, h3, h4, h5, h6⟩
    refine ⟨_, h.fiducial, _, h.free, _, h.current, ?_⟩
    rw [← h.name, ← h.kind, ← h1, ← h2, ← h3, ← h4, ← h5, ← h6]

theorem read110_parts {f : File (Val A)} {c : Cosmo A} : read110 f = .ok c ↔
    ∃ z e r ps, Holds f (path ["cosmology", "z_grid"]) z ∧ Holds f (path ["cosmology", "dimensionless_hubble_array"]) e ∧
      Holds f (path ["cosmology", "dimensionless_comoving_distance_array"]) r ∧
      Has f (path ["cosmology", "cosmological_parameters"]) ∧
      readDict (par110 ((view f [N .cosmology]).sub [N .pars])) ((view f [N .cosmology]).kids [N .pars]) = .ok ps ∧
      c = { grid := some z, hubble := some e, distance := some r, pars := some ps } := by
  unfold read110
  simp only [bind_ok, holds_iff]
  constructor
  · rintro ⟨z, hz, e, he, r, hr, h⟩
    split at h
    · next hh =>
      obtain ⟨ps, hps, h⟩ := bind_ok.mp h
      cases h
      exact ⟨z, e, r, ps, hz, he, hr, hh, hps, rfl⟩
    · cases h
  · rintro ⟨z, e, r, ps, hz, he, hr, hh, hps, rfl⟩
    refine ⟨z, hz, e, he, r, hr, ?_⟩
    rw [if_pos (show (view f [N .cosmology]).has [N .pars] = true from hh)]
    exact bind_ok.mpr ⟨ps, hps, rfl⟩

/-- **C138, cosmologies of 1.1.0, what is read.** The arrays and all parameters of the file, but neither growth nor power
spectrum nor flatness. -/
theorem read110_spec (f : File (Val A)) (c : Cosmo A) (h : read110 f = .ok c) :
    (∃ z, c.grid = some z ∧ Holds f (path ["cosmology", "z_grid"]) z) ∧
    (∃ e, c.hubble = some e ∧ Holds f (path ["cosmology", "dimensionless_hubble_array"]) e) ∧
    (∃ r, c.distance = some r ∧ Holds f (path ["cosmology", "dimensionless_comoving_distance_array"]) r) ∧
    (∃ ps, c.pars = some ps ∧ (∀ n p, ps.lookup n = some p → Par110 f n p ∧ p.stem = 1 ∧ p.method = "SteM".toList) ∧
      ∀ n, (ps.lookup n).isSome ↔ Has f (group110 n)) ∧
    c.growth = none ∧ c.power = none ∧ c.flat = none := by
  obtain ⟨z, e, r, ps, hz, he, hr, -, hps, rfl⟩ := read110_parts.mp h
  refine ⟨⟨z, rfl, hz⟩, ⟨e, rfl, he⟩, ⟨r, rfl, hr⟩, ⟨ps, rfl, fun n p hp => ?_, fun n => ?_⟩, rfl, rfl, rfl⟩
  · obtain ⟨h1, -, -, h4, -, -, h7⟩ := par110_iff.mp ((readDict_lookup hps n p).mp hp).2
    exact ⟨h1, h4, h7⟩
  · constructor
    · intro hs
      obtain ⟨p, hp⟩ := Option.isSome_iff_exists.mp hs
      exact mem_kids.mp ((readDict_lookup hps n p).mp hp).1
    · intro hh
      have hk : n ∈ (view f [N .cosmology]).kids [N .pars] := mem_kids.mpr hh
      obtain ⟨a, ha⟩ := readDict_ok.mp ⟨ps, hps⟩ n hk
      rw [(readDict_lookup hps n a).mpr ⟨hk, ha⟩]
      rfl

/-- **C138, cosmologies of 1.1.0, when they are read.** -/
theorem read110_ok_iff (f : File (Val A)) : (∃ c, read110 f = .ok c) ↔
    (∃ z, Holds f (path ["cosmology", "z_grid"]) z) ∧
    (∃ e, Holds f (path ["cosmology", "dimensionless_hubble_array"]) e) ∧
    (∃ r, Holds f (path ["cosmology", "dimensionless_comoving_distance_array"]) r) ∧
    Has f (path ["cosmology", "cosmological_parameters"]) ∧ ∀ n, Has f (group110 n) → ∃ p, Par110 f n p := by
  constructor
  · rintro ⟨c, h⟩
    obtain ⟨z, e, r, ps, hz, he, hr, hh, hps, -⟩ := read110_parts.mp h
    refine ⟨⟨z, hz⟩, ⟨e, he⟩, ⟨r, hr⟩, hh, fun n hn => ?_⟩
    obtain ⟨a, ha⟩ := readDict_ok.mp ⟨ps, hps⟩ n (mem_kids.mpr hn)
    exact ⟨a, (par110_iff.mp ha).1⟩
  · rintro ⟨⟨z, hz⟩, ⟨e, he⟩, ⟨r, hr⟩, hh, hp⟩
    have : ∃ l, readDict (par110 ((view f [N .cosmology]).sub [N .pars])) ((view f [N .cosmology]).kids [N .pars]) = .ok l := by
      refine readDict_ok.mpr fun n hn => ?_
      obtain ⟨p, h⟩ := hp n (mem_kids.mp hn)
      exact ⟨⟨n, p.fiducial, p.current, .cosmo, none, p.free, true, 1, [], "None".toList, "SteM".toList⟩,
        par110_iff.mpr ⟨⟨rfl, rfl, h.fiducial, h.current, h.free⟩, rfl, rfl, rfl, rfl, rfl, rfl⟩⟩
    obtain ⟨ps, hps⟩ := this
    exact ⟨_, read110_parts.mpr ⟨z, e, r, ps, hz, he, hr, hh, hps, rfl⟩⟩

/-- **C138, Hubble constant of 1.1.0.** It is there exactly if the file has a parameter `h`, and is its current value. -/
theorem hubble110 (f : File (Val A)) (c : Cosmo A) (h : read110 f = .ok c) (x : A) :
    reducedHubble c = .ok x ↔ Has f (group110 "h".toList) ∧
      f.attrs.lookup (group110 "h".toList, "current".toList) = some (.num x) := by
  obtain ⟨-, -, -, ⟨ps, hc, h1, h2⟩, -⟩ := read110_spec f c h
  unfold reducedHubble
  rw [hc]
  dsimp only
  cases hl : ps.lookup "h".toList with
  | none =>
    constructor
    · intro e; cases e
    · rintro ⟨hh, -⟩
      have := (h2 _).mpr hh
      rw [hl] at this
      cases this
  | some p =>
    have hp := (h1 _ _ hl).1
    have hh := (h2 "h".toList).mp (by rw [hl]; rfl)
    dsimp only
    rw [hp.current]
    constructor
    · intro e; cases e; exact ⟨hh, rfl⟩
    · rintro ⟨-, e⟩; cases e; rfl

/-! ### Cosmologies of other versions -/

theorem has_step {f g : File (Val A)} {o : Op (Val A)} (h : Stored.step f o = .ok g) {p : Path} (hp : f.has p = true) :
    g.has p = true := by
  rw [Stored.has_iff] at hp ⊢
  have mk : ∀ q, Stored.mkGroup f q = .ok g → p = [] ∨ p ∈ g.groups ∨ p ∈ g.data.map (·.1) := by
    intro q h
    unfold Stored.mkGroup at h
    split at h
    · cases h
    · cases h
      rcases hp with e | e | e
      · exact .inl e
      · exact .inr (.inl (Stored.mem_touch.mpr (.inl e)))
      · exact .inr (.inr e)
  cases o with
  | enter q =>
    simp only [Stored.step] at h
    split at h
    · cases h; exact hp
    · exact mk q h
  | group q =>
    simp only [Stored.step] at h
    split at h
    · cases h
    · exact mk q h
  | put q w =>
    simp only [Stored.step] at h
    split at h
    · cases h
    · split at h
      · cases h
      · cases h
        rcases hp with e | e | e
        · exact .inl e
        · exact .inr (.inl (Stored.mem_touch.mpr (.inl e)))
        · refine .inr (.inr ?_)
          rw [List.map_append]
          exact List.mem_append.mpr (.inl e)
  | att q n w => cases h; exact hp
  | fail e => cases h

theorem has_run (ops : List (Op (Val A))) : ∀ (f : File (Val A)) (p : Path), f.has p = true →
    (runOps f ops).2.has p = true := by
  induction ops with
  | nil => intro f p h; exact h
  | cons o ops ih =>
    intro f p h
    simp only [runOps]
    cases hs : Stored.step f o with
    | error e => exact h
    | ok g => exact ih g p (has_step hs h)

/-- A group made by calls which end well is in the file. -/
theorem group_run (ops : List (Op (Val A))) : ∀ (f : File (Val A)) (p : Path), (runOps f ops).1 = .ok () → .group p ∈ ops →
    (runOps f ops).2.has p = true := by
  induction ops with
  | nil => intro f p _ h; cases h
  | cons o ops ih =>
    intro f p h hm
    simp only [runOps] at h ⊢
    cases hs : Stored.step f o with
    | error e => rw [hs] at h; cases h
    | ok g =>
      rw [hs] at h
      rcases List.mem_cons.mp hm with e | hm
      · subst e
        refine has_run ops g p ?_
        rw [Stored.step] at hs
        split at hs
        · cases hs
        · unfold Stored.mkGroup at hs
          split at hs
          · cases hs
          · cases hs
            rw [Stored.has_iff]
            by_cases hp : p = []
            · exact .inl hp
            · exact .inr (.inl (Stored.mem_touch.mpr (.inr (Stored.mem_begins.mpr ⟨hp, List.prefix_refl _⟩))))
      · exact ih g p h hm

theorem putO_ne_att {p q : Path} {n : Str} {v : Val A} {x : Option A} : Op.att q n v ≠ putO p x := by
  cases x <;> nofun

/-- No attribute written with a cosmology of the current version is called `is_present`. -/
theorem save_names (c : Cosmo A) (w : Bool) (p : Path) (v : Val A) :
    .att p "is_present".toList v ∉ CosmoFile.saveCosmo [] c w := by
  have hput : ∀ (q : Path) (x : Option A), Op.att p "is_present".toList v ∉ Stored.putIf q x := by
    intro q x h
    cases x with
    | none => cases h
    | some a => rcases List.mem_singleton.mp h with h; cases h
  have hpars : ∀ r (ps : Dict Str (Param.Par A)), Op.att p "is_present".toList v ∉ CosmoFile.parsOps r ps := by
    intro r ps h
    unfold CosmoFile.parsOps at h
    rcases List.mem_cons.mp h with h | h
    · cases h
    · obtain ⟨i, -, h⟩ := List.mem_flatMap.mp h
      rcases List.mem_cons.mp h with h | h
      · cases h
      · obtain ⟨a, ha, e⟩ := List.mem_map.mp h
        injection e with _ e _
        have hn : ∀ x ∈ CosmoFile.parAttrs i.2, x.1 ≠ "is_present".toList := by
          intro x hx
          unfold CosmoFile.parAttrs at hx
          rcases List.mem_append.mp hx with hx | hx
          · have : x.1 ∈ [CosmoFile.N .name, CosmoFile.N .fiducial, CosmoFile.N .current, CosmoFile.N .kind,
                CosmoFile.N .free, CosmoFile.N .stem, CosmoFile.N .method, CosmoFile.N .units] :=
              List.mem_map.mpr ⟨x, hx, rfl⟩
            intro e
            rw [e] at this
            revert this
            decide
          · split at hx
            · rcases List.mem_singleton.mp hx with rfl
              exact (by decide : CosmoFile.N .probe ≠ "is_present".toList)
            · cases hx
        exact hn a ha e
  have hpow : ∀ r (q : Power A), Op.att p "is_present".toList v ∉ CosmoFile.savePower r q := by
    intro r q h
    unfold CosmoFile.savePower CosmoFile.powerOps at h
    rcases List.mem_cons.mp h with h | h
    · cases h
    rcases List.mem_append.mp h with h | h
    · rcases List.mem_cons.mp h with h | h
      · cases h
      rcases List.mem_cons.mp h with h | h
      · injection h with _ h _
        exact absurd h (by decide)
      rcases List.mem_cons.mp h with h | h
      · exact putO_ne_att h
      rcases List.mem_cons.mp h with h | h
      · exact putO_ne_att h
      rcases List.mem_cons.mp h with h | h
      · exact putO_ne_att h
      rcases List.mem_cons.mp h with h | h
      · exact putO_ne_att h
      · cases h
    · exact hput _ _ h
  intro h
  unfold CosmoFile.saveCosmo CosmoFile.cosmoOps at h
  rcases List.mem_append.mp h with h | h
  · rcases List.mem_append.mp h with h | h
    · rcases List.mem_append.mp h with h | h
      · rcases List.mem_append.mp h with h | h
        · rcases List.mem_append.mp h with h | h
          · rcases List.mem_cons.mp h with h | h
            · cases h
            rcases List.mem_cons.mp h with h | h
            · cases h
            rcases List.mem_cons.mp h with h | h
            · cases hc : c.flat with
              | none => rw [hc] at h; cases h
              | some b => rw [hc] at h; injection h with _ h _; exact absurd h (by decide)
            rcases List.mem_cons.mp h with h | h
            · cases hc : c.model with
              | none => rw [hc] at h; cases h
              | some b => rw [hc] at h; injection h with _ h _; exact absurd h (by decide)
            rcases List.mem_cons.mp h with h | h
            · exact putO_ne_att h
            · cases h
          · exact hput _ _ h
        · exact hput _ _ h
      · exact hput _ _ h
    · cases hc : c.pars with
      | none => rw [hc] at h; cases h
      | some ps => rw [hc] at h; exact hpars _ _ h
  · cases hc : c.power with
    | none => rw [hc] at h; cases h
    | some q =>
      rw [hc] at h
      dsimp only at h
      split at h
      · exact hpow _ _ h
      · cases h

/-- **C138, the version matters.** A cosmology with parameters saved by the current version is refused by the reader of
1.1.0, though every array has the same name. -/
theorem current_not_110 (c : Cosmo A) (ps : Dict Str (Param.Par A)) (hps : c.pars = some ps) (hne : ps ≠ []) (w : Bool)
    (h : (runOps File.empty (CosmoFile.saveCosmo [] c w)).1 = .ok ()) (d : Cosmo A) :
    read110 (runOps File.empty (CosmoFile.saveCosmo [] c w)).2 ≠ .ok d := by
  intro hd
  obtain ⟨i, l, rfl⟩ := List.exists_cons_of_ne_nil hne
  obtain ⟨-, -, -, -, hall⟩ := (read110_ok_iff _).mp ⟨d, hd⟩
  have hg : Op.group (group110 i.1) ∈ CosmoFile.saveCosmo [] c w := by
    unfold CosmoFile.saveCosmo CosmoFile.cosmoOps
    rw [hps]
    exact List.mem_append.mpr (.inl (List.mem_append.mpr (.inr (.tail _ (.head _)))))
  obtain ⟨p, hp⟩ := hall i.1 (group_run _ _ _ h hg)
  have hm : (group110 i.1, "is_present".toList) ∈
      ((runOps File.empty (CosmoFile.saveCosmo [] c w)).2.attrs).map (·.1) :=
    List.mem_map.mpr ⟨_, PyDict.mem_of_lookup hp.free, rfl⟩
  rcases attr_run _ _ _ _ hm with h | ⟨v, h⟩
  · cases h
  · exact save_names c w _ v h

/-- **C138, power spectra.** With the files of a version before 1.1.0 the power spectrum is always read, with those of 1.1.0
never, and with later ones as asked. -/
theorem power_asked (chk : Dict Str (Param.Par A) → Bool → Bool) {x y z : Char} (hx : isDigit x = true)
    (hy : isDigit y = true) (hz : isDigit z = true) (f : File (Val A)) (w : Bool) (c : Cosmo A)
    (h : readCosmo chk [x, '.', y, '.', z] f w = .ok c) :
    c.power.isSome = (decide (100 * digitVal x + 10 * digitVal y + digitVal z < 110) ||
      (decide (110 < 100 * digitVal x + 10 * digitVal y + digitVal z) && w)) := by
  obtain ⟨r1, r2, r3, -, -⟩ := Compare.reader_spec hx hy hz
  unfold readCosmo at h
  cases hr : Compare.cosmoReader [x, '.', y, '.', z] with
  | error e => rw [hr] at h; cases h
  | ok r =>
    rw [hr] at h r1 r2 r3
    cases r with
    | v104 =>
      have hlt := r1.mp rfl
      rw [decide_eq_true hlt]
      obtain ⟨e, r, z, k, l, n, g, t, -, rfl⟩ := (read104_iff f c).mp h
      rfl
    | v110 =>
      have heq := r2.mp rfl
      rw [decide_eq_false (by omega), decide_eq_false (by omega)]
      obtain ⟨-, -, -, -, -, hp, -⟩ := read110_spec f c h
      rw [hp]
      rfl
    | current =>
      have hgt := r3.mp rfl
      rw [decide_eq_false (by omega), decide_eq_true hgt]
      dsimp only at h
      unfold CosmoFile.loadCosmo at h
      split at h
      · dsimp only at h
        split at h
        · cases h
        · next b m ps hb =>
          split at h
          · split at h
            · next hw =>
              subst hw
              split at h
              · cases h; rfl
              · cases h
            · next hw =>
              rw [Bool.not_eq_true] at hw
              subst hw
              cases h
              rfl
          · cases h
      · cases h

/-! ### Spectra -/

omit [One A] in
theorem weightFor_iff {p : Str} : weightFor p = .ok () ↔ Known p := by
  unfold weightFor
  by_cases h : p ∈ classes
  · rw [if_pos h]
    exact ⟨fun _ => h, fun _ => rfl⟩
  · rw [if_neg h]
    constructor
    · intro e
      split at e <;> cases e
    · intro hk; exact absurd hk h

theorem split_two {n p q : Str} : splitChar '_' n = [p, q] ↔ n = p ++ '_' :: q ∧ '_' ∉ p ∧ '_' ∉ q := by
  constructor
  · intro h
    have hj := join_splitChar '_' n
    have hm := Seyfert.RunS.split_no_sep '_' n
    rw [h] at hj hm
    refine ⟨?_, hm p (.head _), hm q (.tail _ (.head _))⟩
    rw [← hj, joinStr_cons_cons, joinStr, List.append_assoc]
    rfl
  · rintro ⟨rfl, h1, h2⟩
    rw [splitChar_append _ _ _ h1, splitChar_no_sep _ _ h2]

omit [One A] in
theorem oldCl_iff {f : File (Val A)} {n : Str} {c : OldCl A} : oldCl (view f []) n = .ok c ↔ OldAt f n c := by
  unfold oldCl
  constructor
  · intro h
    split at h
    · next p1 p2 hs =>
      simp only [bind_ok, holds_iff] at h
      obtain ⟨c, hc, l, hl, w, hw, k, hk, u1, h1, u2, h2, w1, hw1, w2, hw2, n1, hn1, n2, hn2, h⟩ := h
      cases h
      obtain ⟨e, o1, o2⟩ := split_two.mp hs
      exact ⟨e, ⟨o1, o2⟩, ⟨weightFor_iff.mp h1, weightFor_iff.mp h2⟩, hc, hl, hw, hk, hw1, hw2, hn1, hn2, ⟨rfl, rfl, rfl⟩⟩
    · cases h
  · intro h
    rw [split_two.mpr ⟨h.key, h.one⟩]
    simp only [bind_ok, holds_iff]
    refine ⟨_, h.cls, _, h.ells, _, h.widths, _, h.kernel, (), weightFor_iff.mpr h.known.1, (), weightFor_iff.mpr h.known.2,
      _, h.weight1, _, h.weight2, _, h.dens1, _, h.dens2, ?_⟩
    have ⟨h1, h2, h3⟩ := h.noKernel
    cases c
    cases h1
    cases h2
    cases h3
    rfl

omit [One A] in
/-- **C138, spectra before 1.1.0, when they are read.** The four groups must be there, and every entry of the spectra must be
complete, with its weight functions and densities. -/
theorem readCls104_ok_iff (f : File (Val A)) : (∃ d, readCls104 f = .ok d) ↔
    Has f (path ["cls"]) ∧ Has f (path ["density_functions"]) ∧ Has f (path ["weight_functions"]) ∧
      Has f (path ["kernels"]) ∧ ∀ n, Has f (path ["cls"] ++ [n]) → ∃ c, OldAt f n c := by
  have hcond : ((view f []).has [N .cls] && (view f []).has [N .dens] && (view f []).has [N .weights] &&
      (view f []).has [N .kernels]) = true ↔ Has f (path ["cls"]) ∧ Has f (path ["density_functions"]) ∧
      Has f (path ["weight_functions"]) ∧ Has f (path ["kernels"]) := by
    rw [Bool.and_eq_true, Bool.and_eq_true, Bool.and_eq_true, and_assoc, and_assoc]
    exact Iff.rfl
  unfold readCls104
  dsimp only
  by_cases hc : ((view f []).has [N .cls] && (view f []).has [N .dens] && (view f []).has [N .weights] &&
      (view f []).has [N .kernels]) = true
  · rw [if_pos hc, readDict_ok]
    obtain ⟨h1, h2, h3, h4⟩ := hcond.mp hc
    constructor
    · intro h
      refine ⟨h1, h2, h3, h4, fun n hn => ?_⟩
      obtain ⟨c, hc⟩ := h n (mem_kids.mpr hn)
      exact ⟨c, oldCl_iff.mp hc⟩
    · rintro ⟨-, -, -, -, h⟩ n hn
      obtain ⟨c, hc⟩ := h n (mem_kids.mp hn)
      exact ⟨c, oldCl_iff.mpr hc⟩
  · rw [if_neg hc]
    constructor
    · rintro ⟨d, h⟩; cases h
    · rintro ⟨h1, h2, h3, h4, -⟩
      exact absurd (hcond.mpr ⟨h1, h2, h3, h4⟩) hc

omit [One A] in
/-- **C138, spectra before 1.1.0, what is read.** Under every key of the file the spectrum with the arrays of this key, and
nothing else. -/
theorem readCls104_spec (f : File (Val A)) (d : Dict Str (OldCl A)) (h : readCls104 f = .ok d) (n : Str) (c : OldCl A) :
    d.lookup n = some c ↔ Has f (path ["cls"] ++ [n]) ∧ OldAt f n c := by
  unfold readCls104 at h
  dsimp only at h
  split at h
  · rw [readDict_lookup h, oldCl_iff]
    exact and_congr mem_kids Iff.rfl
  · cases h

omit [One A] in
/-- **C138, names of old spectra.** Every spectrum read from an old file calls itself `None_None`, and so no spectrum is under
the key it has. -/
theorem old_key (f : File (Val A)) (d : Dict Str (OldCl A)) (h : readCls104 f = .ok d) (n : Str) (c : OldCl A)
    (hc : d.lookup n = some c) : obsKey c = "None_None".toList ∧ obsKey c ≠ n := by
  obtain ⟨-, ho⟩ := (readCls104_spec f d h n c).mp hc
  have hk : obsKey c = "None_None".toList := by
    unfold obsKey
    obtain ⟨h1, h2, -⟩ := ho.noKernel
    rw [h1, h2]
    rfl
  refine ⟨hk, fun e => ?_⟩
  rw [hk] at e
  have hs := split_two.mpr ⟨ho.key, ho.one⟩
  rw [← e] at hs
  have h2 : splitChar '_' "None_None".toList = ["None".toList, "None".toList] := by rfl
  rw [h2] at hs
  have hn := ho.known.1
  have : c.p1 = "None".toList := by injection hs with hs _; exact hs.symm
  rw [this] at hn
  revert hn
  unfold Known
  decide

omit [One A] in
/-- **C138, old spectra are not saved.** Spectra read from an old file cannot be written again, to no place of no file: the
conversion of old files to the current version always fails. -/
theorem old_not_saved (f : File (Val A)) (d : Dict Str (OldCl A)) (h : readCls104 f = .ok d) (hne : d ≠ []) (g : File (Val A))
    (r : Path) : (runOps g (saveOldColl r d)).1 ≠ .ok () := by
  obtain ⟨i, l, rfl⟩ := List.exists_cons_of_ne_nil hne
  obtain ⟨n, c⟩ := i
  have hl : ((n, c) :: l : Dict Str (OldCl A)).lookup n = some c := by
    rw [List.lookup_cons, beq_self_eq_true]
  obtain ⟨-, ho⟩ := (readCls104_spec f _ h n c).mp hl
  refine CosmoFile.fail_run _ .typeError g ?_
  unfold saveOldColl
  refine .tail _ (.tail _ ?_)
  rw [List.flatMap_cons]
  refine List.mem_append.mpr (.inl ?_)
  unfold saveOldCl
  dsimp only
  rw [ho.noKernel.1]
  exact .tail _ (.tail _ (.tail _ (.tail _ (.tail _ (.head _)))))

/-! ### Derivatives -/

omit [One A] in
theorem isData_lookup {f : File (Val A)} {p : Path} : Stored.isData f p = true ↔ ∃ v, f.data.lookup p = some v := by
  rw [Stored.isData_iff, ← PyDict.lookup_isSome_iff, Option.isSome_iff_exists]

omit [One A] in
theorem entry_iff {f : File (Val A)} {n : Str} {a : A} :
    (if Stored.isData f [n] then (view f []).num [n] else (view f []).num [n, N .dcLij]) = .ok a ↔ DerAt f n a := by
  unfold DerAt
  by_cases hd : Stored.isData f [n] = true
  · rw [if_pos hd, holds_iff]
    obtain ⟨v, hv⟩ := isData_lookup.mp hd
    constructor
    · intro h; exact .inl h
    · rintro (h | ⟨h, -⟩)
      · exact h
      · exact absurd hv (h v)
  · rw [if_neg hd, holds_iff]
    have hno : ∀ v, f.data.lookup [n] ≠ some v := fun v hv => hd (isData_lookup.mpr ⟨v, hv⟩)
    constructor
    · intro h; exact .inr ⟨hno, h⟩
    · rintro (h | ⟨-, h⟩)
      · exact absurd h (hno _)
      · exact h

omit [One A] in
/-- **C138, derivatives, when they are read.** Every entry of the file must be an array or a group with the derivatives. -/
theorem readDcl_ok_iff (f : File (Val A)) : (∃ d, readDcl f = .ok d) ↔ ∀ n, Has f [n] → ∃ a, DerAt f n a := by
  unfold readDcl
  rw [readDict_ok]
  constructor
  · intro h n hn
    obtain ⟨a, ha⟩ := h n (mem_kids.mpr hn)
    exact ⟨a, entry_iff.mp ha⟩
  · intro h n hn
    obtain ⟨a, ha⟩ := h n (mem_kids.mp hn)
    exact ⟨a, entry_iff.mpr ha⟩

omit [One A] in
/-- **C138, derivatives, what is read.** -/
theorem readDcl_spec (f : File (Val A)) (d : Dict Str A) (h : readDcl f = .ok d) (n : Str) (a : A) :
    d.lookup n = some a ↔ Has f [n] ∧ DerAt f n a := by
  unfold readDcl at h
  rw [readDict_lookup h]
  exact and_congr mem_kids entry_iff

omit [One A] in
/-- **C138, derivatives of the current version.** They are read from the file written for them, under their keys. -/
theorem current_dcl (d : Dict Str (A × A)) (h1 : (d.map (·.1)).Nodup) :
    (runOps File.empty (Stored.saveDerivs d)).1 = .ok () ∧
    ∃ l, readDcl (runOps File.empty (Stored.saveDerivs d)).2 = .ok l ∧ ∀ n, l.lookup n = (d.lookup n).map (·.1) := by
  let ops : A × A → List (Op (Val A)) := fun x => [.put [Stored.N .dcLij] (.num x.1), .put [Stored.N .ells] (.num x.2)]
  let P : A × A → View (Val A) → Prop := fun x v => v.num [Stored.N .dcLij] = .ok x.1
  obtain ⟨g, r1, r2, _⟩ := Stored.items_run (b := []) (P := P) .group (by
      intro f r hf
      have : f.has r = false := Stored.fresh_has hf
      simp only [Stored.step, this]
      rfl) ops d (Stored.items_empty (V := Val A)) (by simpa using h1) (by
    intro i _
    have hrun : runOps File.empty (ops i.2) =
        (.ok (), ⟨[], Stored.top [(Stored.N .dcLij, .num i.2.1), (Stored.N .ells, .num i.2.2)], []⟩) := by
      have : ops i.2 = Stored.puts [] [(Stored.N .dcLij, .num i.2.1), (Stored.N .ells, .num i.2.2)] := rfl
      rw [this, Stored.puts_ok]
      · rfl
      · simp [begins]
      · simp [begins]
      · simp [File.empty]
      · simp [File.empty]
      · simp [Stored.N_inj]
    refine ⟨_, hrun, Stored.flat_num rfl (by simp), ?_⟩
    have := Stored.clean_run (ops := ops i.2) (Stored.clean_empty (V := Val A))
    rwa [hrun] at this)
  have hk := Stored.items_kids r2
  simp only [List.nil_append] at hk r2
  have hrun : runOps File.empty (Stored.saveDerivs d) = (.ok (), g) := r1
  rw [hrun]
  refine ⟨rfl, ?_⟩
  dsimp only
  have hnod : ∀ n v, g.data.lookup [n] ≠ some v := by
    intro n v hv
    have hm := PyDict.mem_of_lookup hv
    have hg : g = (runOps File.empty (Stored.saveDerivs d)).2 := by rw [hrun]
    rw [hg] at hm
    rcases data_run _ _ _ _ hm with h | h
    · cases h
    · unfold Stored.saveDerivs at h
      obtain ⟨i, -, h⟩ := List.mem_flatMap.mp h
      rcases List.mem_cons.mp h with h | h
      · cases h
      rcases List.mem_cons.mp h with h | h
      · injection h with h _; injection h with _ h; cases h
      rcases List.mem_cons.mp h with h | h
      · injection h with h _; injection h with _ h; cases h
      · cases h
  have hat : ∀ i ∈ d, DerAt g i.1 i.2.1 := fun i hi => .inr ⟨hnod i.1, holds_iff.mp (r2.at_ i hi)⟩
  have hhas : ∀ n, Has g [n] ↔ n ∈ d.map (·.1) := by
    intro n
    have : Has g [n] ↔ n ∈ kids g [] := (mem_kids (f := g) (p := []) (n := n)).symm
    rw [this, hk]
    exact ((Stored.perm_byName d).map _).mem_iff
  have hok : ∃ l, readDcl g = .ok l := by
    refine (readDcl_ok_iff g).mpr fun n hn => ?_
    obtain ⟨i, hi, rfl⟩ := List.mem_map.mp ((hhas n).mp hn)
    exact ⟨_, hat i hi⟩
  obtain ⟨l, hl⟩ := hok
  refine ⟨l, hl, fun n => ?_⟩
  cases hd : d.lookup n with
  | some x => exact (readDcl_spec g l hl n x.1).mpr ⟨(hhas n).mpr ((PyDict.lookup_isSome_iff d n).mp (by rw [hd]; rfl)),
      hat _ (PyDict.mem_of_lookup hd)⟩
  | none =>
    rw [Option.map_none]
    cases hln : l.lookup n with
    | none => rfl
    | some a =>
      have := (hhas n).mp ((readDcl_spec g l hl n a).mp hln).1
      exact absurd this ((PyDict.lookup_none_iff d n).mp hd)

/-! ### Examples -/

/-- A complete old file. -/
def exOld : File (Val Nat) :=
  ⟨[], [(path ["cosmology", "dimensionless_hubble_parameter"], .num 1), (path ["cosmology", "dimensionless_comoving_distance"], .num 2),
    (path ["cosmology", "z_array"], .num 3), (path ["power_spectrum", "k_array"], .num 4),
    (path ["power_spectrum", "p_mm_values", "lin_p_mm_z_k"], .num 5),
    (path ["power_spectrum", "p_mm_values", "nonlin_p_mm_z_k"], .num 6), (path ["growth_factor_z"], .num 7)], []⟩

/-- It is read, and its growth is not kept. -/
example : ∃ c, read104 exOld = .ok c ∧ c.hubble = some 1 ∧ c.growth = none ∧
    (readCosmo (fun _ _ => true) "1.0.4".toList exOld false).toOption = some c :=
  ⟨{ grid := some 3, hubble := some 1, distance := some 2,
     power := some { z := some 3, k := some 4, lin := some 5, nonlin := some 6, transfer := none } }, by
    refine ⟨(read104_iff _ _).mpr ⟨1, 2, 3, 4, 5, 6, some 7, none, ⟨?_, ?_, ?_, ?_, ?_, ?_, ?_, ?_⟩, rfl⟩, rfl, rfl, ?_⟩
    all_goals first | (unfold Holds; decide +kernel) | (unfold Maybe Holds; decide +kernel) | (unfold Maybe Has; decide +kernel) |
      decide +kernel⟩

/-- A cosmology which the old writer writes and the old reader refuses. -/
example : (writeOld (A := Nat) { grid := some 1, power := some { k := some 2, lin := some 3, nonlin := some 4 } }).1.toOption =
    some () := by decide +kernel

/-- A file of version 1.1.0 with the Hubble constant. -/
def ex110 : File (Val Nat) :=
  ⟨[path ["cosmology"], path ["cosmology", "cosmological_parameters"], group110 "h".toList],
   [(path ["cosmology", "z_grid"], .num 1), (path ["cosmology", "dimensionless_hubble_array"], .num 2),
    (path ["cosmology", "dimensionless_comoving_distance_array"], .num 3)],
   [((group110 "h".toList, "fiducial".toList), .num 4), ((group110 "h".toList, "is_present".toList), .flag true),
    ((group110 "h".toList, "current".toList), .num 5)]⟩

example : ((read110 ex110).bind reducedHubble).toOption = some 5 := by decide +kernel
example : ((readCosmo (fun _ _ => true) "1.1.0".toList ex110 true).toOption.map (fun c => c.power)) = some none := by
  decide +kernel

/-- A cosmology with a parameter, saved by the current version. -/
def exPar : Param.Par Nat :=
  ⟨"h".toList, 1, 1, .cosmo, none, true, false, 1, [], "None".toList, "SteM".toList⟩

def exNow : Cosmo Nat :=
  { flat := some true, pars := some [("h".toList, exPar)], grid := some 1, hubble := some 2, distance := some 3 }

example : (runOps File.empty (CosmoFile.saveCosmo [] exNow false)).1.toOption = some () ∧
    (read110 (runOps File.empty (CosmoFile.saveCosmo [] exNow false)).2).toOption = none ∧
    ((readCosmo (fun _ _ => true) "1.2.0".toList (runOps File.empty (CosmoFile.saveCosmo [] exNow false)).2 false).toOption.map
      (fun c => (c.hubble, c.power))) = some (some 2, none) := by decide +kernel

/-- An old file with one spectrum. -/
def exCls : File (Val Nat) :=
  ⟨[path ["cls"], path ["cls", "Lensing_Void"], path ["density_functions"], path ["weight_functions"], path ["kernels"]],
   [(path ["cls", "Lensing_Void", "c_lij"], .num 1), (path ["cls", "Lensing_Void", "l_bin_centers"], .num 2),
    (path ["cls", "Lensing_Void", "l_bin_widths"], .num 3), (path ["kernels", "Lensing_Void", "k_ijz"], .num 4),
    (path ["weight_functions", "Lensing"], .num 5), (path ["weight_functions", "Void"], .num 6),
    (path ["density_functions", "Lensing", "norm_density_i_z"], .num 7),
    (path ["density_functions", "Void", "norm_density_i_z"], .num 8)], []⟩

example : (readCls104 exCls).toOption =
    some [("Lensing_Void".toList, ⟨"Lensing".toList, "Void".toList, 1, 2, 3, 4, 5, 6, 7, 8, none, none, none⟩)] := by
  decide +kernel

/-- Derivatives in an array of the file and in a group. -/
example : (readDcl (A := Nat) ⟨[path ["B"]], [(path ["A"], .num 1), (path ["B", "dc_lij"], .num 2)], []⟩).toOption =
    some [("A".toList, 1), ("B".toList, 2)] := by decide +kernel
example : (readDcl (A := Nat) ⟨[path ["B"]], [(path ["B", "l_bin_centers"], .num 2)], []⟩).toOption = none := by
  decide +kernel
example : (([("A_B".toList, ((1, 2) : Nat × Nat)), ("A_A".toList, (3, 4))] : Dict Str (Nat × Nat)).map (·.1)).Nodup := by
  decide +kernel

end Seyfert.Retro
