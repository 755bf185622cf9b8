import Verif.Lemmas.CosmoFile
import Verif.Model.Background

/-! Properties of the files of cosmologies and power spectra. -/

namespace Seyfert.CosmoFile
open H5 (Path File begins)
open Stored (Op Val View Err putO putIf view runOps kids readDict Fresh Apart byName)

variable {A : Type}

theorem has_saved {f g : File (Val A)} {r : Path} (hf : Fresh f r) : (Stored.graft f r g).has r = true := graft_here hf

/-- A list of calls with one that raises never ends well. -/
theorem fail_run (ops : List (Op (Val A))) (e : Err) : ∀ f : File (Val A), .fail e ∈ ops → (runOps f ops).1 ≠ .ok () := by
  induction ops with
  | nil => intro f h; cases h
  | cons o ops ih =>
    intro f h
    simp only [runOps]
    rcases List.mem_cons.1 h with rfl | h
    · simp [Stored.step]
    · cases Stored.step f o with
      | error e => simp
      | ok g => exact ih g h

theorem lookup_perm {κ υ : Type} [DecidableEq κ] [BEq κ] [LawfulBEq κ] {a b : List (κ × υ)} (h : a.Perm b)
    (hn : (b.map (·.1)).Nodup) (k : κ) : a.lookup k = b.lookup k := by
  have ha : (a.map (·.1)).Nodup := (h.map _).nodup_iff.2 hn
  cases hb : b.lookup k with
  | some v =>
    exact PyDict.lookup_of_mem a ha (p := (k, v)) (h.mem_iff.2 (PyDict.mem_of_lookup hb))
  | none =>
    rw [PyDict.lookup_none_iff] at hb ⊢
    intro hc
    exact hb ((h.map _).mem_iff.1 hc)

theorem lookup_map_snd {κ υ ω : Type} [BEq κ] (φ : υ → ω) (d : List (κ × υ)) (k : κ) :
    (d.map (fun i => (i.1, φ i.2))).lookup k = (d.lookup k).map φ := by
  induction d with
  | nil => rfl
  | cons i d ih =>
    obtain ⟨a, b⟩ := i
    simp only [List.map_cons, List.lookup_cons]
    cases k == a <;> simp [ih]

/-- Every parameter is found in the file under its name. -/
theorem parsKept_lookup {ps : Dict Str (Param.Par A)} (h : (ps.map (·.1)).Nodup) (n : Str) :
    (parsKept ps).lookup n = (ps.lookup n).map parKept := by
  unfold parsKept
  rw [lookup_map_snd, lookup_perm (Stored.perm_byName ps) h]

/-! ### Power spectra -/

/-- Every complete power spectrum saved under a path where nothing is comes back as it was; nothing else in the file
changes. -/
theorem power_back {f : File (Val A)} {r : Path} (hf : Fresh f r) {p : Power A} (h : p.Complete) : ∃ g,
    runOps f (savePower r p) = (.ok (), g) ∧ loadPower g r = .ok p ∧ ∀ s, Apart r s → view g s = view f s := by
  obtain ⟨G, h1, h2, _⟩ := pow_file (f := File.empty) (fresh_empty' (by simp)) (fresh_empty' (by simp)) h
  refine ⟨Stored.graft f r G, ?_, ?_, fun s hs => Stored.view_graft_apart hs⟩
  · rw [savePower_shift, Stored.save_graft hf, h1]
  · unfold loadPower
    rw [has_saved hf, Stored.view_graft hf]
    simp [h2]

/-- A power spectrum without one of its four arrays is never saved. -/
theorem power_incomplete {f : File (Val A)} {r : Path} {p : Power A} (h : ¬ p.Complete) :
    (runOps f (savePower r p)).1 ≠ .ok () := by
  apply fail_run _ .typeError
  unfold Power.Complete at h
  obtain ⟨c, z, k, l, n, t⟩ := p
  cases z <;> cases k <;> cases l <;> cases n <;> simp_all [savePower, powerOps, putO]

/-- Two power spectra that differ only in the program that made them are equal. -/
theorem power_code_not_compared [DecidableEq A] (p : Power A) (c : Str) : powerEq p { p with code := c } = true := by
  simp [powerEq]

/-- Power spectra that are equal to each other hold the same arrays. -/
theorem power_eq_iff [DecidableEq A] (p q : Power A) : powerEq p q = true ↔ { p with code := [] } = { q with code := [] } := by
  simp [powerEq]

/-! ### Cosmologies -/

/-- What is in a file after a cosmology was saved there, for every later use. -/
theorem saved {f : File (Val A)} {r : Path} (hf : Fresh f r) {c : Cosmo A} {ps : Dict Str (Param.Par A)} (h : c.Complete ps)
    (w : Bool) (hw : w = true → ∀ p, c.power = some p → p.Complete) : ∃ g b m z,
    c.flat = some b ∧ c.model = some m ∧ c.grid = some z ∧
    runOps f (saveCosmo r c w) = (.ok (), g) ∧ g.has r = true ∧ (∀ s, Apart r s → view g s = view f s) ∧
      readBuild (view g r) = .ok (b, m, parsKept ps) ∧
      CosAt ((view g r).sub [N .cosmology]) c b m z ∧
      (∀ p, w = true → c.power = some p → ∀ o, readPower o (view g r) = .ok { p with transfer := p.transfer.or o.transfer }) ∧
      (w = false ∨ c.power = none → ∀ o, readPower o (view g r) = .error .keyError) := by
  obtain ⟨b, hb⟩ := Option.isSome_iff_exists.1 h.flat
  obtain ⟨m, hm⟩ := Option.isSome_iff_exists.1 h.model
  obtain ⟨z, hz⟩ := Option.isSome_iff_exists.1 h.grid
  obtain ⟨F, h1, h2, h3, h4, h5⟩ := cosmo_file (c := c) b m z w (by
    intro qs hq
    rw [h.pars] at hq
    injection hq with hq
    subst hq
    exact ⟨h.names, h.probes⟩) hw
  refine ⟨Stored.graft f r F, b, m, z, hb, hm, hz, ?_, has_saved hf, fun s hs => Stored.view_graft_apart hs, ?_⟩
  · rw [saveCosmo_shift r hb hm hz, Stored.save_graft hf, h1]
  · rw [Stored.view_graft hf]
    exact ⟨build_ok h2 h3 h.pars, h3, h4, h5⟩

/-- Every complete cosmology whose parameters pass the checks, saved with its power spectrum or without, comes back: its
flatness, model, arrays and power spectrum as they were, its parameters ordered by name. Its name is lost. -/
theorem cosmo_back (chk : Dict Str (Param.Par A) → Bool → Bool) {f : File (Val A)} {r : Path} (hf : Fresh f r) {c : Cosmo A}
    {ps : Dict Str (Param.Par A)} (h : c.Complete ps) (hc : ∀ b, c.flat = some b → chk (parsKept ps) b = true) (w : Bool)
    (hw : w = true → ∃ p, c.power = some p ∧ p.Complete) : ∃ g,
    runOps f (saveCosmo r c w) = (.ok (), g) ∧
      loadCosmo chk g r w = .ok { c with pars := some (parsKept ps), name := none,
                                         power := if w then c.power else none } ∧
      ∀ s, Apart r s → view g s = view f s := by
  obtain ⟨g, b, m, z, hb, hm, hz, h1, h2, h3, h4, h5, h6, _⟩ := saved hf h w (by
    intro e p hp
    obtain ⟨q, e1, e2⟩ := hw e
    rw [e1] at hp
    injection hp with hp
    exact hp ▸ e2)
  refine ⟨g, h1, ?_, h3⟩
  unfold loadCosmo
  simp only [h2, if_true, h4, hc b hb, fill_eq h5]
  obtain ⟨fl, mo, pa, gr, hu, di, gw, po, na⟩ := c
  subst hb hm hz
  cases w with
  | false => simp
  | true =>
    obtain ⟨p, hp, _⟩ := hw rfl
    have := h6 p rfl hp {}
    rw [this]
    subst hp
    simp

theorem parEq_kept [DecidableEq A] (p : Param.Par A) : parEq p (parKept p) = true := by simp [parEq, parKept]

theorem parsEq_kept [DecidableEq A] {ps : Dict Str (Param.Par A)} (h : (ps.map (·.1)).Nodup) :
    parsEq ps (parsKept ps) = true := by
  simp only [parsEq, decide_eq_true_eq]
  refine ⟨by simp [parsKept, (Stored.perm_byName ps).length_eq], ?_⟩
  rw [List.all_eq_true]
  intro i hi
  rw [parsKept_lookup h, PyDict.lookup_of_mem ps h hi]
  simp [parEq_kept]

/-- The cosmology read from the file is equal to the one that was saved, when the power spectrum was saved too or there is
none. -/
theorem cosmo_back_eq [DecidableEq A] (chk : Dict Str (Param.Par A) → Bool → Bool) {f : File (Val A)} {r : Path}
    (hf : Fresh f r) {c : Cosmo A} {ps : Dict Str (Param.Par A)} (h : c.Complete ps)
    (hc : ∀ b, c.flat = some b → chk (parsKept ps) b = true) (w : Bool) (hw : ∀ p, c.power = some p → p.Complete)
    (hw' : w = c.power.isSome) : ∃ g d,
    runOps f (saveCosmo r c w) = (.ok (), g) ∧ loadCosmo chk g r w = .ok d ∧ cosmoEq c d = .ok true := by
  obtain ⟨g, h1, h2, _⟩ := cosmo_back chk hf h hc w (by
    intro e
    rw [hw'] at e
    obtain ⟨p, hp⟩ := Option.isSome_iff_exists.1 e
    exact ⟨p, hp, hw p hp⟩)
  refine ⟨g, _, h1, h2, ?_⟩
  unfold cosmoEq
  cases hp : c.power with
  | none =>
    have : w = false := by rw [hw', hp]; rfl
    subst this
    simp [h.pars, parsEq_kept h.names]
  | some p =>
    have : w = true := by rw [hw', hp]; rfl
    subst this
    simp [h.pars, parsEq_kept h.names, powerEq]

/-- The checks of the program see only the values found by name, so parameters pass them in the file as they did in the
object. -/
def checked (ps : Dict Str (Param.Par ℚ)) (b : Bool) : Bool :=
  match Background.check (ps.map (fun i => (i.1, (i.2.fiducial, i.2.current)))) b with
  | .ok _ => true
  | .error _ => false

theorem checked_kept {ps : Dict Str (Param.Par ℚ)} (h : (ps.map (·.1)).Nodup) (b : Bool) :
    checked (parsKept ps) b = checked ps b := by
  have e : ∀ n : Str, ((parsKept ps).map (fun i => (i.1, (i.2.fiducial, i.2.current)))).lookup n =
      (ps.map (fun i => (i.1, (i.2.fiducial, i.2.current)))).lookup n := by
    intro n
    have h1 := lookup_map_snd (fun p : Param.Par ℚ => (p.fiducial, p.current)) (parsKept ps) n
    have h2 := lookup_map_snd (fun p : Param.Par ℚ => (p.fiducial, p.current)) ps n
    rw [h1, h2, parsKept_lookup h]
    cases ps.lookup n <;> rfl
  unfold checked Background.check
  simp only [e]

/-- A cosmology whose parameters pass the checks of the program comes back. -/
theorem cosmo_back_checked {f : File (Val ℚ)} {r : Path} (hf : Fresh f r) {c : Cosmo ℚ} {ps : Dict Str (Param.Par ℚ)}
    (h : c.Complete ps) (hc : ∀ b, c.flat = some b → checked ps b = true) {p : Power ℚ} (hp : c.power = some p)
    (hw : p.Complete) : ∃ g,
    runOps f (saveCosmo r c true) = (.ok (), g) ∧
      loadCosmo checked g r true = .ok { c with pars := some (parsKept ps), name := none } := by
  obtain ⟨g, h1, h2, _⟩ := cosmo_back checked hf h (by
    intro b hb
    rw [checked_kept h.names]
    exact hc b hb) true (fun _ => ⟨p, hp, hw⟩)
  exact ⟨g, h1, by simpa using h2⟩

/-- A cosmology without flatness, model or redshifts, or with an incomplete power spectrum to be saved, is never saved. -/
theorem cosmo_incomplete {f : File (Val A)} {r : Path} {c : Cosmo A} (w : Bool)
    (h : c.flat = none ∨ c.model = none ∨ c.grid = none ∨ (w = true ∧ ∃ p, c.power = some p ∧ ¬ p.Complete)) :
    (runOps f (saveCosmo r c w)).1 ≠ .ok () := by
  rcases h with h | h | h | ⟨rfl, p, hp, h⟩
  · apply fail_run _ .typeError
    simp [saveCosmo, cosmoOps, h]
  · apply fail_run _ .typeError
    simp [saveCosmo, cosmoOps, h]
  · apply fail_run _ .typeError
    simp [saveCosmo, cosmoOps, h, putO]
  · unfold saveCosmo
    rw [hp, Stored.runOps_append]
    cases h1 : runOps f (cosmoOps r c) with
    | mk x g =>
      cases x with
      | error e => simp
      | ok u =>
        simp only [if_true]
        exact power_incomplete h

/-- A cosmology without flatness leaves its group behind when it is not saved: no cosmology can be saved there any more. -/
theorem cosmo_incomplete_leaves {f : File (Val A)} {r : Path} (hf : Fresh f r) {c : Cosmo A} (w : Bool) (hc : c.flat = none) :
    ∃ g, runOps f (saveCosmo r c w) = (.error .typeError, g) ∧
      ∀ (d : Cosmo A) (w' : Bool), (runOps g (saveCosmo r d w')).1 = .error .exists_ := by
  obtain ⟨rest, hr⟩ : ∃ rest, saveCosmo r c w =
      (.enter r :: ([.group [N .cosmology], .fail .typeError] : List (Op (Val A))).map (Stored.shift r)) ++ rest := by
    refine ⟨(saveCosmo r c w).drop 3, ?_⟩
    simp [saveCosmo, cosmoOps, hc]
  refine ⟨Stored.graft f r { groups := [[N .cosmology]], data := [], attrs := [] }, ?_, ?_⟩
  · rw [hr, Stored.runOps_append, Stored.save_graft hf]
    simp [runOps, Stored.step, Stored.mkGroup, File.has, File.empty, begins, Stored.isData, Stored.touch]
  · intro d w'
    have h1 := has_saved (g := { groups := [[N .cosmology]], data := [], attrs := [] }) hf
    have h2 := Stored.graft_has (g := { groups := [[N .cosmology]], data := [], attrs := [] }) hf [N .cosmology]
    have h2' : (Stored.graft f r { groups := [[N .cosmology]], data := [], attrs := [] }).has (r ++ [N .cosmology]) = true := by
      rw [h2]; simp [File.has]
    simp [saveCosmo, cosmoOps, runOps, Stored.step, h1, h2']

/-- A cosmology without parameters is saved, and cannot be read again. -/
theorem cosmo_no_pars (chk : Dict Str (Param.Par A) → Bool → Bool) {f : File (Val A)} {r : Path} (hf : Fresh f r) {c : Cosmo A}
    (h1 : c.flat.isSome) (h2 : c.model.isSome) (h3 : c.grid.isSome) (h4 : c.pars = none) (w : Bool)
    (hw : w = true → ∀ p, c.power = some p → p.Complete) : ∃ g,
    runOps f (saveCosmo r c w) = (.ok (), g) ∧ ∀ w', loadCosmo chk g r w' = .error .keyError := by
  obtain ⟨b, hb⟩ := Option.isSome_iff_exists.1 h1
  obtain ⟨m, hm⟩ := Option.isSome_iff_exists.1 h2
  obtain ⟨z, hz⟩ := Option.isSome_iff_exists.1 h3
  obtain ⟨F, a1, a2, a3, _⟩ := cosmo_file (c := c) b m z w (by intro qs hq; rw [h4] at hq; cases hq) hw
  refine ⟨Stored.graft f r F, ?_, fun w' => ?_⟩
  · rw [saveCosmo_shift r hb hm hz, Stored.save_graft hf, a1]
  · unfold loadCosmo
    rw [has_saved hf, Stored.view_graft hf]
    simp only [if_true, build_none a2 a3 h4]

/-- A cosmology saved without power spectrum is read only by who asks for none; the default asks for one. -/
theorem cosmo_no_power (chk : Dict Str (Param.Par A) → Bool → Bool) {f : File (Val A)} {r : Path} (hf : Fresh f r) {c : Cosmo A}
    {ps : Dict Str (Param.Par A)} (h : c.Complete ps) (hc : ∀ b, c.flat = some b → chk (parsKept ps) b = true) (w : Bool)
    (hw : w = false ∨ c.power = none) : ∃ g,
    runOps f (saveCosmo r c w) = (.ok (), g) ∧ loadCosmo chk g r true = .error .keyError ∧
      loadCosmo chk g r false = .ok { c with pars := some (parsKept ps), name := none, power := none } := by
  obtain ⟨g, b, m, z, hb, hm, hz, h1, h2, h3, h4, h5, h6, h7⟩ := saved hf h w (by
    intro e p hp
    rcases hw with hw | hw
    · rw [e] at hw; cases hw
    · rw [hp] at hw; cases hw)
  refine ⟨g, h1, ?_, ?_⟩
  · unfold loadCosmo
    simp only [h2, if_true, h4, hc b hb, h7 hw]
  · unfold loadCosmo
    simp only [h2, if_true, h4, hc b hb, fill_eq h5]
    obtain ⟨fl, mo, pa, gr, hu, di, gw, po, na⟩ := c
    subst hb hm hz
    simp

/-- A cosmology is saved without any check of its parameters; when they do not pass the checks it cannot be read again. -/
theorem cosmo_unchecked (chk : Dict Str (Param.Par A) → Bool → Bool) {f : File (Val A)} {r : Path} (hf : Fresh f r)
    {c : Cosmo A} {ps : Dict Str (Param.Par A)} (h : c.Complete ps) (hc : ∀ b, c.flat = some b → chk (parsKept ps) b = false)
    (w : Bool) (hw : w = true → ∀ p, c.power = some p → p.Complete) : ∃ g,
    runOps f (saveCosmo r c w) = (.ok (), g) ∧ ∀ w', loadCosmo chk g r w' = .error .cosmologyError := by
  obtain ⟨g, b, m, z, hb, hm, hz, h1, h2, h3, h4, _⟩ := saved hf h w hw
  refine ⟨g, h1, fun w' => ?_⟩
  unfold loadCosmo
  simp only [h2, if_true, h4, hc b hb]
  rfl

/-- Loading into an existing cosmology takes the arrays of the file, and of the power spectrum all but a transfer function
the file does not have. It keeps the flatness, the model and the parameters the object has, whatever the file says. -/
theorem load_keeps (chk : Dict Str (Param.Par A) → Bool → Bool) {f : File (Val A)} {r : Path} (hf : Fresh f r) {c : Cosmo A}
    {ps : Dict Str (Param.Par A)} (h : c.Complete ps) {p : Power A} (hp : c.power = some p) (hw : p.Complete)
    {o : Cosmo A} {b' : Bool} {qs : Dict Str (Param.Par A)} (ho1 : o.flat = some b') (ho2 : o.model.isSome)
    (ho3 : o.pars = some qs) (hc : chk qs b' = true) : ∃ g,
    runOps f (saveCosmo r c true) = (.ok (), g) ∧
      loadInto chk o g r true = ({ o with grid := c.grid, hubble := c.hubble.or o.hubble,
                                          distance := c.distance.or o.distance, growth := c.growth.or o.growth,
                                          power := some { p with transfer := p.transfer.or (o.power.bind (·.transfer)) } }, none) := by
  obtain ⟨g, b, m, z, hb, hm, hz, h1, h2, h3, h4, h5, h6, _⟩ := saved hf h true (by
    intro _ q hq
    rw [hp] at hq
    injection hq with hq
    exact hq ▸ hw)
  refine ⟨g, h1, ?_⟩
  unfold loadInto
  obtain ⟨m', hm'⟩ := Option.isSome_iff_exists.1 ho2
  simp only [h2, if_true, h4, fill_eq h5, ho1, ho3, hc, Option.some_or, hm', h6 p rfl hp, hz]
  cases o.power <;> rfl

/-- A new object keeps the default model: loading into it never takes the model from the file. -/
theorem load_model (chk : Dict Str (Param.Par A) → Bool → Bool) (o : Cosmo A) (h : o.model.isSome) (f : File (Val A)) (r : Path)
    (w : Bool) : (loadInto chk o f r w).1.model = o.model := by
  obtain ⟨m, hm⟩ := Option.isSome_iff_exists.1 h
  have hfill : ∀ b m' ps, (fill o (view f r) b m' ps).model = o.model := by intro b m' ps; simp [fill, hm]
  unfold loadInto
  split
  · simp only
    split
    · simp only
      split <;> rfl
    · split
      · split
        · split
          · split <;> simp only [hfill]
          · exact hfill _ _ _
        · exact hfill _ _ _
      · exact hfill _ _ _
  · rfl

/-- A cosmology with power spectrum and one without cannot be compared. -/
theorem compare_raises [DecidableEq A] (c d : Cosmo A) (h : c.power.isSome ≠ d.power.isSome) :
    cosmoEq c d = .error .attributeError := by
  unfold cosmoEq
  cases hc : c.power <;> cases hd : d.power <;> simp_all

/-- Cosmologies without power spectra and with the same parameters are equal whatever their redshifts and arrays are. -/
theorem compare_arrays [DecidableEq A] (c : Cosmo A) {ps : Dict Str (Param.Par A)} (h : c.pars = some ps)
    (hn : (ps.map (·.1)).Nodup) (g hu di gw : Option A) :
    cosmoEq c { c with grid := g, hubble := hu, distance := di, growth := gw } = .ok true := by
  have hs : parsEq ps ps = true := by
    simp only [parsEq, decide_eq_true_eq, true_and]
    rw [List.all_eq_true]
    intro i hi
    rw [PyDict.lookup_of_mem ps hn hi]
    simp [parEq]
  unfold cosmoEq
  cases c.power <;> simp [h, hs, powerEq]

/-- Reading from a path that is not in the file leaves the object as it is and raises an exception. -/
theorem load_missing (chk : Dict Str (Param.Par A) → Bool → Bool) (o : Cosmo A) (f : File (Val A)) (r : Path) (w : Bool)
    (h : f.has r = false) : loadInto chk o f r w = (o, some .readOnly) := by
  unfold loadInto
  rw [h]
  rfl

/-- The same parameters, as far as they are compared: under each name one with the same own name, fiducial and current
value and kind, or none. -/
def SamePars (d e : Dict Str (Param.Par A)) : Prop :=
  ∀ n, match d.lookup n, e.lookup n with
    | some p, some q => p.name = q.name ∧ p.fiducial = q.fiducial ∧ p.current = q.current ∧ p.kind = q.kind
    | none, none => True
    | _, _ => False

theorem parsEq_iff [DecidableEq A] (d e : Dict Str (Param.Par A)) (hd : (d.map (·.1)).Nodup)
    (he : (e.map (·.1)).Nodup) : parsEq d e = true ↔ SamePars d e := by
  simp only [parsEq, decide_eq_true_eq, List.all_eq_true, Option.any_eq_true, SamePars]
  constructor
  · rintro ⟨hl, h⟩ n
    have sub : d.map (·.1) ⊆ e.map (·.1) := by
      intro k hk
      obtain ⟨i, hi, rfl⟩ := List.mem_map.mp hk
      obtain ⟨q, hq, _⟩ := h i hi
      exact (PyDict.lookup_isSome_iff e i.1).mp (by rw [hq]; rfl)
    have perm : (d.map (·.1)).Perm (e.map (·.1)) :=
      (List.subperm_of_subset hd sub).perm_of_length_le (by simp [hl])
    cases hdn : d.lookup n with
    | none =>
      have : e.lookup n = none := by
        rw [PyDict.lookup_none_iff] at hdn ⊢
        exact fun hc => hdn (perm.mem_iff.mpr hc)
      rw [this]
      trivial
    | some p =>
      obtain ⟨q, hq, hpq⟩ := h (n, p) (PyDict.mem_of_lookup hdn)
      simp only at hq
      rw [hq]
      simp only [parEq, decide_eq_true_eq] at hpq
      exact ⟨hpq.1, hpq.2.1, hpq.2.2.2, hpq.2.2.1⟩
  · intro h
    have perm : (d.map (·.1)).Perm (e.map (·.1)) := by
      refine (List.perm_ext_iff_of_nodup hd he).mpr fun k => ?_
      rw [← PyDict.lookup_isSome_iff, ← PyDict.lookup_isSome_iff]
      have := h k
      cases h1 : d.lookup k <;> cases h2 : e.lookup k <;> simp_all
    refine ⟨by simpa using perm.length_eq, fun i hi => ?_⟩
    have hdi := PyDict.lookup_of_mem d hd hi
    have := h i.1
    rw [hdi] at this
    cases h2 : e.lookup i.1 with
    | none => rw [h2] at this; exact absurd this (by simp)
    | some q =>
      rw [h2] at this
      refine ⟨q, rfl, ?_⟩
      simp only [parEq, decide_eq_true_eq]
      exact ⟨this.1, this.2.1, this.2.2.2, this.2.2.1⟩

/-- Two cosmologies compare equal exactly when both have power spectra with the same arrays or both have none, they have
the same flatness and model, and both have the same parameters or both have none. -/
theorem compare_iff [DecidableEq A] (c d : Cosmo A) (hc : ∀ p, c.pars = some p → (p.map (·.1)).Nodup)
    (hd : ∀ p, d.pars = some p → (p.map (·.1)).Nodup) :
    cosmoEq c d = .ok true ↔
      ((c.power = none ∧ d.power = none) ∨ ∃ p q, c.power = some p ∧ d.power = some q ∧ { p with code := [] } = { q with code := [] }) ∧
      c.flat = d.flat ∧ c.model = d.model ∧
      ((c.pars = none ∧ d.pars = none) ∨ ∃ p q, c.pars = some p ∧ d.pars = some q ∧ SamePars p q) := by
  unfold cosmoEq
  cases h1 : c.power with
  | none =>
    cases h2 : d.power with
    | none =>
      cases h3 : c.pars with
      | none => cases h4 : d.pars <;> simp <;> tauto
      | some p =>
        cases h4 : d.pars with
        | none => simp
        | some q =>
          have := parsEq_iff p q (hc p h3) (hd q h4)
          simp [this]
          tauto
    | some q => simp
  | some p' =>
    cases h2 : d.power with
    | none => simp
    | some q' =>
      have hp := power_eq_iff p' q'
      cases h3 : c.pars with
      | none => cases h4 : d.pars <;> simp [hp] <;> tauto
      | some p =>
        cases h4 : d.pars with
        | none => simp
        | some q =>
          have := parsEq_iff p q (hc p h3) (hd q h4)
          simp [this, hp]
          tauto

/-! ### Cases -/

def mk (n : String) (f c : ℚ) : Str × Param.Par ℚ :=
  (n.toList, ⟨n.toList, f, c, .cosmo, none, true, false, 1, "text".toList, "".toList, "SteM".toList⟩)

def exPars : Dict Str (Param.Par ℚ) := [mk "Omm" (3/10) (3/10), mk "OmDE" (7/10) (7/10), mk "w0" (-1) (-1)]

def exMoved : Dict Str (Param.Par ℚ) := [mk "Omm" (3/10) (4/10), mk "OmDE" (7/10) (7/10), mk "w0" (-1) (-1)]

def exPower : Power ℚ := { z := some 1, k := some 2, lin := some 3, nonlin := some 4 }

def exCosmo : Cosmo ℚ where
  flat := some true
  pars := some exPars
  grid := some 5
  hubble := some 6
  power := some exPower
  name := some "dcos".toList

theorem exCosmo_complete : exCosmo.Complete exPars where
  flat := rfl
  model := rfl
  grid := rfl
  pars := rfl
  names := by decide +kernel
  probes := by decide +kernel

theorem exMoved_complete : ({ exCosmo with pars := some exMoved } : Cosmo ℚ).Complete exMoved where
  flat := rfl
  model := rfl
  grid := rfl
  pars := rfl
  names := by decide +kernel
  probes := by decide +kernel

theorem exPower_complete : exPower.Complete := by simp [Power.Complete, exPower]

theorem exPars_ok : checked exPars true = true := by decide +kernel
theorem exMoved_bad : checked exMoved true = false := by decide +kernel

example : ∃ g, runOps File.empty (savePower ["p".toList] exPower) = (.ok (), g) ∧ loadPower g ["p".toList] = .ok exPower := by
  obtain ⟨g, h1, h2, _⟩ := power_back (f := File.empty) (r := ["p".toList]) (fresh_empty' (by simp)) exPower_complete
  exact ⟨g, h1, h2⟩

example : (runOps File.empty (savePower ["p".toList] { exPower with k := none })).1 ≠ .ok () :=
  power_incomplete (by simp [Power.Complete])

example : ∃ g, runOps File.empty (saveCosmo ["c".toList] exCosmo true) = (.ok (), g) ∧
    loadCosmo checked g ["c".toList] true = .ok { exCosmo with pars := some (parsKept exPars), name := none } :=
  cosmo_back_checked (fresh_empty' (by simp)) exCosmo_complete (fun b hb => by injection hb with hb; exact hb ▸ exPars_ok) rfl
    exPower_complete

example : (parsKept exPars).map (·.1) = ["OmDE".toList, "Omm".toList, "w0".toList] := by decide +kernel

example : ∃ g d, runOps File.empty (saveCosmo ["c".toList] exCosmo true) = (.ok (), g) ∧
    loadCosmo checked g ["c".toList] true = .ok d ∧ cosmoEq exCosmo d = .ok true :=
  cosmo_back_eq checked (fresh_empty' (by simp)) exCosmo_complete (fun b hb => by
    injection hb with hb
    rw [checked_kept exCosmo_complete.names]; exact hb ▸ exPars_ok) true (fun p hp => by
    injection hp with hp; exact hp ▸ exPower_complete) rfl

/-- A flat cosmology whose matter density was displaced alone is saved and cannot be read again. -/
theorem moved_not_read : ∃ g, runOps File.empty (saveCosmo ["c".toList] { exCosmo with pars := some exMoved } true) = (.ok (), g) ∧
    ∀ w', loadCosmo checked g ["c".toList] w' = .error .cosmologyError :=
  cosmo_unchecked checked (fresh_empty' (by simp)) exMoved_complete (fun b hb => by
    injection hb with hb
    rw [checked_kept exMoved_complete.names]; exact hb ▸ exMoved_bad) true (fun _ p hp => by
    injection hp with hp; exact hp ▸ exPower_complete)

example : (runOps File.empty (saveCosmo ["c".toList] { exCosmo with grid := none } true)).1 ≠ .ok () :=
  cosmo_incomplete true (Or.inr (Or.inr (Or.inl rfl)))

example : ∃ g, runOps File.empty (saveCosmo ["c".toList] { exCosmo with flat := none } true) = (.error .typeError, g) ∧
    (runOps g (saveCosmo ["c".toList] exCosmo true)).1 = .error .exists_ := by
  obtain ⟨g, h1, h2⟩ := cosmo_incomplete_leaves (f := File.empty) (r := ["c".toList]) (fresh_empty' (by simp))
    (c := { exCosmo with flat := none }) true rfl
  exact ⟨g, h1, h2 _ _⟩

example : ∃ g, runOps File.empty (saveCosmo ["c".toList] { exCosmo with pars := none } false) = (.ok (), g) ∧
    loadCosmo checked g ["c".toList] false = .error .keyError := by
  obtain ⟨g, h1, h2⟩ := cosmo_no_pars checked (f := File.empty) (r := ["c".toList]) (fresh_empty' (by simp))
    (c := { exCosmo with pars := none }) rfl rfl rfl rfl false (fun h => by cases h)
  exact ⟨g, h1, h2 _⟩

example : ∃ g, runOps File.empty (saveCosmo ["c".toList] exCosmo false) = (.ok (), g) ∧
    loadCosmo checked g ["c".toList] true = .error .keyError := by
  obtain ⟨g, h1, h2, _⟩ := cosmo_no_power checked (f := File.empty) (r := ["c".toList]) (fresh_empty' (by simp))
    exCosmo_complete (fun b hb => by
      injection hb with hb
      rw [checked_kept exCosmo_complete.names]; exact hb ▸ exPars_ok) false (Or.inl rfl)
  exact ⟨g, h1, h2⟩

/-- After loading a file into a cosmology with other parameters, the object has its own parameters and model and the
arrays of the file, and a transfer function from neither. -/
theorem load_mixes : ∃ g,
    runOps File.empty (saveCosmo ["c".toList] { exCosmo with pars := some exMoved, model := some "wCDM".toList } true) = (.ok (), g) ∧
      loadInto checked { exCosmo with grid := some 50, hubble := some 60, power := some { exPower with transfer := some 9 } } g
        ["c".toList] true = ({ exCosmo with power := some { exPower with transfer := some 9 } }, none) := by
  obtain ⟨g, h1, h2⟩ := load_keeps checked (f := File.empty) (r := ["c".toList]) (fresh_empty' (by simp))
    (c := { exCosmo with pars := some exMoved, model := some "wCDM".toList }) (ps := exMoved)
    ⟨rfl, rfl, rfl, rfl, exMoved_complete.names, exMoved_complete.probes⟩ (p := exPower) rfl exPower_complete
    (o := { exCosmo with grid := some 50, hubble := some 60, power := some { exPower with transfer := some 9 } })
    (b' := true) (qs := exPars) rfl rfl rfl exPars_ok
  exact ⟨g, h1, h2⟩

example : (loadInto checked {} File.empty ["c".toList] true).1.model = some "CPL".toList := load_model checked {} rfl _ _ _

example : cosmoEq exCosmo { exCosmo with power := none } = .error .attributeError := compare_raises _ _ (by decide +kernel)

example : cosmoEq exCosmo { exCosmo with grid := some 8, hubble := none, distance := none, growth := none } = .ok true :=
  compare_arrays exCosmo rfl exCosmo_complete.names _ _ _ _

example : (cosmoEq { exCosmo with power := none } { exCosmo with power := none, pars := some exMoved } = .ok true) ↔ False := by
  rw [compare_iff _ _ (by rintro p h; cases h; exact exCosmo_complete.names)
    (by rintro p h; cases h; exact exMoved_complete.names), iff_false]
  rintro ⟨_, _, _, h⟩
  rcases h with ⟨h, _⟩ | ⟨p, q, hp, hq, h⟩
  · cases h
  · cases hp
    cases hq
    exact absurd (h "Omm".toList).2.2.1 (by decide +kernel)

example : loadInto checked exCosmo File.empty ["c".toList] true = (exCosmo, some .readOnly) := load_missing _ _ _ _ _ rfl

example : powerEq exPower { exPower with code := "CAMB".toList } = true := power_code_not_compared _ _

end Seyfert.CosmoFile
