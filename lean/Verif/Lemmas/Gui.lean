import Verif.Spec.Gui
import Verif.Props.ForecastLoad

/-! What is saved from the configuration window and what is read back, entry by entry. -/

namespace Seyfert.Gui

open Param (Par Args construct)
open Keys (Probe)

variable {K : Type}

set_option maxRecDepth 10000

theorem bind_ok {A B : Type} (x : Except Err A) (f : A → Except Err B) (b : B) :
    (x >>= f) = .ok b ↔ ∃ a, x = .ok a ∧ f a = .ok b := by
  cases x with
  | error e => constructor
               · intro h; cases h
               · rintro ⟨a, h, _⟩; cases h
  | ok a => constructor
            · intro h; exact ⟨a, rfl, h⟩
            · rintro ⟨a', h, h'⟩; cases h; exact h'

theorem float_ok (num : Str → Option K) (s : Str) (x : K) : float num s = .ok x ↔ num s = some x := by
  unfold float
  cases num s with
  | none => constructor <;> intro h <;> cases h
  | some y => constructor <;> (intro h; cases h; rfl)

theorem strToBool_ok (s : Str) (b : Bool) : Results.strToBool s = some b ↔ IsFlag s b := by
  have ne : "true".toList ≠ "false".toList := by decide +kernel
  unfold Results.strToBool IsFlag
  generalize "true".toList = t at ne
  generalize "false".toList = f at ne
  generalize s.map Char.toLower = x
  by_cases h1 : x = t
  · subst h1
    cases b <;> simp [ne]
  · by_cases h2 : x = f
    · subst h2
      cases b <;> simp [Ne.symm ne]
    · cases b <;> simp [h1, h2]

theorem boolOf_ok (s : Str) (b : Bool) : boolOf s = .ok b ↔ IsFlag s b := by
  rw [← strToBool_ok]
  unfold boolOf
  cases Results.strToBool s with
  | none => constructor <;> intro h <;> cases h
  | some y => constructor <;> (intro h; cases h; rfl)

/-! ### Saving -/

/-- The dictionary of a row. -/
def rowDict (r : Row) (v : RowValues K) : List (Str × J K) :=
  [("name".toList, .str r.name), ("fiducial".toList, .num v.fiducial), ("current_value".toList, .num v.fiducial),
    ("kind".toList, .str "CosmologicalParameter".toList), ("is_free_parameter".toList, .bool v.free),
    ("units".toList, .str r.units), ("stem_factor".toList, .num v.stem), ("derivative_method".toList, .str r.method)]

def cells (r : Row) : Str × List Str := (r.name, [r.fiducial, r.free, r.units, r.stem, r.method])

theorem cosmoRow_iff (num : Str → Option K) (r : Row) (j : J K) :
    cosmoRow num (cells r) = .ok j ↔ ∃ v, RowShows num r v ∧ j = .obj (rowDict r v) := by
  have e : cosmoRow num (cells r) = (float num r.fiducial >>= fun a => float num r.fiducial >>= fun b =>
      boolOf r.free >>= fun f => float num r.stem >>= fun t => pure (.obj
      [("name".toList, .str r.name), ("fiducial".toList, .num a), ("current_value".toList, .num b),
        ("kind".toList, .str "CosmologicalParameter".toList), ("is_free_parameter".toList, .bool f),
        ("units".toList, .str r.units), ("stem_factor".toList, .num t), ("derivative_method".toList, .str r.method)])) := rfl
  rw [e]
  simp only [bind_ok, float_ok, boolOf_ok]
  constructor
  · rintro ⟨a, ha, b, hb, f, hf, t, ht, h⟩
    rw [ha] at hb
    cases hb
    cases h
    exact ⟨⟨a, f, t⟩, ⟨ha, hf, ht⟩, rfl⟩
  · rintro ⟨v, ⟨h1, h2, h3⟩, rfl⟩
    exact ⟨_, h1, _, h1, _, h2, _, h3, rfl⟩

theorem cosmoRows_iff (num : Str → Option K) (l : List Row) (j : List (J K)) :
    cosmoRows num (l.map cells) = .ok j ↔ ∃ vs : List (Row × RowValues K), vs.map (·.1) = l ∧
      (∀ p ∈ vs, RowShows num p.1 p.2) ∧ j = vs.map (fun p => .obj (rowDict p.1 p.2)) := by
  induction l generalizing j with
  | nil =>
    constructor
    · intro h; cases h; exact ⟨[], rfl, by simp, rfl⟩
    · rintro ⟨vs, h, _, rfl⟩
      rw [List.map_eq_nil_iff] at h
      subst h; rfl
  | cons r l ih =>
    have e : cosmoRows num ((r :: l).map cells) = (cosmoRow num (cells r) >>= fun a =>
      cosmoRows num (l.map cells) >>= fun b => pure (a :: b)) := rfl
    rw [e]
    simp only [bind_ok, cosmoRow_iff, ih]
    constructor
    · rintro ⟨a, ⟨v, hv, rfl⟩, b, ⟨vs, h1, h2, rfl⟩, h⟩
      cases h
      refine ⟨(r, v) :: vs, by rw [List.map_cons, h1], ?_, rfl⟩
      intro p hp
      rcases List.mem_cons.mp hp with rfl | hp
      · exact hv
      · exact h2 p hp
    · rintro ⟨vs, h1, h2, rfl⟩
      cases vs with
      | nil => cases h1
      | cons p vs =>
        rw [List.map_cons] at h1
        injection h1 with h1 h1'
        subst h1
        exact ⟨_, ⟨p.2, h2 p List.mem_cons_self, rfl⟩, _,
          ⟨vs, h1', fun q hq => h2 q (List.mem_cons_of_mem _ hq), rfl⟩, rfl⟩

theorem readProbes_eq (s : Screen K) : readProbes s.window = .ok [("WL".toList, s.wlPage), ("V".toList, s.vdPage),
    ("GCph".toList, s.phPage), ("GCsp".toList, s.spPage)] := rfl

/-- The entries for the multipoles of a tab. -/
def ellDict (t : Tab K) : List (Str × J K) :=
  if t.file ≠ [] then [("ell_external_filename".toList, .str t.file)]
  else if t.logSel ≠ 0 then [("l_min".toList, .num t.lmin), ("l_max".toList, .num t.lmax),
      ("ell_log_selection".toList, .bool true), ("log_l_number".toList, .int t.nLog)]
    else [("l_min".toList, .num t.lmin), ("l_max".toList, .num t.lmax), ("ell_log_selection".toList, .bool false)]

theorem ell_ite (t : Tab K) : (if t.file ≠ [] then (.ok [("ell_external_filename".toList, .str t.file)] : Except Err (List (Str × J K)))
  else if t.logSel ≠ 0 then .ok [("l_min".toList, .num t.lmin), ("l_max".toList, .num t.lmax),
      ("ell_log_selection".toList, .bool true), ("log_l_number".toList, .int t.nLog)]
    else .ok [("l_min".toList, .num t.lmin), ("l_max".toList, .num t.lmax), ("ell_log_selection".toList, .bool false)])
    = .ok (ellDict t) := by
  unfold ellDict
  split
  · rfl
  · split <;> rfl

theorem ell_wl (s : Screen K) : ellOpts s.wlPage = .ok (ellDict s.wl) := (rfl : ellOpts s.wlPage = _).trans (ell_ite s.wl)
theorem ell_vd (s : Screen K) : ellOpts s.vdPage = .ok (ellDict s.vd) := (rfl : ellOpts s.vdPage = _).trans (ell_ite s.vd)
theorem ell_ph (s : Screen K) : ellOpts s.phPage = .ok (ellDict s.ph) := (rfl : ellOpts s.phPage = _).trans (ell_ite s.ph)
theorem ell_sp (s : Screen K) : ellOpts s.spPage = .ok (ellDict s.sp) := (rfl : ellOpts s.spPage = _).trans (ell_ite s.sp)

/-- The dictionary of a parameter of the alignment. -/
def nuisDict (n : Str) (x : K) (b : Bool) : List (Str × J K) :=
  [("name".toList, .str n), ("fiducial".toList, .num x), ("kind".toList, .str "NuisanceParameter".toList),
    ("units".toList, .str "None".toList), ("probe".toList, .str "WL".toList), ("is_free_parameter".toList, .bool b)]

def alignDicts (s : Screen K) (v : Values K) : List (J K) :=
  [.obj (nuisDict "aIA".toList v.aIA (decide (s.ia ≠ 0))), .obj (nuisDict "cIA".toList v.cIA false),
    .obj (nuisDict "etaIA".toList v.etaIA (decide (s.ia ≠ 0))), .obj (nuisDict "betaIA".toList v.betaIA (decide (s.ia ≠ 0)))]

/-- The entry of a tab, with what is particular to it. -/
def tabDict (long : Str) (t : Tab K) (bias : List (Str × J K)) (spec extra : J K) : List (Str × J K) :=
  [("long_name".toList, .str long), ("presence_flag".toList, .bool (decide (t.present ≠ 0)))] ++ ellDict t ++
    [("density_file".toList, .str t.density)] ++ bias ++
    [("specific_settings".toList, spec), ("extra_nuisance_parameters".toList, extra)]

def wlDict (s : Screen K) (extra : List (J K)) : List (Str × J K) :=
  tabDict "Lensing".toList s.wl [] (.obj [("include_IA".toList, .bool (decide (s.ia ≠ 0)))]) (.list extra)

def phDict (s : Screen K) : List (Str × J K) :=
  tabDict "PhotometricGalaxy".toList s.ph [("bias_file".toList, .str s.phBias),
    ("bias_derivative_method".toList, .str s.phDiff), ("marginalize_bias_flag".toList, .bool (decide (s.phMarg ≠ 0)))]
    (.obj []) (.list [])

def spDict (s : Screen K) : List (Str × J K) :=
  tabDict "SpectroscopicGalaxy".toList s.sp [("bias_file".toList, .str s.spBias),
    ("bias_derivative_method".toList, .str s.spDiff), ("marginalize_bias_flag".toList, .bool (decide (s.spMarg ≠ 0)))]
    (.obj [("compute_gcsp_cl_offdiag".toList, .bool (decide (s.offdiag ≠ 0)))]) (.list [])

def vdDict (s : Screen K) : List (Str × J K) :=
  tabDict "Void".toList s.vd [("bias_file".toList, .str s.vdBias),
    ("marginalize_bias_flag".toList, .bool (decide (s.vdMarg ≠ 0)))]
    (.obj [("void_kcut_invMpc".toList, .num s.kcut), ("void_kcut_width_invMpc".toList, .num s.kcutWidth)]) (.list [])

theorem opts_wl (num : Str → Option K) (s : Screen K) : probeOpts num "WL".toList s.wlPage =
    (ellOpts s.wlPage >>= fun e => nuisItems num "WL".toList (decide (s.ia ≠ 0)) s.wlPage >>= fun l =>
      pure (.obj ([("long_name".toList, .str "Lensing".toList), ("presence_flag".toList, .bool (decide (s.wl.present ≠ 0)))]
        ++ e ++ [("density_file".toList, .str s.wl.density)] ++ [] ++
        [("specific_settings".toList, .obj [("include_IA".toList, .bool (decide (s.ia ≠ 0)))]),
          ("extra_nuisance_parameters".toList, .list l)]))) := by
  unfold probeOpts
  rw [ell_wl]
  have x : extraNuis num "WL".toList s.wlPage = (nuisItems num "WL".toList (decide (s.ia ≠ 0)) s.wlPage >>= fun l =>
      pure (J.list l)) := rfl
  have n : toName .alias "WL".toList = .ok "WL".toList := rfl
  rw [n]
  simp only [bind, Except.bind]
  rw [x]
  cases nuisItems num "WL".toList (decide (s.ia ≠ 0)) s.wlPage <;> rfl

theorem opts_ph (num : Str → Option K) (s : Screen K) : probeOpts num "GCph".toList s.phPage = .ok (.obj (phDict s)) := by
  unfold probeOpts
  rw [ell_ph]
  rfl

theorem opts_sp (num : Str → Option K) (s : Screen K) : probeOpts num "GCsp".toList s.spPage = .ok (.obj (spDict s)) := by
  unfold probeOpts
  rw [ell_sp]
  rfl

theorem opts_vd (num : Str → Option K) (s : Screen K) : probeOpts num "V".toList s.vdPage = .ok (.obj (vdDict s)) := by
  unfold probeOpts
  rw [ell_vd]
  rfl

theorem nuis_wl (num : Str → Option K) (s : Screen K) (b : Bool) : nuisItems num "WL".toList b s.wlPage =
    (float num s.aIA >>= fun w => (float num s.cIA >>= fun x => (float num s.etaIA >>= fun y =>
      (float num s.betaIA >>= fun z => pure [J.obj (nuisDict "betaIA".toList z b)]) >>= fun r =>
        pure (J.obj (nuisDict "etaIA".toList y b) :: r)) >>= fun r =>
        pure (J.obj (nuisDict "cIA".toList x false) :: r)) >>= fun r =>
        pure (J.obj (nuisDict "aIA".toList w b) :: r)) := rfl

theorem nuis_iff (num : Str → Option K) (s : Screen K) (b : Bool) (l : List (J K)) :
    nuisItems num "WL".toList b s.wlPage = .ok l ↔ ∃ w x y z, num s.aIA = some w ∧ num s.cIA = some x ∧
      num s.etaIA = some y ∧ num s.betaIA = some z ∧ l = [.obj (nuisDict "aIA".toList w b),
        .obj (nuisDict "cIA".toList x false), .obj (nuisDict "etaIA".toList y b), .obj (nuisDict "betaIA".toList z b)] := by
  rw [nuis_wl]
  simp only [bind_ok, float_ok]
  constructor
  · rintro ⟨w, hw, _, ⟨x, hx, _, ⟨y, hy, _, ⟨z, hz, h1⟩, h2⟩, h3⟩, h4⟩
    cases h1; cases h2; cases h3; cases h4
    exact ⟨w, x, y, z, hw, hx, hy, hz, rfl⟩
  · rintro ⟨w, x, y, z, hw, hx, hy, hz, rfl⟩
    exact ⟨w, hw, _, ⟨x, hx, _, ⟨y, hy, _, ⟨z, hz, rfl⟩, rfl⟩, rfl⟩, rfl⟩

/-- The probes in the file. -/
def probesDict (s : Screen K) (v : Values K) : List (Str × J K) :=
  [("WL".toList, .obj (wlDict s (alignDicts s v))), ("GCph".toList, .obj (phDict s)), ("GCsp".toList, .obj (spDict s)),
    ("V".toList, .obj (vdDict s))]

/-- The file saved. -/
def fileOf (info : J K) (s : Screen K) (v : Values K) : List (Str × J K) :=
  [("metadata".toList, info), ("synthetic_opts".toList, .obj []),
    ("survey".toList, .obj [("f_sky".toList, .num v.fSky), ("shot_noise_file".toList, .null)]),
    ("cosmology".toList, .obj [("model".toList, .str s.model), ("flat".toList, .bool (decide (s.flat ≠ 0))),
      ("parameters".toList, .list (v.rows.map (fun p => .obj (rowDict p.1 p.2))))]),
    ("probes".toList, .obj (probesDict s v)),
    ("derivative_settings".toList, .obj [("base_stem_disps".toList, .list (s.stem.map .str))])]

theorem probesFrom_eq (num : Str → Option K) (s : Screen K) (all : Dict Str (Dict Str (Widget K)))
    (h : all = [("WL".toList, s.wlPage), ("V".toList, s.vdPage), ("GCph".toList, s.phPage), ("GCsp".toList, s.spPage)]) :
    probesFrom num all ["WL".toList, "GCph".toList, "GCsp".toList, "V".toList] =
      (nuisItems num "WL".toList (decide (s.ia ≠ 0)) s.wlPage >>= fun l =>
        pure [("WL".toList, .obj (wlDict s l)), ("GCph".toList, .obj (phDict s)), ("GCsp".toList, .obj (spDict s)),
          ("V".toList, .obj (vdDict s))]) := by
  subst h
  have e : probesFrom num [("WL".toList, s.wlPage), ("V".toList, s.vdPage), ("GCph".toList, s.phPage),
      ("GCsp".toList, s.spPage)] ["WL".toList, "GCph".toList, "GCsp".toList, "V".toList] =
    (probeOpts num "WL".toList s.wlPage >>= fun a => (probeOpts num "GCph".toList s.phPage >>= fun b =>
      (probeOpts num "GCsp".toList s.spPage >>= fun c => (probeOpts num "V".toList s.vdPage >>= fun d =>
        pure [("V".toList, d)]) >>= fun r => pure (("GCsp".toList, c) :: r)) >>= fun r =>
        pure (("GCph".toList, b) :: r)) >>= fun r => pure (("WL".toList, a) :: r)) := rfl
  rw [e, opts_wl, opts_ph, opts_sp, opts_vd, ell_wl]
  cases nuisItems num "WL".toList (decide (s.ia ≠ 0)) s.wlPage with
  | error e => rfl
  | ok l => rfl

theorem dump_iff (num : Str → Option K) (s : Screen K) (j : List (Str × J K)) :
    dump num s.window = .ok j ↔ ∃ v, Shows num s v ∧ j = fileOf (.obj []) s v := by
  have e : dump num s.window = (float num s.fSky >>= fun f => cosmoRows num (s.cosmo.map cells) >>= fun pars =>
      readProbes s.window >>= fun all =>
      probesFrom num all ["WL".toList, "GCph".toList, "GCsp".toList, "V".toList] >>= fun probes =>
      pure [("metadata".toList, .obj []), ("synthetic_opts".toList, .obj []),
        ("survey".toList, .obj [("f_sky".toList, .num f), ("shot_noise_file".toList, .null)]),
        ("cosmology".toList, .obj [("model".toList, .str s.model), ("flat".toList, .bool (decide (s.flat ≠ 0))),
          ("parameters".toList, .list pars)]),
        ("probes".toList, .obj probes),
        ("derivative_settings".toList, .obj [("base_stem_disps".toList, .list (s.stem.map .str))])]) := rfl
  rw [e, readProbes_eq]
  simp only [bind_ok, float_ok, cosmoRows_iff]
  constructor
  · rintro ⟨f, hf, pars, ⟨vs, h1, h2, rfl⟩, all, hall, probes, hp, h⟩
    injection hall with hall
    rw [probesFrom_eq num s all hall.symm, bind_ok] at hp
    obtain ⟨l, hl, hp⟩ := hp
    obtain ⟨w, x, y, z, hw, hx, hy, hz, rfl⟩ := (nuis_iff num s _ l).mp hl
    cases hp; cases h
    exact ⟨⟨f, vs, w, x, y, z⟩, ⟨hf, h1, h2, hw, hx, hy, hz⟩, rfl⟩
  · rintro ⟨v, ⟨hf, h1, h2, hw, hx, hy, hz⟩, rfl⟩
    refine ⟨v.fSky, hf, _, ⟨v.rows, h1, h2, rfl⟩, _, rfl, probesDict s v, ?_, rfl⟩
    rw [probesFrom_eq num s _ rfl, bind_ok]
    exact ⟨_, (nuis_iff num s _ _).mpr ⟨_, _, _, _, hw, hx, hy, hz, rfl⟩, rfl⟩

/-- The metadata written. -/
def metaOf (author date version : J K) : J K :=
  .obj [("author".toList, author), ("creation_date".toList, date), ("version".toList, version)]

theorem save_file (num : Str → Option K) (a d w : J K) (s : Screen K) (j : List (Str × J K)) :
    save num a d w s.window = .ok j ↔ ∃ v, Shows num s v ∧ j = fileOf (metaOf a d w) s v := by
  have e : save num a d w s.window = (dump num s.window >>= fun d' => withMetadata a d w d') := rfl
  have m : ∀ v, withMetadata a d w (fileOf (.obj []) s v) = .ok (fileOf (metaOf a d w) s v) := fun _ => rfl
  rw [e, bind_ok]
  constructor
  · rintro ⟨d', h, h'⟩
    obtain ⟨v, hv, rfl⟩ := (dump_iff num s d').mp h
    rw [m] at h'
    cases h'
    exact ⟨v, hv, rfl⟩
  · rintro ⟨v, hv, rfl⟩
    exact ⟨_, (dump_iff num s _).mpr ⟨v, hv, rfl⟩, m v⟩

/-! ### Reading -/

section
variable [One K]

def rowArgs (r : Row) (v : RowValues K) : Args K :=
  ⟨r.name, v.fiducial, some v.fiducial, "CosmologicalParameter".toList, none, v.free, v.stem, [], r.units, r.method⟩

def nuisArgs (n : Str) (x : K) (b : Bool) : Args K :=
  ⟨n, x, none, "NuisanceParameter".toList, some "WL".toList, b, 1, [], "None".toList, "SteM".toList⟩

theorem args_row (r : Row) (v : RowValues K) : argsOf (rowDict r v) = .ok (rowArgs r v) := rfl

theorem args_nuis (n : Str) (x : K) (b : Bool) : argsOf (nuisDict n x b) = .ok (nuisArgs n x b) := rfl

theorem args_rows (l : List (Row × RowValues K)) :
    objArgs (l.map (fun p => .obj (rowDict p.1 p.2))) = .ok (l.map (fun p => rowArgs p.1 p.2)) := by
  induction l with
  | nil => rfl
  | cons p l ih =>
    have e : objArgs ((p :: l).map (fun p => J.obj (rowDict p.1 p.2))) = (argsOf (rowDict p.1 p.2) >>= fun a =>
      objArgs (l.map (fun p => .obj (rowDict p.1 p.2))) >>= fun r => pure (a :: r)) := rfl
    rw [e, ih, args_row]
    rfl

def alignArgs (s : Screen K) (v : Values K) : List (Args K) :=
  [nuisArgs "aIA".toList v.aIA (decide (s.ia ≠ 0)), nuisArgs "cIA".toList v.cIA false,
    nuisArgs "etaIA".toList v.etaIA (decide (s.ia ≠ 0)), nuisArgs "betaIA".toList v.betaIA (decide (s.ia ≠ 0))]

theorem args_align (s : Screen K) (v : Values K) : objArgs (alignDicts s v) = .ok (alignArgs s v) := rfl

/-- The entry read of a tab. -/
def entryOf (present : Bool) (g : Except FLoad.Err (List K × List K)) (bias : Dict Str K) (m : Option Bool)
    (d : Option Str) (extra : List (Args K)) : FLoad.PDict K :=
  match g with
  | .ok g => ⟨present, .ok g, bias, m, d, some extra⟩
  | .error e => ⟨present, .error e, [], none, none, some extra⟩

omit [One K] in
/-- The three shapes of the entries for the multipoles. -/
theorem ell_cases (t : Tab K) (disk : Disk K) {P : List (Str × J K) → Except FLoad.Err (List K × List K) → Prop}
    (h1 : P [("ell_external_filename".toList, .str t.file)] (disk.ofFile t.file))
    (h2 : P [("l_min".toList, .num t.lmin), ("l_max".toList, .num t.lmax), ("ell_log_selection".toList, .bool true),
      ("log_l_number".toList, .int t.nLog)] (disk.ofLimits t.lmin t.lmax true (some t.nLog)))
    (h3 : P [("l_min".toList, .num t.lmin), ("l_max".toList, .num t.lmax), ("ell_log_selection".toList, .bool false)]
      (disk.ofLimits t.lmin t.lmax false none)) : P (ellDict t) (tabGrid disk t) := by
  unfold ellDict tabGrid
  by_cases hf : t.file ≠ []
  · rw [if_pos hf, if_pos hf]; exact h1
  · rw [if_neg hf, if_neg hf]
    by_cases hl : t.logSel ≠ 0
    · rw [if_pos hl, if_pos hl, decide_eq_true hl]; exact h2
    · rw [if_neg hl, if_neg hl, decide_eq_false hl]; exact h3

theorem entry_of (disk : Disk K) (name long : Str) (d : List (Str × J K)) (p : Bool) (l : List (J K)) (ex : List (Args K))
    (x y : J K) (h1 : d.lookup "presence_flag".toList = some (.bool p)) (h2 : toName .long name = .ok long)
    (h3 : d.lookup "extra_nuisance_parameters".toList = some (.list l)) (h4 : objArgs l = .ok ex)
    (h5 : d.lookup "density_file".toList = some x) (h6 : d.lookup "specific_settings".toList = some y) :
    (decide (long = FLoad.lensing) = true → entry disk name d = .ok (entryOf p (grid disk d) [] (some false) none ex)) ∧
    (∀ f m t, decide (long = FLoad.lensing) = false → d.lookup "bias_file".toList = some (.str f) →
      d.lookup "marginalize_bias_flag".toList = some (.bool m) →
      d.lookup "bias_derivative_method".toList = some (.str t) →
      entry disk name d = .ok (entryOf p (grid disk d) (disk.bias f) (some m) (some t) ex)) ∧
    (decide (long = FLoad.lensing) = false → d.lookup "bias_derivative_method".toList = none →
      ∃ e, entry disk name d = .ok (entryOf p (.error e) [] none none ex)) := by
  refine ⟨?_, ?_, ?_⟩
  · intro hl
    unfold entry
    rw [h1, h2, h3]
    simp only [bind, Except.bind, h4, pure, Except.pure, hl]
    unfold fields
    rw [h5, h6]
    cases grid disk d <;> rfl
  · intro f m t hl b1 b2 b3
    unfold entry
    rw [h1, h2, h3]
    simp only [bind, Except.bind, h4, pure, Except.pure, hl]
    unfold fields
    rw [h5, h6, b1, b2, b3]
    cases grid disk d <;> rfl
  · intro hl b3
    unfold entry
    rw [h1, h2, h3]
    simp only [bind, Except.bind, h4, pure, Except.pure, hl]
    unfold fields
    rw [h5, h6, b3]
    cases grid disk d with
    | error e => exact ⟨e, rfl⟩
    | ok g =>
      refine ⟨.keyError, ?_⟩
      rcases d.lookup "bias_file".toList with _ | b
      · rfl
      · rcases d.lookup "marginalize_bias_flag".toList with _ | m
        · cases b <;> rfl
        · cases b <;> cases m <;> rfl

theorem entry_wl (disk : Disk K) (s : Screen K) (v : Values K) :
    entry disk "WL".toList (wlDict s (alignDicts s v)) = .ok (entryOf (decide (s.wl.present ≠ 0)) (tabGrid disk s.wl) [] (some false) none (alignArgs s v)) := by
  refine ell_cases s.wl disk (P := fun e g => entry disk "WL".toList ([("long_name".toList, .str "Lensing".toList),
      ("presence_flag".toList, .bool (decide (s.wl.present ≠ 0)))] ++ e ++ [("density_file".toList, .str s.wl.density)] ++
      [] ++ [("specific_settings".toList, .obj [("include_IA".toList, .bool (decide (s.ia ≠ 0)))]), ("extra_nuisance_parameters".toList, .list (alignDicts s v))]) =
    .ok (entryOf (decide (s.wl.present ≠ 0)) g [] (some false) none (alignArgs s v))) ?_ ?_ ?_
  · exact (entry_of disk _ _ _ _ _ _ _ _ rfl rfl rfl (args_align s v) rfl rfl).1 rfl
  · exact (entry_of disk _ _ _ _ _ _ _ _ rfl rfl rfl (args_align s v) rfl rfl).1 rfl
  · exact (entry_of disk _ _ _ _ _ _ _ _ rfl rfl rfl (args_align s v) rfl rfl).1 rfl

theorem entry_ph (disk : Disk K) (s : Screen K) :
    entry disk "GCph".toList (phDict s) = .ok (entryOf (decide (s.ph.present ≠ 0)) (tabGrid disk s.ph) (disk.bias s.phBias)
      (some (decide (s.phMarg ≠ 0))) (some s.phDiff) []) := by
  refine ell_cases s.ph disk (P := fun e g => entry disk "GCph".toList ([("long_name".toList, .str "PhotometricGalaxy".toList),
      ("presence_flag".toList, .bool (decide (s.ph.present ≠ 0)))] ++ e ++ [("density_file".toList, .str s.ph.density)] ++
      [("bias_file".toList, .str s.phBias), ("bias_derivative_method".toList, .str s.phDiff),
      ("marginalize_bias_flag".toList, .bool (decide (s.phMarg ≠ 0)))] ++ [("specific_settings".toList, .obj []), ("extra_nuisance_parameters".toList, .list [])]) =
    .ok (entryOf (decide (s.ph.present ≠ 0)) g (disk.bias s.phBias)
      (some (decide (s.phMarg ≠ 0))) (some s.phDiff) [])) ?_ ?_ ?_
  · exact (entry_of disk _ _ _ _ _ _ _ _ rfl rfl rfl rfl rfl rfl).2.1 _ _ _ rfl rfl rfl rfl
  · exact (entry_of disk _ _ _ _ _ _ _ _ rfl rfl rfl rfl rfl rfl).2.1 _ _ _ rfl rfl rfl rfl
  · exact (entry_of disk _ _ _ _ _ _ _ _ rfl rfl rfl rfl rfl rfl).2.1 _ _ _ rfl rfl rfl rfl

theorem entry_sp (disk : Disk K) (s : Screen K) :
    entry disk "GCsp".toList (spDict s) = .ok (entryOf (decide (s.sp.present ≠ 0)) (tabGrid disk s.sp) (disk.bias s.spBias)
      (some (decide (s.spMarg ≠ 0))) (some s.spDiff) []) := by
  refine ell_cases s.sp disk (P := fun e g => entry disk "GCsp".toList ([("long_name".toList, .str "SpectroscopicGalaxy".toList),
      ("presence_flag".toList, .bool (decide (s.sp.present ≠ 0)))] ++ e ++ [("density_file".toList, .str s.sp.density)] ++
      [("bias_file".toList, .str s.spBias), ("bias_derivative_method".toList, .str s.spDiff),
      ("marginalize_bias_flag".toList, .bool (decide (s.spMarg ≠ 0)))] ++ [("specific_settings".toList, .obj [("compute_gcsp_cl_offdiag".toList, .bool (decide (s.offdiag ≠ 0)))]), ("extra_nuisance_parameters".toList, .list [])]) =
    .ok (entryOf (decide (s.sp.present ≠ 0)) g (disk.bias s.spBias)
      (some (decide (s.spMarg ≠ 0))) (some s.spDiff) [])) ?_ ?_ ?_
  · exact (entry_of disk _ _ _ _ _ _ _ _ rfl rfl rfl rfl rfl rfl).2.1 _ _ _ rfl rfl rfl rfl
  · exact (entry_of disk _ _ _ _ _ _ _ _ rfl rfl rfl rfl rfl rfl).2.1 _ _ _ rfl rfl rfl rfl
  · exact (entry_of disk _ _ _ _ _ _ _ _ rfl rfl rfl rfl rfl rfl).2.1 _ _ _ rfl rfl rfl rfl

theorem entry_vd (disk : Disk K) (s : Screen K) : ∃ e, entry disk "V".toList (vdDict s) =
    .ok (entryOf (decide (s.vd.present ≠ 0)) (.error e) [] none none []) := by
  refine ell_cases s.vd disk (P := fun e _ => ∃ er, entry disk "V".toList ([("long_name".toList, .str "Void".toList),
      ("presence_flag".toList, .bool (decide (s.vd.present ≠ 0)))] ++ e ++ [("density_file".toList, .str s.vd.density)] ++
      [("bias_file".toList, .str s.vdBias), ("marginalize_bias_flag".toList, .bool (decide (s.vdMarg ≠ 0)))] ++
      [("specific_settings".toList, .obj [("void_kcut_invMpc".toList, .num s.kcut),
        ("void_kcut_width_invMpc".toList, .num s.kcutWidth)]), ("extra_nuisance_parameters".toList, .list [])]) =
    .ok (entryOf (decide (s.vd.present ≠ 0)) (.error er) [] none none [])) ?_ ?_ ?_
  · exact (entry_of disk _ _ _ _ _ _ _ _ rfl rfl rfl rfl rfl rfl).2.2 rfl rfl
  · exact (entry_of disk _ _ _ _ _ _ _ _ rfl rfl rfl rfl rfl rfl).2.2 rfl rfl
  · exact (entry_of disk _ _ _ _ _ _ _ _ rfl rfl rfl rfl rfl rfl).2.2 rfl rfl

/-- The entries read, with the probes. -/
def psOf (disk : Disk K) (s : Screen K) (v : Values K) (e : FLoad.Err) : List (Probe × FLoad.PDict K) :=
  [(.lensing, entryOf (decide (s.wl.present ≠ 0)) (tabGrid disk s.wl) [] (some false) none (alignArgs s v)),
    (.photo, entryOf (decide (s.ph.present ≠ 0)) (tabGrid disk s.ph) (disk.bias s.phBias) (some (decide (s.phMarg ≠ 0)))
      (some s.phDiff) []),
    (.spectro, entryOf (decide (s.sp.present ≠ 0)) (tabGrid disk s.sp) (disk.bias s.spBias)
      (some (decide (s.spMarg ≠ 0))) (some s.spDiff) []),
    (.void, entryOf (decide (s.vd.present ≠ 0)) (.error e) [] none none [])]

def jsonOf (disk : Disk K) (s : Screen K) (v : Values K) (e : FLoad.Err) (base : List K) : FLoad.Json K :=
  ⟨(psOf disk s v e).map (fun q => (q.1.name .alias, q.2)), v.rows.map (fun p => rowArgs p.1 p.2),
    some (decide (s.flat ≠ 0)), base, none⟩

theorem entries_eq (disk : Disk K) (s : Screen K) (v : Values K) : ∃ e,
    entries disk (probesDict s v) = .ok ((psOf disk s v e).map (fun q => (q.1.name .alias, q.2))) := by
  obtain ⟨e, he⟩ := entry_vd disk s
  refine ⟨e, ?_⟩
  have x : entries disk (probesDict s v) = (entry disk "WL".toList (wlDict s (alignDicts s v)) >>= fun a =>
      (entry disk "GCph".toList (phDict s) >>= fun b => (entry disk "GCsp".toList (spDict s) >>= fun c =>
        (entry disk "V".toList (vdDict s) >>= fun d => pure [("V".toList, d)]) >>= fun r =>
        pure (("GCsp".toList, c) :: r)) >>= fun r => pure (("GCph".toList, b) :: r)) >>= fun r =>
        pure (("WL".toList, a) :: r)) := rfl
  rw [x, entry_wl, entry_ph, entry_sp, he]
  rfl

omit [One K] in
theorem floats_iff (num : Str → Option K) (l : List Str) (base : List K) :
    floats num (l.map .str) = .ok base ↔ l.map num = base.map some := by
  induction l generalizing base with
  | nil =>
    constructor
    · intro h; cases h; rfl
    · intro h
      cases base with
      | nil => rfl
      | cons a b => cases h
  | cons t l ih =>
    have e : floats num ((t :: l).map .str) = (float num t >>= fun x => floats num (l.map .str) >>= fun r =>
      pure (x :: r)) := rfl
    rw [e]
    simp only [bind_ok, float_ok, ih]
    constructor
    · rintro ⟨a, ha, r, hr, h⟩
      cases h
      rw [List.map_cons, List.map_cons, ha, hr]
    · intro h
      cases base with
      | nil => cases h
      | cons a b =>
        rw [List.map_cons, List.map_cons] at h
        injection h with h1 h2
        exact ⟨a, h1, b, h2, rfl⟩

theorem readFile_iff (num : Str → Option K) (disk : Disk K) (info : J K) (s : Screen K) (v : Values K) : ∃ e, ∀ j,
    readFile num disk (fileOf info s v) = .ok j ↔ ∃ base, Displacements num s base ∧ j = jsonOf disk s v e base := by
  obtain ⟨e, he⟩ := entries_eq disk s v
  refine ⟨e, fun j => ?_⟩
  have x : readFile num disk (fileOf info s v) = (entries disk (probesDict s v) >>= fun probes =>
      objArgs (v.rows.map (fun p => .obj (rowDict p.1 p.2))) >>= fun cosmo => floats num (s.stem.map .str) >>= fun base =>
      pure ⟨probes, cosmo, some (decide (s.flat ≠ 0)), base, none⟩) := rfl
  rw [x, he, args_rows]
  simp only [bind_ok, floats_iff]
  constructor
  · rintro ⟨_, h1, _, h2, base, hb, h⟩
    obtain rfl := Except.ok.inj h1
    obtain rfl := Except.ok.inj h2
    obtain rfl := Except.ok.inj h
    exact ⟨base, hb, rfl⟩
  · rintro ⟨base, hb, rfl⟩
    exact ⟨_, rfl, _, rfl, base, hb, rfl⟩

theorem lists_json (disk : Disk K) (s : Screen K) (v : Values K) (e : FLoad.Err) (base : List K) :
    FLoad.Lists (jsonOf disk s v e base) (psOf disk s v e) :=
  ⟨rfl, by
    have : ([.lensing, .photo, .spectro, .void] : List Probe).Nodup := by decide
    exact this⟩

omit [One K] in
theorem construct_row (r : Row) (v : RowValues K) : construct (rowArgs r v) = .ok (cosmoPar r v) := rfl

theorem construct_nuis (n : Str) (x : K) (b : Bool) : construct (nuisArgs n x b) = .ok (alignPar n x b) := rfl

omit [One K] in
theorem entryOf_present (p : Bool) (g : Except FLoad.Err (List K × List K)) (b m d ex) :
    (entryOf p g b m d ex : FLoad.PDict K).present = p ∧ (entryOf p g b m d ex : FLoad.PDict K).grid = g ∧
    (entryOf p g b m d ex : FLoad.PDict K).extra = some ex := by
  cases g <;> exact ⟨rfl, rfl, rfl⟩

end

end Seyfert.Gui
