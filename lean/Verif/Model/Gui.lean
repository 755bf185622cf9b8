import Verif.Model.ForecastLoad
import Verif.Model.Results

/-!
The configuration window (`seyfert/gui/interface_window.py` L44-210), the widgets it is made of
(`seyfert/gui/gui_core.py`), and the reading of the file it saves (`config/forecast_config.py` L95-141,
`config/probe_config.py` L71-120) on the level of the entries of that file.

`num` stands for `float(text)`: `none` if it raises `ValueError`.  What `json.dump` writes is taken to be what
`json.load` reads.
-/

namespace Seyfert.Gui

open Param (Args)

/-- Values in a JSON file. For L92-105 (see `cosmoRow`). -/
inductive J (K : Type)
  | null
  | bool (b : Bool)
  | str (s : Str)
  | num (x : K)
  | int (n : Nat)
  | list (l : List (J K))
  | obj (d : List (Str × J K))

/-- Exceptions. For L92-105 (see `cosmoRow`). -/
inductive Err
  | keyError
  | valueError
  | typeError
  | attributeError
  | indexError
  | name (e : Keys.Err)
  | load (e : FLoad.Err)

/-- The widgets that hold a setting, with what the user sees in them. For L129-134 (see `pagesOpts`). -/
inductive Widget (K : Type)
  | check (state : Nat)
  | line (text : Str)
  | spin (n : Nat)
  | double (x : K)
  | combo (text : Str)

variable {K : Type}

/-- `w.checkState()`: 0, 1 or 2. For L181-192 (see `specific`). -/
def Widget.checkState : Widget K → Except Err Nat
  | .check n => .ok n
  | _ => .error .attributeError

/-- `w.text()`, of which only the use for line edits is modelled. For L200-208 (see `nuisItems`). -/
def Widget.text : Widget K → Except Err Str
  | .line s => .ok s
  | _ => .error .attributeError

/-- `w.value()`. For L181-192 (see `specific`). -/
def Widget.value : Widget K → Except Err (J K)
  | .spin n => .ok (.int n)
  | .double x => .ok (.num x)
  | _ => .error .attributeError

/-- `w.currentText()`. For L169-174 (see `biasOpts`). -/
def Widget.currentText : Widget K → Except Err Str
  | .combo s => .ok s
  | _ => .error .attributeError

/-- A window: texts and boxes outside the tabs, the two tables (rows with their headers), and the children of the
stack of tabs, each with its object name, its "what's this" text and the widgets inside it by their own "what's this"
texts (empty for labels and containers). For L125-136 (see `readProbes`). -/
structure Window (K : Type) where
  fSky : Str
  model : Str
  flat : Nat
  cosmo : List (Str × List Str)
  stem : List Str
  pages : List (Str × Str × List (Str × Widget K))

/-! ### Saving (interface_window.py) -/

/-- `d[k]`. For L181-192 (see `specific`). -/
def item {V : Type} (d : List (Str × V)) (k : Str) : Except Err V :=
  match d.lookup k with
  | some v => .ok v
  | none => .error .keyError

/-- `float(text)`. For L92-105 (see `cosmoRow`). -/
def float (num : Str → Option K) (s : Str) : Except Err K :=
  match num s with
  | some x => .ok x
  | none => .error .valueError

/-- `str_to_bool(text)`. For L92-105 (see `cosmoRow`). -/
def boolOf (s : Str) : Except Err Bool :=
  match Results.strToBool s with
  | some b => .ok b
  | none => .error .valueError

/-- `row[i]`. For L92-105 (see `cosmoRow`). -/
def cell (row : List Str) (i : Nat) : Except Err Str :=
  match row[i]? with
  | some s => .ok s
  | none => .error .indexError

/-- One row of `readCosmoParsFromUI` (L92-105). -/
def cosmoRow (num : Str → Option K) (r : Str × List Str) : Except Err (J K) := do
  let fid ← float num (← cell r.2 0)
  let cur ← float num (← cell r.2 0)
  let free ← boolOf (← cell r.2 1)
  let units ← cell r.2 2
  let stem ← float num (← cell r.2 3)
  let method ← cell r.2 4
  return .obj [("name".toList, .str r.1), ("fiducial".toList, .num fid), ("current_value".toList, .num cur),
    ("kind".toList, .str "CosmologicalParameter".toList), ("is_free_parameter".toList, .bool free),
    ("units".toList, .str units), ("stem_factor".toList, .num stem), ("derivative_method".toList, .str method)]

/-- `readCosmoParsFromUI` (L89-107). -/
def cosmoRows (num : Str → Option K) : List (Str × List Str) → Except Err (List (J K))
  | [] => .ok []
  | r :: l => do
    let a ← cosmoRow num r
    let b ← cosmoRows num l
    return a :: b

/-- The names of probes (`probe_config.py` L44-48) with the exceptions of the window. -/
def toName (k : Keys.Kind) (name : Str) : Except Err Str :=
  match FLoad.nameTo k name with
  | .ok s => .ok s
  | .error (.name e) => .error (.name e)
  | .error e => .error (.load e)

/-- The dictionary comprehension of `readProbesInfoFromUI` (L129-134) over the tabs found. -/
def pagesOpts : List (Str × Str × List (Str × Widget K)) → Except Err (List (Str × Dict Str (Widget K)))
  | [] => .ok []
  | p :: l => do
    let a ← toName .alias p.1
    let rest ← pagesOpts l
    return (a, PyDict.ofItems (p.2.2.filter (fun w => decide (w.1 ≠ [])))) :: rest

/-- `readProbesInfoFromUI` (L125-136). -/
def readProbes (w : Window K) : Except Err (Dict Str (Dict Str (Widget K))) := do
  let items ← pagesOpts (w.pages.filter (fun p => decide (p.2.1 = "probe".toList)))
  return PyDict.ofItems items

/-- `buildProbeJSONSpecificSettings` (L181-192). -/
def specific (name : Str) (opts : Dict Str (Widget K)) : Except Err (J K) :=
  if name = "WL".toList then do
    let b ← (← item opts "include_IA".toList).checkState
    return .obj [("include_IA".toList, .bool (decide (b ≠ 0)))]
  else if name = "V".toList then do
    let a ← (← item opts "void_kcut_invMpc".toList).value
    let b ← (← item opts "void_kcut_width_invMpc".toList).value
    return .obj [("void_kcut_invMpc".toList, a), ("void_kcut_width_invMpc".toList, b)]
  else if name = "GCsp".toList then do
    let b ← (← item opts "compute_gcsp_cl_offdiag".toList).checkState
    return .obj [("compute_gcsp_cl_offdiag".toList, .bool (decide (b ≠ 0)))]
  else return .obj []

/-- A letter or digit of the regular expression of L197. -/
def isAlnum (c : Char) : Bool := isDigit c || isLower c || isUpper c

/-- `nuis_par_key_regex.match(key)` (L197, L201): the name of the parameter.  That `$` also matches before a final
newline is left out. -/
def nuisName (key : Str) : Option Str :=
  match stripPrefix "nuis_param_".toList key with
  | some n => if n ≠ [] ∧ n.all isAlnum then some n else none
  | none => none

/-- The loop of `buildProbeJSONExtraNuisanceParameters` (L200-208). -/
def nuisItems (num : Str → Option K) (probe : Str) (ia : Bool) : Dict Str (Widget K) → Except Err (List (J K))
  | [] => .ok []
  | (key, w) :: l =>
    match nuisName key with
    | none => nuisItems num probe ia l
    | some n => do
      let fid ← float num (← w.text)
      let free := decide (n ≠ "cIA".toList) && ia
      let rest ← nuisItems num probe ia l
      return .obj [("name".toList, .str n), ("fiducial".toList, .num fid), ("kind".toList, .str "NuisanceParameter".toList),
        ("units".toList, .str "None".toList), ("probe".toList, .str probe), ("is_free_parameter".toList, .bool free)] :: rest

/-- `buildProbeJSONExtraNuisanceParameters` (L194-210). -/
def extraNuis (num : Str → Option K) (probe : Str) (opts : Dict Str (Widget K)) : Except Err (J K) :=
  if probe = "WL".toList then do
    let ia ← (← item opts "include_IA".toList).checkState
    let l ← nuisItems num probe (decide (ia ≠ 0)) opts
    return .list l
  else return .list []

/-- The multipoles in `buildGenericProbeJSONOpts` (L155-165). -/
def ellOpts (opts : Dict Str (Widget K)) : Except Err (List (Str × J K)) := do
  let file ← (← item opts "ell_external_filename".toList).text
  if file ≠ [] then return [("ell_external_filename".toList, .str file)]
  else
    let a ← (← item opts "l_min".toList).value
    let b ← (← item opts "l_max".toList).value
    let s ← (← item opts "ell_log_selection".toList).checkState
    if s ≠ 0 then
      let n ← (← item opts "log_l_number".toList).value
      return [("l_min".toList, a), ("l_max".toList, b), ("ell_log_selection".toList, .bool true), ("log_l_number".toList, n)]
    else return [("l_min".toList, a), ("l_max".toList, b), ("ell_log_selection".toList, .bool false)]

/-- `if key in opts: json_opts[key] = f(opts[key])`. For L169-174 (see `biasOpts`). -/
def ifThere (opts : Dict Str (Widget K)) (key : Str) (f : Widget K → Except Err (J K)) : Except Err (List (Str × J K)) :=
  match opts.lookup key with
  | some w =>
    match f w with
    | .ok x => .ok [(key, x)]
    | .error e => .error e
  | none => .ok []

/-- The bias in `buildGenericProbeJSONOpts` (L169-174). -/
def biasOpts (opts : Dict Str (Widget K)) : Except Err (List (Str × J K)) := do
  let a ← ifThere opts "bias_file".toList (fun w => w.text.map .str)
  let b ← ifThere opts "bias_derivative_method".toList (fun w => w.currentText.map .str)
  let c ← ifThere opts "marginalize_bias_flag".toList (fun w => w.checkState.map (fun n => .bool (decide (n ≠ 0))))
  return a ++ b ++ c

/-- `buildGenericProbeJSONOpts` (L146-179).  All keys are different, so the dictionary is the list of what is
assigned. -/
def probeOpts (num : Str → Option K) (name : Str) (opts : Dict Str (Widget K)) : Except Err (J K) := do
  let short ← toName .alias name
  let long ← toName .long name
  let present ← (← item opts "presence_flag".toList).checkState
  let ells ← ellOpts opts
  let density ← (← item opts "density_file".toList).text
  let bias ← biasOpts opts
  let spec ← specific short opts
  let extra ← extraNuis num short opts
  return .obj ([("long_name".toList, .str long), ("presence_flag".toList, .bool (decide (present ≠ 0)))] ++ ells ++
    [("density_file".toList, .str density)] ++ bias ++
    [("specific_settings".toList, spec), ("extra_nuisance_parameters".toList, extra)])

/-- The dictionary comprehension of `buildJSONProbeOpts` (L141-144) over the given names. -/
def probesFrom (num : Str → Option K) (all : Dict Str (Dict Str (Widget K))) : List Str → Except Err (List (Str × J K))
  | [] => .ok []
  | n :: l => do
    let opts ← item all n
    let a ← probeOpts num n opts
    let rest ← probesFrom num all l
    return (n, a) :: rest

/-- `dumpGUIToJSON` (L72-87). -/
def dump (num : Str → Option K) (w : Window K) : Except Err (List (Str × J K)) := do
  let fsky ← float num w.fSky
  let pars ← cosmoRows num w.cosmo
  let all ← readProbes w
  let probes ← probesFrom num all ["WL".toList, "GCph".toList, "GCsp".toList, "V".toList]
  return [("metadata".toList, .obj []), ("synthetic_opts".toList, .obj []),
    ("survey".toList, .obj [("f_sky".toList, .num fsky), ("shot_noise_file".toList, .null)]),
    ("cosmology".toList, .obj [("model".toList, .str w.model), ("flat".toList, .bool (decide (w.flat ≠ 0))),
      ("parameters".toList, .list pars)]),
    ("probes".toList, .obj probes),
    ("derivative_settings".toList, .obj [("base_stem_disps".toList, .list (w.stem.map .str))])]

/-- What `toJSON` writes (file_io/json_io.py L30-37): the data with the metadata filled in. -/
def withMetadata (author date version : J K) (d : List (Str × J K)) : Except Err (List (Str × J K)) := do
  match ← item d "metadata".toList with
  | .obj m => return PyDict.set d "metadata".toList (.obj (PyDict.update m
      [("author".toList, author), ("creation_date".toList, date), ("version".toList, version)]))
  | _ => .error .attributeError

/-- What is in the file saved (interface_window.py L44-54). -/
def save (num : Str → Option K) (author date version : J K) (w : Window K) : Except Err (List (Str × J K)) := do
  withMetadata author date version (← dump num w)

/-- `Path(name).suffixes` for a name without `/`. For L49-53 (see `saveName`). -/
def suffixes (name : Str) : List Str :=
  if (name.getLast? = some '.') then []
  else ((splitChar '.' (name.dropWhile (· == '.'))).drop 1).map ('.' :: ·)

/-- The name of the file saved (L49-53) for the last component of the text entered; `stamp` is the version and the
date, joined by an underscore, or `none` with `--no_datetime`. -/
def saveName (stamp : Option Str) (name : Str) : Str :=
  let name := match stamp with
    | some t => name ++ '_' :: t
    | none => name
  if ".json".toList ∈ suffixes name then name else name ++ ".json".toList

/-! ### The window (gui_core.py) -/

/-- What all tabs have: the box "Present", the box "ExternalMultipolesFile" and the field beside it, the limits, the
box "Logarithmic Selection", the number of multipoles, and the density file.
For `gui_core.py` L23-645, L676-961 (see `Screen`). -/
structure Tab (K : Type) where
  present : Nat
  useFile : Nat
  file : Str
  lmin : K
  lmax : K
  logSel : Nat
  nLog : Nat
  density : Str

/-- A row of the table of cosmological parameters. For `gui_core.py` L23-645, L676-961 (see `Screen`). -/
structure Row where
  name : Str
  fiducial : Str
  free : Str
  units : Str
  stem : Str
  method : Str

/-- All that the user can set in the window (gui_core.py L23-645, L676-961).  The rows of the table have fixed names in
the window that is shipped; here they are arbitrary. -/
structure Screen (K : Type) where
  fSky : Str
  model : Str
  flat : Nat
  cosmo : List Row
  stem : List Str
  wl : Tab K
  ia : Nat
  aIA : Str
  cIA : Str
  etaIA : Str
  betaIA : Str
  vd : Tab K
  vdBias : Str
  vdMarg : Nat
  kcut : K
  kcutWidth : K
  ph : Tab K
  phBias : Str
  phMarg : Nat
  phDiff : Str
  sp : Tab K
  spBias : Str
  spMarg : Nat
  spDiff : Str
  offdiag : Nat

/-- The widgets for the multipoles and the file of multipoles. For `gui_core.py` L224-330, L839-870 (see `Screen.wlPage`). -/
def Tab.ells (t : Tab K) : List (Str × Widget K) :=
  [("log_l_number".toList, .spin t.nLog), ("ell_log_selection".toList, .check t.logSel), ("l_max".toList, .double t.lmax),
    ("l_min".toList, .double t.lmin)]

/-- The widgets for the file of multipoles (`gui_core.py` L224-330). -/
def Tab.external (t : Tab K) : List (Str × Widget K) :=
  [("ell_external_checkbox".toList, .check t.useFile), ("ell_external_filename".toList, .line t.file)]

/-- The tab `Lensing` (gui_core.py L224-330, L839-870). -/
def Screen.wlPage (s : Screen K) : List (Str × Widget K) :=
  s.wl.ells ++ s.wl.external ++ [("presence_flag".toList, .check s.wl.present), ("density_file".toList, .line s.wl.density),
    ("nuis_param_aIA".toList, .line s.aIA), ("nuis_param_cIA".toList, .line s.cIA),
    ("nuis_param_etaIA".toList, .line s.etaIA), ("nuis_param_betaIA".toList, .line s.betaIA),
    ("include_IA".toList, .check s.ia)]

/-- The tab `Void` (gui_core.py L332-440, L872-897): it has no box for the method of the derivatives. -/
def Screen.vdPage (s : Screen K) : List (Str × Widget K) :=
  [("void_kcut_invMpc".toList, .double s.kcut), ("bias_file".toList, .line s.vdBias),
    ("marginalize_bias_flag".toList, .check s.vdMarg), ("void_kcut_width_invMpc".toList, .double s.kcutWidth)] ++ s.vd.ells ++
    [("density_file".toList, .line s.vd.density), ("presence_flag".toList, .check s.vd.present)] ++ s.vd.external

/-- The tab `GCph` (gui_core.py L441-539, L899-924). -/
def Screen.phPage (s : Screen K) : List (Str × Widget K) :=
  [("bias_file".toList, .line s.phBias), ("marginalize_bias_flag".toList, .check s.phMarg),
    ("bias_derivative_method".toList, .combo s.phDiff)] ++ s.ph.ells ++
    [("density_file".toList, .line s.ph.density), ("presence_flag".toList, .check s.ph.present)] ++ s.ph.external

/-- The tab `GCsp` (gui_core.py L540-643, L926-953). -/
def Screen.spPage (s : Screen K) : List (Str × Widget K) :=
  [("bias_file".toList, .line s.spBias), ("marginalize_bias_flag".toList, .check s.spMarg),
    ("compute_gcsp_cl_offdiag".toList, .check s.offdiag), ("bias_derivative_method".toList, .combo s.spDiff)] ++
    s.sp.ells ++ [("density_file".toList, .line s.sp.density), ("presence_flag".toList, .check s.sp.present)] ++
    s.sp.external

/-- The window with these settings.  The stack also has a layout among its children (not a widget), left out here;
labels and containers, which have no "what's this" text, are left out too.
For `gui_core.py` L540-643, L926-953 (see `Screen.spPage`). -/
def Screen.window (s : Screen K) : Window K where
  fSky := s.fSky
  model := s.model
  flat := s.flat
  cosmo := s.cosmo.map (fun r => (r.name, [r.fiducial, r.free, r.units, r.stem, r.method]))
  stem := s.stem
  pages := [("Lensing".toList, "probe".toList, s.wlPage), ("Void".toList, "probe".toList, s.vdPage),
    ("GCph".toList, "probe".toList, s.phPage), ("GCsp".toList, "probe".toList, s.spPage)]

/-! ### Reading the file back -/

/-- What is outside the file: the multipoles that `getProbeMultipoleBinning` (probe_config.py L106-120) makes for the
name of a file, or for limits, spacing and number (`FLoad.binning`), and the nuisance parameters in the bias files.
The files are assumed to be there. -/
structure Disk (K : Type) where
  ofFile : Str → Except FLoad.Err (List K × List K)
  ofLimits : K → K → Bool → Option Nat → Except FLoad.Err (List K × List K)
  bias : Str → Dict Str K

/-- `getProbeMultipoleBinning` (probe_config.py L106-120).  The limits may be integers, which are not modelled. -/
def grid (disk : Disk K) (d : List (Str × J K)) : Except FLoad.Err (List K × List K) :=
  match d.lookup "ell_external_filename".toList with
  | some (.str f) => disk.ofFile f
  | _ =>
    match d.lookup "l_min".toList, d.lookup "l_max".toList, d.lookup "ell_log_selection".toList with
    | some (.num a), some (.num b), some (.bool s) =>
      match d.lookup "log_l_number".toList with
      | some (.int n) => disk.ofLimits a b s (some n)
      | _ => disk.ofLimits a b s none
    | _, _, _ => .error .keyError

/-- The entries that `loadFromJSONConfig` (probe_config.py L71-82) looks up: multipoles, what is in the bias file, flag and method.
Density file and specific settings are looked up, not used. -/
def fields (disk : Disk K) (lensing : Bool) (d : List (Str × J K)) :
    Except FLoad.Err ((List K × List K) × Dict Str K × Option Bool × Option Str) :=
  match grid disk d with
  | .error e => .error e
  | .ok g =>
    match d.lookup "density_file".toList with
    | none => .error .keyError
    | some _ =>
      match lensing, d.lookup "specific_settings".toList with
      | true, some _ => .ok (g, [], some false, none)
      | false, some _ =>
        match d.lookup "bias_file".toList, d.lookup "marginalize_bias_flag".toList,
            d.lookup "bias_derivative_method".toList with
        | some (.str f), some (.bool m), some (.str t) => .ok (g, disk.bias f, some m, some t)
        | some (.str f), some (.bool m), some .null => .ok (g, disk.bias f, some m, none)
        | _, _, _ => .error .keyError
      | _, none => .error .keyError

/-- The names of the arguments of `PhysicalParameter` (parameter.py L28-30). -/
def argNames : List Str := ["name".toList, "fiducial".toList, "current_value".toList, "kind".toList, "probe".toList,
  "is_free_parameter".toList, "stem_factor".toList, "description".toList, "units".toList, "derivative_method".toList]

/-- The text under a key, or the default. For `parameter.py` L62-64 (see `argsOf`). -/
def strOr (d : List (Str × J K)) (k dflt : Str) : Except Err Str :=
  match d.lookup k with
  | some (.str s) => .ok s
  | none => .ok dflt
  | _ => .error .typeError

/-- `cls(**data)` (parameter.py L62-64): the arguments, with the defaults for what is missing. -/
def argsOf [One K] (d : List (Str × J K)) : Except Err (Args K) :=
  if ∃ p ∈ d, p.1 ∉ argNames then .error .typeError
  else
    match d.lookup "name".toList, d.lookup "fiducial".toList, d.lookup "is_free_parameter".toList,
        d.lookup "kind".toList with
    | some (.str n), some (.num f), some (.bool b), some (.str k) => do
      let cur ← match d.lookup "current_value".toList with
        | some (.num x) => .ok (some x)
        | none => .ok none
        | _ => .error Err.typeError
      let probe ← match d.lookup "probe".toList with
        | some (.str s) => .ok (some s)
        | none => .ok none
        | _ => .error Err.typeError
      let stem ← match d.lookup "stem_factor".toList with
        | some (.num x) => .ok x
        | none => .ok 1
        | _ => .error Err.typeError
      let descr ← strOr d "description".toList []
      let units ← strOr d "units".toList "None".toList
      let method ← strOr d "derivative_method".toList "SteM".toList
      return ⟨n, f, cur, k, probe, b, stem, descr, units, method⟩
    | _, _, _, _ => .error .typeError

/-- The list of extra nuisance parameters (`probe_config.py` L97-104). -/
def objArgs [One K] : List (J K) → Except Err (List (Args K))
  | [] => .ok []
  | .obj d :: l => do
    let a ← argsOf d
    let r ← objArgs l
    return a :: r
  | _ :: _ => .error .typeError

/-- The entry of a probe.  Whatever is missing among the entries looked up with the multipoles is reported in their
place, as it is only raised for a probe that is switched on. For `forecast_config.py` L112-125 (see `entries`). -/
def entry [One K] (disk : Disk K) (name : Str) (d : List (Str × J K)) : Except Err (FLoad.PDict K) := do
  let p ← match d.lookup "presence_flag".toList with
    | some (.bool p) => .ok p
    | some _ => .error Err.typeError
    | none => .error .keyError
  let long ← toName .long name
  let extra ← match d.lookup "extra_nuisance_parameters".toList with
    | some (.list l) => do
      let a ← objArgs l
      pure (some a)
    | none => .ok none
    | _ => .error .typeError
  return match fields disk (decide (long = FLoad.lensing)) d with
    | .ok (g, b, m, t) => ⟨p, .ok g, b, m, t, extra⟩
    | .error e => ⟨p, .error e, [], none, none, extra⟩

/-- The entries of the probes (`forecast_config.py` L112-125). -/
def entries [One K] (disk : Disk K) : List (Str × J K) → Except Err (Dict Str (FLoad.PDict K))
  | [] => .ok []
  | (n, .obj d) :: l => do
    let a ← entry disk n d
    let r ← entries disk l
    return (n, a) :: r
  | _ :: _ => .error .typeError

/-- `np.array(l, dtype=float)` (parameter.py L217-218): numbers and texts of numbers. -/
def floats (num : Str → Option K) : List (J K) → Except Err (List K)
  | [] => .ok []
  | .num x :: l => do
    let r ← floats num l
    return x :: r
  | .str s :: l => do
    let x ← float num s
    let r ← floats num l
    return x :: r
  | _ :: _ => .error .typeError

/-- A value used as a dictionary (`forecast_config.py` L95-141). -/
def objOf : J K → Except Err (List (Str × J K))
  | .obj d => .ok d
  | _ => .error .typeError

/-- A value used as a list (`forecast_config.py` L95-141). -/
def listOf : J K → Except Err (List (J K))
  | .list d => .ok d
  | _ => .error .typeError

/-- What a forecast configuration reads from the file (forecast_config.py L95-141).  Only whether an exception is
raised is modelled for the whole, not which of several comes first. -/
def readFile [One K] (num : Str → Option K) (disk : Disk K) (d : List (Str × J K)) : Except Err (FLoad.Json K) := do
  let probes ← entries disk (← objOf (← item d "probes".toList))
  let survey ← objOf (← item d "survey".toList)
  let shot ← match survey.lookup "shot_noise_file".toList with
    | some (.str s) => .ok (some s)
    | some .null => .ok none
    | none => .ok none
    | _ => .error Err.typeError
  let cosmology ← objOf (← item d "cosmology".toList)
  let flat ← match ← item cosmology "flat".toList with
    | .bool b => .ok (some b)
    | .null => .ok none
    | _ => .error Err.typeError
  let cosmo ← objArgs (← listOf (← item cosmology "parameters".toList))
  let settings ← objOf (← item d "derivative_settings".toList)
  let base ← floats num (← listOf (← item settings "base_stem_disps".toList))
  return ⟨probes, cosmo, flat, base, shot⟩

/-- `loadConfiguration` (forecast_config.py L95-102) with `load_phys_params=True`, from the file. -/
def load [Field K] [LinearOrder K] (num : Str → Option K) (disk : Disk K) (isFile : Str → Bool) (d : List (Str × J K)) :
    Except Err (Param.Coll K × FLoad.Forecast K) := do
  let j ← readFile num disk d
  match FLoad.load isFile j FLoad.fresh with
  | .error e => .error (.load e)
  | .ok r => return r

/-- `survey_f_sky` (forecast_config.py L70-71). -/
def fSky (d : List (Str × J K)) : Except Err (J K) := do
  item (← objOf (← item d "survey".toList)) "f_sky".toList

/-- An option of `synthetic_opts`: `scenario`, `n_sp_bins`, `shot_noise_sp_reduced` (forecast_config.py L55-67,
json_io.py L43-54). -/
def synthetic (d : List (Str × J K)) (k : Str) : Except Err (J K) := do
  item (← objOf (← item d "synthetic_opts".toList)) k

/-- A specific setting of a probe, as `include_IA` (probe_config.py L81, weight_functions.py L215),
`compute_gcsp_cl_offdiag` or `void_kcut_invMpc` (c_ells.py L179, L255-256). -/
def setting (d : List (Str × J K)) (short k : Str) : Except Err (J K) := do
  let probe ← objOf (← item (← objOf (← item d "probes".toList)) short)
  item (← objOf (← item probe "specific_settings".toList)) k

/-- The parameters that the weight function of lensing takes for the intrinsic alignment (c_ells.py L389,
weight_functions.py L186-189, L215-216). -/
def alignment (c : Param.Coll K) : Except Err (K × K × K × K) := do
  let pars := FLoad.nuisFor c "Lensing".toList
  let a ← item pars "aIA".toList
  let b ← item pars "cIA".toList
  let e ← item pars "etaIA".toList
  let f ← item pars "betaIA".toList
  return (a.current, b.current, e.current, f.current)

end Seyfert.Gui
