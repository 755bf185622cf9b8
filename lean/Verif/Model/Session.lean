import Verif.Model.Workspace

/-!
Model of the class `Seyfert`, the interface for use from Python (`seyfert/seyfert.py`): objects with a dictionary of
arguments, the methods which fill them step by step, and the run directory the methods work in.

What the steps compute is left open (`Lib`); what they read, keep and write is modelled. A file is read whole; the file
of the densities keeps one entry per probe in the order of writing. The attributes of a density which are not saved
(splines) are left out. Objects have names (`Nat`); dictionaries of arguments have addresses, since several objects can
share one.
-/

namespace Seyfert.Sess

open Work (Path Loc Tree Disk copyInputs createInputs inputContent mkdirOk prepareDirs existsAt write inputDirName paramsName)

/-- The exceptions of the functions modelled here, by their kinds (`seyfert.py` L30-128). -/
inductive Err where
  /-- An exception of the input files or the links. -/
  | work (e : Work.Err)
  /-- A file is missing or can not be interpreted. -/
  | bad
  /-- `KeyError: 'workdir'`. -/
  | noWorkdir
  /-- An attribute of `None` or of a text is used. -/
  | attribute
  /-- The checks of the cosmology or of the Boltzmann code fail. -/
  | cosmology
  /-- There is no such object. -/
  | noObject
  deriving DecidableEq

/-- The value of `input_data_dir`: a path object or a text. For `seyfert.py` L51-82 (see `Args`). -/
inductive DataArg where
  | path (p : Path)
  | text (p : Path)
  deriving DecidableEq

/-- The dictionary of arguments (`seyfert.py` L51-82). `none`: the key is not there. Relative paths are resolved. -/
structure Args where
  forecast : Option Path := none
  powerSpectrum : Option Path := none
  angular : Option Path := none
  derivative : Option Path := none
  fisher : Option Path := none
  dataDir : Option DataArg := none
  test : Bool := false
  workdir : Option Path := none
  pmmDir : Option Path := none
  clDir : Option Path := none
  derDir : Option Path := none
  deriving DecidableEq

/-- What the steps compute. `C`: contents of files, `F`: forecast configurations, `P`: physical parameters, `M`: task
configurations, `G`: redshift grids, `D`: densities, `B`: cosmologies, `Q`: power spectra, `S`: angular spectra.
For `workspace.py` L138-153 (see `taskConfig`). -/
structure Lib (C F P M G D B Q S : Type) where
  /-- `ForecastConfig(input_file, input_data_dir)`. -/
  forecast : C → Path → Option F
  /-- `loadPhysicalParametersFromJSONConfig`. -/
  params : F → Option P
  /-- `writeJSON` of the parameters. -/
  paramsText : P → C
  /-- `config_for_task`. -/
  config : Str → C → Option M
  /-- `z_grid` of the configuration of the power spectra. -/
  grid : M → G
  /-- The probes and their `density_init_file`. -/
  probes : F → List (Str × Path)
  /-- `RedshiftDensity.fromHDF5`, `setUp`, `evaluate` and `evaluateSurfaceDensity`. -/
  density : C → G → Option D
  /-- `Cosmology(params, flat, z_grid)`. -/
  cosmo : P → Bool → G → Option B
  /-- Whether the Boltzmann code writes into the directory of the power spectra (CAMB does). -/
  writes : M → Bool
  /-- `evaluatePowerSpectrum`. -/
  spectrum : P → M → Option Q
  /-- `compute_cls`; the densities are asked for by probe. -/
  cls : B → Q → P → (Str → Option D) → F → M → Option S

/-- The installation: the directories of its configuration files and of its data, and the current directory.
For `seyfert.py` L55-61 (see `sources`). -/
structure Site where
  cfg : Path
  data : Path
  cwd : Path

/-- An object of the class (`seyfert.py` L30-40); `args` is the address of its dictionary of arguments. -/
structure Obj (F P M D B Q : Type) where
  args : Nat
  ws : Option Path := none
  fcfg : Option F := none
  pmm : Option M := none
  cl : Option M := none
  der : Option M := none
  fish : Option M := none
  pars : Option P := none
  cosmo : Option (B × Option Q) := none
  dens : Option (Dict Str D) := none

/-- Process and file system. `store`: the dictionaries of arguments by address, the one at 0 being the default value of
the constructor; `inputs`: the input dictionary of each run directory; `niz`: `norm_densities.hdf5` of each.
For `workspace.py` L240-246 (see `putInputs`). -/
structure State (C F P M D B Q : Type) where
  objs : Nat → Option (Obj F P M D B Q)
  store : Nat → Args
  next : Nat
  file : Path → Option C
  inputs : Path → Option (List (Str × Loc))
  niz : Path → Option (Dict Str D)
  tree : Tree

variable {C F P M G D B Q S : Type}

/-- `src_input_files` (`seyfert.py` L55-61). -/
def sources (site : Site) (a : Args) : List (Str × Path) :=
  [("forecast".toList, a.forecast.getD (site.cfg ++ ["basic_forecast_config.json".toList])),
   ("PowerSpectrum".toList, a.powerSpectrum.getD (site.cfg ++ ["power_spectrum_config.json".toList])),
   ("Angular".toList, a.angular.getD (site.cfg ++ ["angular_config.json".toList])),
   ("Derivative".toList, a.derivative.getD (site.cfg ++ ["derivative_config.json".toList])),
   ("Fisher".toList, a.fisher.getD (site.cfg ++ ["fisher_config.json".toList]))]

/-- The source of the forecast configuration. For `seyfert/seyfert.py` L50-94 (see `prepare`). -/
def forecastSource (site : Site) (a : Args) : Path :=
  a.forecast.getD (site.cfg ++ ["basic_forecast_config.json".toList])

/-- The directory of the input data, and whether it was given as a text (L53). -/
def dataOf (site : Site) (a : Args) : DataArg := a.dataDir.getD (.path site.data)

/-- The directory meant by the argument (`seyfert.py` L53). -/
def DataArg.dir : DataArg → Path
  | .path p => p
  | .text p => p

/-- The run directory (L68-71). -/
def runDir (site : Site) (a : Args) : Option Path :=
  if a.test then some (site.cwd ++ ["test_seyfert_run".toList]) else a.workdir

/-- Replaces one object. For `seyfert/seyfert.py` L50-94 (see `prepare`). -/
def setObj (s : State C F P M D B Q) (i : Nat) (o : Obj F P M D B Q) : State C F P M D B Q :=
  { s with objs := fun j => if j = i then some o else s.objs j }

/-- `createInputFilesDir` from the class (L74-76): the directory of the input data is resolved after the parameters are
written and before the input dictionary is (workspace.py L240-246), which fails for a text. -/
def putInputs (run : Path) (srcs : List (Str × Path)) (params : C) (data : DataArg) (s : State C F P M D B Q) :
    State C F P M D B Q × Option Err :=
  match data with
  | .path p => match createInputs run srcs params p ⟨s.file, s.inputs run⟩ with
    | (d, e) => ({ s with file := d.file, inputs := fun q => if q = run then d.dict else s.inputs q }, e.map .work)
  | .text _ => match copyInputs run s.file [] srcs with
    | (fs, .error e) => ({ s with file := fs }, some (.work e))
    | (fs, .ok _) => ({ s with file := write fs (run ++ [inputDirName, paramsName]) params }, some .attribute)

/-- `getTasksJSONConfigs` for one task (workspace.py L138-153). -/
def taskConfig (lib : Lib C F P M G D B Q S) (s : State C F P M D B Q) (run : Path) (task : Str) : Option M :=
  (inputContent run ⟨s.file, s.inputs run⟩ task).bind (lib.config task)

/-- `prepareWorkspace` (L50-94) of object `i`, whose present value is `o`. The run directory is made with its parents
(L73); the parents are left out. -/
def prepare (lib : Lib C F P M G D B Q S) (site : Site) (i : Nat) (o : Obj F P M D B Q) (s : State C F P M D B Q) :
    State C F P M D B Q × Option Err :=
  let a := s.store o.args
  match (s.file (forecastSource site a)).bind (fun c => lib.forecast c (dataOf site a).dir) with
  | none => (s, some .bad)
  | some f =>
    let o := { o with fcfg := some f }
    let s := setObj s i o
    match lib.params f with
    | none => (s, some .bad)
    | some p => match runDir site a with
      | none => (s, some .noWorkdir)
      | some run =>
        let o := { o with ws := some run }
        let s := setObj s i o
        match mkdirOk s.tree run with
        | (_, some e) => (s, some (.work e))
        | (t, none) => match putInputs run (sources site a) (lib.paramsText p) (dataOf site a) { s with tree := t } with
          | (s, some e) => (s, some e)
          | (s, none) => match prepareDirs run a.pmmDir a.clDir a.derDir s.tree with
            | (t, some e) => ({ s with tree := t }, some (.work e))
            | (t, none) =>
              let s := { s with tree := t }
              match taskConfig lib s run "PowerSpectrum".toList, taskConfig lib s run "Angular".toList,
                taskConfig lib s run "Derivative".toList, taskConfig lib s run "Fisher".toList with
              | some m1, some m2, some m3, some m4 =>
                (setObj s i { o with pmm := some m1, cl := some m2, der := some m3, fish := some m4, pars := some p }, none)
              | _, _, _, _ => (s, some .bad)

/-- `evaluateFiducialCosmology(compute_pmm, flat)` (L96-102). The cosmology is kept before its power spectrum is
computed; CAMB writes into the directory of the power spectra. -/
def cosmology (lib : Lib C F P M G D B Q S) (pmm flat : Bool) (i : Nat) (o : Obj F P M D B Q) (s : State C F P M D B Q) :
    State C F P M D B Q × Option Err :=
  match o.pars, o.pmm, o.ws with
  | some p, some m, some run => match lib.cosmo p flat (lib.grid m) with
    | none => (s, some .cosmology)
    | some b =>
      let s' := setObj s i { o with cosmo := some (b, none) }
      if pmm then
        if lib.writes m ∧ existsAt s.tree (run ++ ["PowerSpectrum".toList]) = false then (s', some (.work .fileNotFound))
        else match lib.spectrum p m with
          | none => (s', some .cosmology)
          | some q => (setObj s i { o with cosmo := some (b, some q) }, none)
      else (s', none)
  | _, _, _ => (s, some .attribute)

/-- The loop over the probes (L109-114). -/
def densityTable (lib : Lib C F P M G D B Q S) (file : Path → Option C) (g : G) : List (Str × Path) → Option (Dict Str D)
  | [] => some []
  | (n, p) :: l => match (file p).bind (fun c => lib.density c g) with
    | none => none
    | some d => (densityTable lib file g l).map ((n, d) :: ·)

/-- `evaluateRedshiftDensities` (L104-120). An empty table makes no file. -/
def densities (lib : Lib C F P M G D B Q S) (i : Nat) (o : Obj F P M D B Q) (s : State C F P M D B Q) :
    State C F P M D B Q × Option Err :=
  match o.pmm, o.ws with
  | some m, some run => match s.niz run with
    | some t => (setObj s i { o with dens := some t }, none)
    | none => match o.fcfg with
      | none => (s, some .attribute)
      | some f => match densityTable lib s.file (lib.grid m) (lib.probes f) with
        | none => (s, some .bad)
        | some t =>
          (setObj { s with niz := fun q => if q = run ∧ t ≠ [] then some t else s.niz q } i { o with dens := some t }, none)
  | _, _ => (s, some .attribute)

/-- What is in the file of densities if the process is killed when `k` probes have been written: the rest of the state
does not matter. For `seyfert/seyfert.py` L109-114 (see `densityTable`). -/
def cutDensities (lib : Lib C F P M G D B Q S) (k : Nat) (o : Obj F P M D B Q) (s : State C F P M D B Q) :
    Path → Option (Dict Str D) :=
  match o.pmm, o.ws, o.fcfg with
  | some m, some run, some f => match s.niz run with
    | some _ => s.niz
    | none => match densityTable lib s.file (lib.grid m) (lib.probes f) with
      | none => s.niz
      | some t => fun q => if q = run ∧ t.take k ≠ [] then some (t.take k) else s.niz q
  | _, _, _ => s.niz

/-- `computeCls` (L122-128). -/
def computeCls (lib : Lib C F P M G D B Q S) (o : Obj F P M D B Q) : Except Err S :=
  match o.cosmo, o.pars, o.dens, o.fcfg, o.cl with
  | some (b, some q), some p, some t, some f, some m => match lib.cls b q p (fun n => t.lookup n) f m with
    | some r => .ok r
    | none => .error .bad
  | _, _, _, _, _ => .error .attribute

/-- What can be done with the objects (`seyfert.py` L30-128). -/
inductive Op where
  /-- `Seyfert(args)`, or `Seyfert()` without arguments, under the name `i`. -/
  | new (i : Nat) (a : Option Args)
  /-- The entries of the dictionary of arguments of the object become `a`. -/
  | setArgs (i : Nat) (a : Args)
  | prepare (i : Nat)
  | cosmology (i : Nat) (pmm flat : Bool)
  | densities (i : Nat)
  | cls (i : Nat)
  /-- The process ends and another one begins. -/
  | restart
  /-- The process is killed in `prepareWorkspace` when `k` input files have been copied. -/
  | killPrepare (i k : Nat)
  /-- The process is killed in `evaluateRedshiftDensities` when `k` probes have been written. -/
  | killDensities (i k : Nat)
  deriving DecidableEq

/-- A new process: no objects, and the default dictionary is empty. For `seyfert.py` L30-128 (see `step`). -/
def reborn (s : State C F P M D B Q) : State C F P M D B Q :=
  { s with objs := fun _ => none, store := fun _ => {}, next := 1 }

/-- The copies made when `prepareWorkspace` is killed. For `seyfert/seyfert.py` L68-71 (see `runDir`). -/
def cutPrepare (site : Site) (k : Nat) (o : Obj F P M D B Q) (s : State C F P M D B Q) : Path → Option C :=
  match runDir site (s.store o.args) with
  | none => s.file
  | some run => (copyInputs run s.file [] ((sources site (s.store o.args)).take k)).1

/-- One call. The result is that of `computeCls`. For `seyfert.py` L30-128 (see `Op`). -/
def step (lib : Lib C F P M G D B Q S) (site : Site) (s : State C F P M D B Q) : Op →
    State C F P M D B Q × Except Err (Option S)
  | .new i none => (setObj s i { args := 0 }, .ok none)
  | .new i (some a) =>
    (setObj { s with store := fun j => if j = s.next then a else s.store j, next := s.next + 1 } i { args := s.next }, .ok none)
  | .setArgs i a => match s.objs i with
    | none => (s, .error .noObject)
    | some o => ({ s with store := fun j => if j = o.args then a else s.store j }, .ok none)
  | .prepare i => match s.objs i with
    | none => (s, .error .noObject)
    | some o => match prepare lib site i o s with
      | (s, none) => (s, .ok none)
      | (s, some e) => (s, .error e)
  | .cosmology i pmm flat => match s.objs i with
    | none => (s, .error .noObject)
    | some o => match cosmology lib pmm flat i o s with
      | (s, none) => (s, .ok none)
      | (s, some e) => (s, .error e)
  | .densities i => match s.objs i with
    | none => (s, .error .noObject)
    | some o => match densities lib i o s with
      | (s, none) => (s, .ok none)
      | (s, some e) => (s, .error e)
  | .cls i => match s.objs i with
    | none => (s, .error .noObject)
    | some o => (s, (computeCls lib o).map some)
  | .restart => (reborn s, .ok none)
  | .killPrepare i k => match s.objs i with
    | none => (s, .error .noObject)
    | some o => (reborn { s with file := cutPrepare site k o s }, .ok none)
  | .killDensities i k => match s.objs i with
    | none => (s, .error .noObject)
    | some o => (reborn { s with niz := cutDensities lib k o s }, .ok none)

/-- A sequence of calls with their results. For `seyfert.py` L30-128 (see `Op`). -/
def run (lib : Lib C F P M G D B Q S) (site : Site) : State C F P M D B Q → List Op →
    State C F P M D B Q × List (Op × Except Err (Option S))
  | s, [] => (s, [])
  | s, op :: ops => ((run lib site (step lib site s op).1 ops).1,
      (op, (step lib site s op).2) :: (run lib site (step lib site s op).1 ops).2)

end Seyfert.Sess
