import Mathlib.Data.Rat.Floor
import Verif.Model.PyDict
import Verif.Model.PyStr

/-!
The configurations of the tasks (`seyfert/config/main_config.py`), on the dictionary of
`base_structs/generic_dict.py` L8-46.

Files are given by the value which `json.load` reads from them, and what `json.dump` writes is taken to be what
`json.load` reads. Numbers with a decimal point are rational numbers; `NaN` and infinities are left out. Values stored by
the caller with `cfg[key] = value` are taken not to be shared with other dictionaries.
-/

namespace Seyfert.TaskCfg

/-- Values in a JSON file. For `generic_dict.py` L29-30 (see `Obj.item`). -/
inductive J where
  | null
  | bool (b : Bool)
  | int (n : Int)
  | num (x : ℚ)
  | str (s : Str)
  | list (l : List J)
  | obj (d : List (Str × J))

/-- The exceptions of the functions modelled here, by their kinds (`main_config.py` L16-193, `generic_dict.py` L8-46).
-/
inductive Err where
  | keyError
  | typeError
  | valueError
  | fileNotFound
  | noObject
  deriving DecidableEq

/-- `v[k]` for a text `k`. For `generic_dict.py` L29-30 (see `Obj.item`). -/
def J.item : J → Str → Except Err J
  | .obj d, k => match d.lookup k with
    | some v => .ok v
    | none => .error .keyError
  | _, _ => .error .typeError

/-- `v[k] = x` for a text `k`. For L49-51 (see `setZMin`). -/
def J.setItem (x : J) (k : Str) : J → Except Err J
  | .obj d => .ok (.obj (PyDict.set d k x))
  | _ => .error .typeError

/-- A change in place of the value `v[k]`: `v` refers to the changed value. For L49-51 (see `setZMin`). -/
def J.inPlace (k : Str) (f : J → Except Err J) (v : J) : Except Err J :=
  match v.item k with
  | .error e => .error e
  | .ok w => match f w with
    | .error e => .error e
    | .ok w' => J.setItem w' k v

/-- A configuration: the name of its class and its dictionary. For `generic_dict.py` L29-30 (see `Obj.item`). -/
structure Obj where
  type : Str
  dict : List (Str × J)

/-- The entry which names the class (`main_config.py` L20). -/
def typeKey : Str := "config_type".toList

/-- `self[k]` (generic_dict.py L29-30). -/
def Obj.item (o : Obj) (k : Str) : Except Err J := (J.obj o.dict).item k

/-- A change of the dictionary in place. For L49-51 (see `setZMin`). -/
def Obj.change (o : Obj) (f : J → Except Err J) : Except Err Obj :=
  match f (.obj o.dict) with
  | .ok (.obj d) => .ok { o with dict := d }
  | .ok _ => .error .typeError
  | .error e => .error e

/-- `loadFromJSON` (L32-34, L105-106). Contents which are not dictionaries are refused; Python would accept lists of
pairs. -/
def Obj.load (o : Obj) : Option J → Except Err Obj
  | none => .error .fileNotFound
  | some (.obj d) => .ok { o with dict := PyDict.update o.dict d }
  | some _ => .error .typeError

/-- The constructor of a class (L17-23, L42-43, L110-111, L143-144, L156-157), and `fromJSON` (L28-30): without a file, or
with one. -/
def create (cls : Str) : Option (Option J) → Except Err Obj
  | none => .ok ⟨cls, PyDict.set [] typeKey (.str cls)⟩
  | some content => Obj.load ⟨cls, PyDict.set [] typeKey (.str cls)⟩ content

/-- The tasks of `config_for_task` (L189). -/
def tasks : List Str := ["PowerSpectrum".toList, "Angular".toList, "Derivative".toList, "Fisher".toList]

/-- `config_for_task` (L188-194). -/
def configForTask (task : Str) (content : Option J) : Except Err Obj :=
  if task ∈ tasks then create (task ++ "Config".toList) (some content) else .error .valueError

/-! ### The settings -/

/-- `z_min` (L45-47). -/
def zMin (o : Obj) : Except Err J := (o.item "redshift_grid".toList).bind (·.item "z_min".toList)

/-- `z_min = value` (L49-51). -/
def setZMin (o : Obj) (v : J) : Except Err Obj := o.change (J.inPlace "redshift_grid".toList (J.setItem v "z_min".toList))

/-- `z_max` (L53-55). -/
def zMax (o : Obj) : Except Err J := (o.item "redshift_grid".toList).bind (·.item "z_max".toList)

/-- `z_max = value` (L57-59). -/
def setZMax (o : Obj) (v : J) : Except Err Obj := o.change (J.inPlace "redshift_grid".toList (J.setItem v "z_max".toList))

/-- `n_redshifts` (L61-63). -/
def nRedshifts (o : Obj) : Except Err J := (o.item "redshift_grid".toList).bind (·.item "n_redshifts".toList)

/-- `n_redshifts = value` (L65-67). -/
def setNRedshifts (o : Obj) (v : J) : Except Err Obj :=
  o.change (J.inPlace "redshift_grid".toList (J.setItem v "n_redshifts".toList))

/-- `boltzmann_codes_settings` (L73-75). -/
def boltzmann (o : Obj) : Except Err J := o.item "boltzmann_codes_settings".toList

/-- `boltzmann_code` (L77-79). -/
def code (o : Obj) : Except Err J := (boltzmann o).bind (·.item "code".toList)

/-- `boltzmann_code = value` (L81-83). -/
def setCode (o : Obj) (v : J) : Except Err Obj :=
  o.change (J.inPlace "boltzmann_codes_settings".toList (J.setItem v "code".toList))

/-- `camb_settings` (L85-87). -/
def camb (o : Obj) : Except Err J := (boltzmann o).bind (·.item "camb".toList)

/-- `class_settings` (L89-91). -/
def classSettings (o : Obj) : Except Err J := (boltzmann o).bind (·.item "class".toList)

/-- `camb_ini_name` (L93-95). -/
def cambIni (o : Obj) : Except Err J := (camb o).bind (·.item "ini_filename".toList)

/-- `camb_ini_name = value` (L97-99). -/
def setCambIni (o : Obj) (v : J) : Except Err Obj :=
  o.change (J.inPlace "boltzmann_codes_settings".toList
    (J.inPlace "camb".toList (J.setItem v "ini_filename".toList)))

/-- `cl_integration_settings` (L113-115). -/
def clSettings (o : Obj) : Except Err J := o.item "cl_integration_settings".toList

/-- `limber_pmm_spline_settings` (L117-119). -/
def splineSettings (o : Obj) : Except Err J := o.item "limber_pmm_spline_settings".toList

/-- `lensing_efficiency_integration_method` (L121-123). -/
def lensingMethod (o : Obj) : Except Err J := (clSettings o).bind (·.item "lensing_efficiency".toList)

/-- `cl_integration_method` (L125-127). -/
def clMethod (o : Obj) : Except Err J := (clSettings o).bind (·.item "cl".toList)

/-- `int(x)`. `int(text)` is the parameter `ofText`. For L129-131 (see `splineKx`). -/
def J.toInt (ofText : Str → Option Int) : J → Except Err Int
  | .int n => .ok n
  | .num x => .ok (if 0 ≤ x then ⌊x⌋ else ⌈x⌉)
  | .bool b => .ok (if b then 1 else 0)
  | .str s => match ofText s with
    | some n => .ok n
    | none => .error .valueError
  | _ => .error .typeError

/-- `limber_spline_kx` (L129-131). -/
def splineKx (ofText : Str → Option Int) (o : Obj) : Except Err Int :=
  ((splineSettings o).bind (·.item "kx".toList)).bind (J.toInt ofText)

/-- `limber_spline_ky` (L133-135). -/
def splineKy (ofText : Str → Option Int) (o : Obj) : Except Err Int :=
  ((splineSettings o).bind (·.item "ky".toList)).bind (J.toInt ofText)

/-- `limber_spline_s` (L137-139). -/
def splineS (ofText : Str → Option Int) (o : Obj) : Except Err Int :=
  ((splineSettings o).bind (·.item "s".toList)).bind (J.toInt ofText)

/-- `cl_dir` (L146-148). -/
def clDir (o : Obj) : Except Err J := o.item "angular_dir".toList

/-- `cl_dir = value` (L150-152). -/
def setClDir (o : Obj) (v : J) : Except Err Obj := o.change (J.setItem v "angular_dir".toList)

/-- `shot_noise_phsp_xc_factor` (L159-161). -/
def xcFactor (o : Obj) : Except Err J := o.item "shot_noise_phsp_xc_factor".toList

/-- `fisher_formula` (L163-165). -/
def formula (o : Obj) : Except Err J := o.item "fisher_formula".toList

/-- `cl_derivatives` (L167-169); the flags in it are in `Config`. -/
def clDerivatives (o : Obj) : Except Err J := o.item "cl_derivatives".toList

/-! ### The redshift grid -/

/-- A number for `np.linspace`; lists, for which there would be a grid for each entry, are left out. For L69-71 (see `zGrid`). -/
def J.toNum : J → Except Err ℚ
  | .int n => .ok n
  | .num x => .ok x
  | .bool b => .ok (if b then 1 else 0)
  | _ => .error .typeError

/-- A number of points for `np.linspace`. For L69-71 (see `zGrid`). -/
def J.toIndex : J → Except Err Int
  | .int n => .ok n
  | .bool b => .ok (if b then 1 else 0)
  | _ => .error .typeError

/-- `np.linspace(a, b, n)`. For L69-71 (see `zGrid`). -/
def linspace (a b : ℚ) : Nat → List ℚ
  | 0 => []
  | 1 => [a]
  | n + 2 => (List.range (n + 1)).map (fun (i : Nat) => a + (i : ℚ) * ((b - a) / ((n + 1 : Nat) : ℚ))) ++ [b]

/-- `z_grid` (L69-71). -/
def zGrid (o : Obj) : Except Err (List ℚ) :=
  (zMin o).bind fun a => (zMax o).bind fun b => (nRedshifts o).bind fun n => n.toIndex.bind fun n =>
    if n < 0 then .error .valueError
    else a.toNum.bind fun a => b.toNum.bind fun b => .ok (linspace a b n.toNat)

/-! ### Objects and files -/

/-- The settings by name. For L167-169 (see `clDerivatives`). -/
inductive Setting where
  | zMin | zMax | nRedshifts | code | classSettings | cambIni | lensingMethod | clMethod | kx | ky | smoothing | clDir | xcFactor
  | formula | clDerivatives
  deriving DecidableEq

/-- What is stored for a setting. For L167-169 (see `clDerivatives`). -/
def Setting.get : Setting → Obj → Except Err J
  | .zMin => TaskCfg.zMin
  | .zMax => TaskCfg.zMax
  | .nRedshifts => TaskCfg.nRedshifts
  | .code => TaskCfg.code
  | .classSettings => TaskCfg.classSettings
  | .cambIni => TaskCfg.cambIni
  | .lensingMethod => TaskCfg.lensingMethod
  | .clMethod => TaskCfg.clMethod
  | .kx => fun o => (splineSettings o).bind (·.item "kx".toList)
  | .ky => fun o => (splineSettings o).bind (·.item "ky".toList)
  | .smoothing => fun o => (splineSettings o).bind (·.item "s".toList)
  | .clDir => TaskCfg.clDir
  | .xcFactor => TaskCfg.xcFactor
  | .formula => TaskCfg.formula
  | .clDerivatives => TaskCfg.clDerivatives

/-- The settings which can be set by name. For `main_config.py` L41-160 (see `Setter.set`). -/
inductive Setter where
  | zMin | zMax | nRedshifts | code | cambIni | clDir
  deriving DecidableEq

/-- The setters of the properties (`main_config.py` L41-160). -/
def Setter.set : Setter → Obj → J → Except Err Obj
  | .zMin => setZMin
  | .zMax => setZMax
  | .nRedshifts => setNRedshifts
  | .code => setCode
  | .cambIni => setCambIni
  | .clDir => setClDir

/-- A path by its components (`main_config.py` L17-38). -/
abbrev Path := List Str

/-- The configurations by name and the files by path (`main_config.py` L16-38). -/
structure State where
  objs : Nat → Option Obj
  file : Path → Option J

/-- What can be done with configurations (`main_config.py` L16-193). -/
inductive Op where
  /-- `cls()` or `cls(json_input=file)`, under the name `i`. -/
  | create (i : Nat) (cls : Str) (file : Option Path)
  /-- `config_for_task(task, file)`. -/
  | task (i : Nat) (task : Str) (file : Path)
  /-- `loadFromJSON(file)` on an object. -/
  | load (i : Nat) (file : Path)
  | set (i : Nat) (s : Setter) (v : J)
  /-- `cfg[k] = v`. -/
  | setItem (i : Nat) (k : Str) (v : J)
  /-- `del cfg[k]`. -/
  | delItem (i : Nat) (k : Str)
  /-- `writeToJSON(file)` (L36-38). -/
  | write (i : Nat) (file : Path)
  /-- Any other program writes a file. -/
  | other (file : Path) (content : Option J)

/-- Puts the result under a name, or nothing if there was an exception. For `main_config.py` L16-38 (see `State`). -/
def put (s : State) (i : Nat) : Except Err Obj → State × Option Err
  | .ok o => ({ s with objs := fun j => if j = i then some o else s.objs j }, none)
  | .error e => (s, some e)

/-- One call. For `main_config.py` L16-193 (see `run`). -/
def step (s : State) : Op → State × Option Err
  | .create i cls none => put s i (create cls none)
  | .create i cls (some p) => put s i (create cls (some (s.file p)))
  | .task i t p => put s i (configForTask t (s.file p))
  | .load i p => match s.objs i with
    | none => (s, some .noObject)
    | some o => put s i (o.load (s.file p))
  | .set i x v => match s.objs i with
    | none => (s, some .noObject)
    | some o => put s i (x.set o v)
  | .setItem i k v => match s.objs i with
    | none => (s, some .noObject)
    | some o => put s i (.ok { o with dict := PyDict.set o.dict k v })
  | .delItem i k => match s.objs i with
    | none => (s, some .noObject)
    | some o => match o.dict.lookup k with
      | none => (s, some .keyError)
      | some _ => put s i (.ok { o with dict := PyDict.erase o.dict k })
  | .write i p => match s.objs i with
    | none => (s, some .noObject)
    | some o => ({ s with file := fun q => if q = p then some (.obj o.dict) else s.file q }, none)
  | .other p c => ({ s with file := fun q => if q = p then c else s.file q }, none)

/-- Calls one after the other; an exception is caught by the caller (`main_config.py` L16-193). -/
def run (s : State) (ops : List Op) : State := ops.foldl (fun s op => (step s op).1) s

end Seyfert.TaskCfg
