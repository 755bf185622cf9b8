import Verif.Model.RunSeyfert
import Verif.Model.Compare

/-!
Model of the objects that carry the options of the programs: `DictLike` (`seyfert/base_structs/generic_dict.py` L48-65) and the
classes of `seyfert/config/cmd_line.py` L14-127. Attributes whose names begin with two underscores are not modelled, nor are
names that end in a newline.
-/

namespace Seyfert.Args
open Orch (Pth)
open OrchIn (toPath endsWith)
open RunS (parseInt)

/-- A value of an option. For L52-56 (see `Obj`). -/
inductive Val where
  | none
  | text (s : Str)
  | path (p : Pth)
  | int (n : Int)
  | bool (b : Bool)
  deriving DecidableEq

/-- The exceptions of the functions modelled here, by their kinds (`generic_dict.py` L48-65, `cmd_line.py` L14-127).
-/
inductive Err where
  | attributeError
  | keyError
  | typeError
  | valueError
  deriving DecidableEq

/-- The items of the object, which is a dictionary. For L52-56 (see `getAttr`). -/
abbrev Obj := Dict Str Val

/-- The attributes which the classes have: the methods of `dict`, and those of `GenericCommandLineArgs` (L18-29). -/
def methods : List Str :=
  ["clear".toList, "copy".toList, "fromkeys".toList, "get".toList, "items".toList, "keys".toList, "pop".toList,
    "popitem".toList, "setdefault".toList, "update".toList, "values".toList, "readArgs".toList, "castArgTypes".toList]

/-- What reading an attribute gives. For L52-56 (see `getAttr`). -/
inductive Attr where
  | method
  | val (v : Val)
  deriving DecidableEq

/-- `obj.name`: `__getattr__` (L52-56) is called only if the name is not found in the class. -/
def getAttr (o : Obj) (n : Str) : Except Err Attr :=
  if n ∈ methods then .ok .method
  else match o.lookup n with
    | some v => .ok (.val v)
    | none => .error .attributeError

/-- Changes of the object. For L58-59 (see `step`). -/
inductive Op where
  | setAttr (n : Str) (v : Val)
  | delAttr (n : Str)
  | setItem (n : Str) (v : Val)
  | delItem (n : Str)
  | update (d : Dict Str Val)
  deriving DecidableEq

/-- `__setattr__` (L58-59), `__delattr__` (L61-65), and the methods of `dict`. -/
def step (o : Obj) : Op → Obj × Option Err
  | .setAttr n v => (PyDict.set o n v, none)
  | .delAttr n => if n ∈ o.map (·.1) then (PyDict.erase o n, none) else (o, some .attributeError)
  | .setItem n v => (PyDict.set o n v, none)
  | .delItem n => if n ∈ o.map (·.1) then (PyDict.erase o n, none) else (o, some .keyError)
  | .update d => (PyDict.update o d, none)

/-- A history of changes; exceptions are caught by the caller. For L58-59 (see `step`). -/
def steps (o : Obj) (l : List Op) : Obj := l.foldl (fun o x => (step o x).1) o

/-- `Path(value)`. For L62-66 (see `castAll`). -/
def castPath : Val → Except Err Val
  | .none => .ok .none
  | .text s => .ok (.path (toPath s))
  | .path p => .ok (.path p)
  | .int _ => .error .typeError
  | .bool _ => .error .typeError

/-- `int(value)` for the step; for other texts than decimal numbers see `parseInt`. For L62-66 (see `cast`). -/
def castInt : Val → Except Err Val
  | .none => .ok .none
  | .text s => match parseInt s with
    | some n => .ok (.int n)
    | .none => .error .valueError
  | .path _ => .error .typeError
  | .int n => .ok (.int n)
  | .bool b => .ok (.int (if b then 1 else 0))

/-- The loop of `castArgTypes` (L62-66, L84-88): items before one that cannot be changed are changed. -/
def castAll (pathLike : Str → Bool) : Obj → Obj × Option Err
  | [] => ([], none)
  | (n, v) :: o =>
    if pathLike n then match castPath v with
      | .error e => ((n, v) :: o, some e)
      | .ok w => ((n, w) :: (castAll pathLike o).1, (castAll pathLike o).2)
    else ((n, v) :: (castAll pathLike o).1, (castAll pathLike o).2)

/-- A class of arguments: the attributes set by the constructor, the names of paths, whether there is a step to be made a
number. For L32-66 (see `job`). -/
structure Cls where
  names : List Str
  pathLike : Str → Bool
  hasStep : Bool

/-- `_(config|dir)` anywhere in the name (L63). -/
def jobPath (n : Str) : Bool := Compare.contains "_config".toList n || Compare.contains "_dir".toList n

/-- `(config|dir)$` (L85). -/
def mainPath (n : Str) : Bool := endsWith "config".toList n || endsWith "dir".toList n

/-- `JobSubmitterCommandLineArgs` (L32-66). -/
def job : Cls :=
  ⟨["run_id".toList, "forecast_config".toList, "powerspectrum_config".toList, "angular_config".toList,
    "derivative_config".toList, "fisher_config".toList, "input_data_dir".toList, "powerspectrum_dir".toList,
    "angular_dir".toList, "derivative_dir".toList, "fisher_dir".toList, "execution".toList, "queue".toList,
    "memory".toList, "n_cores_per_job".toList, "verbose".toList, "test".toList, "doctor".toList,
    "ignore_errfiles".toList, "powerspectrum".toList, "angular".toList, "derivative".toList, "fisher".toList,
    "overwrite_results".toList, "keep_cl_variations".toList], jobPath, false⟩

/-- The options common to the main programs (`cmd_line.py` L130-137). -/
def mainNames : List Str :=
  ["rundir".toList, "workdir".toList, "logfile".toList, "main_config".toList, "standalone".toList,
    "forecast_config".toList, "input_data_dir".toList]

/-- `MainProgramCommandLineArgs` (L69-88). -/
def main : Cls := ⟨mainNames, mainPath, false⟩

/-- `ClCLIArgs` (L91-105). -/
def cl : Cls := ⟨mainNames ++ ["power_spectrum_dir".toList, "dvar".toList, "step".toList, "niz_file".toList], mainPath, true⟩

/-- `ClDerivativeCLIArgs` (L108-115). -/
def der : Cls := ⟨mainNames ++ ["angular_dir".toList, "dvar".toList], mainPath, false⟩

/-- `FisherCLIArgs` (L118-126). -/
def fisher : Cls := ⟨mainNames ++ ["fisher_names".toList, "shot_noise_file".toList, "outdir".toList], mainPath, false⟩

/-- `castArgTypes` (L62-66, L84-88, L102-105). -/
def cast (c : Cls) (o : Obj) : Obj × Option Err :=
  match castAll c.pathLike o with
  | (o', some e) => (o', some e)
  | (o', none) =>
    if c.hasStep then match o'.lookup "step".toList with
      | none => (o', some .attributeError)
      | some v => match castInt v with
        | .error e => (o', some e)
        | .ok w => if v = .none then (o', none) else (PyDict.set o' "step".toList w, none)
    else (o', none)

/-- What can be given to `readArgs`: a dictionary, a namespace of `argparse`, or something else. For L18-26 (see `readArgs`). -/
inductive Given where
  | dict (d : Dict Str Val)
  | ns (d : Dict Str Val)
  | other

/-- `readArgs` (L18-26). -/
def readArgs (c : Cls) (o : Obj) : Given → Obj × Option Err
  | .dict d => cast c (PyDict.update o d)
  | .ns d => cast c (PyDict.update o d)
  | .other => (o, some .typeError)

/-- The object of the constructor without arguments. For L18-26 (see `construct`). -/
def blank (c : Cls) : Obj := PyDict.ofItems (c.names.map fun n => (n, Val.none))

/-- The constructors. For L18-26 (see `readArgs`). -/
def construct (c : Cls) : Option Given → Except Err Obj
  | none => .ok (blank c)
  | some g => match readArgs c (blank c) g with
    | (_, some e) => .error e
    | (o, none) => .ok o

end Seyfert.Args
