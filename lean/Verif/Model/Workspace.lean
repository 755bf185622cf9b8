import Verif.Model.PyDict
import Verif.Model.PyStr

/-!
The run directory: copies of the input files and links to directories of other runs
(`utils/workspace.py`, `main/seyfert_core.py`).

Paths are lists of components, the last one the name.  Permissions, full disks and symbolic links
in the middle of a path are not modelled.
-/

namespace Seyfert.Work

/-- An absolute path, by components. For `filesystem_utils.py` L64-65 (see `Disk`). -/
abbrev Path := List Str

/-- `Path.name`. For `workspace.py` L234-238 (see `copyInputs`). -/
def name (p : Path) : Str := p.getLast?.getD []

/-- Exceptions of these functions. For `workspace.py` L234-238 (see `copyInputs`). -/
inductive Err where
  | fileNotFound
  | sameFile
  | keyError
  | fileExists
deriving DecidableEq

/-- An entry of `input_files_dict.json`: a path relative to the run directory, or an absolute one.
For `filesystem_utils.py` L64-65 (see `Disk`). -/
inductive Loc where
  | rel (p : Path)
  | abs (p : Path)
deriving DecidableEq

/-- `run_dir / entry`: an absolute entry wins. For `workspace.py` L126-143, L155-156 (see `inputPath`). -/
def Loc.at (run : Path) : Loc → Path
  | .rel p => run ++ p
  | .abs p => p

/-- The regular files of the file system by path, and the input dictionary of the run directory
(`input_files_dict.json`, filesystem_utils.py L64-65), if there is one. -/
structure Disk (V : Type) where
  file : Path → Option V
  dict : Option (List (Str × Loc))

variable {V : Type}

/-- Replaces or creates one file. For `workspace.py` L234-238 (see `copyInputs`). -/
def write (fs : Path → Option V) (p : Path) (v : V) : Path → Option V :=
  fun q => if q = p then some v else fs q

/-- `input_files_dir`, filesystem_utils.py L60-61. -/
def inputDirName : Str := "input_files_dir".toList

/-- workspace.py L240. -/
def paramsName : Str := "params.json".toList

/-- The loop of `createInputFilesDir`, workspace.py L234-238: every source is copied under its base
name, and the dictionary entry is the relative path of the copy.  `shutil.copy` refuses a missing
source and a source that is its own destination; metadata is not modelled. -/
def copyInputs (run : Path) : (Path → Option V) → List (Str × Loc) → List (Str × Path) →
    (Path → Option V) × Except Err (List (Str × Loc))
  | fs, d, [] => (fs, .ok d)
  | fs, d, (task, src) :: rest =>
    match fs src with
    | none => (fs, .error .fileNotFound)
    | some v =>
      if src = run ++ [inputDirName, name src] then (fs, .error .sameFile)
      else copyInputs run (write fs (run ++ [inputDirName, name src]) v)
        (PyDict.set d task (.rel [inputDirName, name src])) rest

/-- `WorkSpace.createInputFilesDir`, workspace.py L228-246.  `params` is the content of the JSON
file of the physical parameters; the dictionary file is written last. -/
def createInputs (run : Path) (srcs : List (Str × Path)) (params : V) (dataDir : Path)
    (d : Disk V) : Disk V × Option Err :=
  match copyInputs run d.file [] srcs with
  | (fs, .error e) => ({ d with file := fs }, some e)
  | (fs, .ok m) =>
    ({ file := write fs (run ++ [inputDirName, paramsName]) params
       dict := some (PyDict.set (PyDict.set m "params".toList (.rel [inputDirName, paramsName]))
        "input_data_dir".toList (.abs dataDir)) }, none)

/-- `getTaskJSONPath`, `getForecastConfigFilePath`, `getParamsJSONFile` and the first line of
`getInputDataDirPath`: workspace.py L126-143, L155-156 and filesystem_utils.py L72-89.  `none`
stands for the exception when there is no dictionary file or no such entry. -/
def inputPath (run : Path) (d : Disk V) (task : Str) : Option Path :=
  (d.dict.bind (·.lookup task)).map (·.at run)

/-- The content of the input file a task of the run reads. For `workspace.py` L126-143, L155-156 (see `inputPath`). -/
def inputContent (run : Path) (d : Disk V) (task : Str) : Option V :=
  (inputPath run d task).bind d.file

/-- What a path of the file system is. For `workspace.py` L219-226 (see `Tree`). -/
inductive Node where
  | file
  | dir
  | link (target : Path)
deriving DecidableEq

/-- The file system as far as linking is concerned. For `workspace.py` L219-226 (see `createSymlink`). -/
abbrev Tree := Path → Option Node

/-- `Path.exists()`: follows one link (links to links are not modelled). For `workspace.py` L219-226 (see `createSymlink`). -/
def existsAt (t : Tree) (p : Path) : Bool :=
  match t p with
  | none => false
  | some (.link q) => (t q).isSome
  | some _ => true

/-- The task directories of a workspace, workspace.py L23-25. -/
def taskNames : List Str :=
  ["PowerSpectrum".toList, "Angular".toList, "Derivative".toList, "Fisher".toList]

/-- `delta_cls_file`, workspace.py L27. -/
def deltaName : Str := "delta_cls.h5".toList

/-- `WorkSpace.createSymlink`, workspace.py L219-226: the source must exist, and `symlink_to`
refuses a destination where there is anything, even a dangling link.  The link is written relative
to the run directory (`src_relative_to_rundir`); the model keeps its absolute target. -/
def createSymlink (t : Tree) (src dst : Path) : Tree × Option Err :=
  if existsAt t src then
    match t dst with
    | some _ => (t, some .fileExists)
    | none => (write t dst (.link src), none)
  else (t, some .fileNotFound)

/-- The loop of `symlinkToExternalDirs`, workspace.py L206-217. -/
def linkAll (run : Path) (linkDelta : Bool) : Tree → List (Str × Path) → Tree × Option Err
  | t, [] => (t, none)
  | t, (key, ext) :: rest =>
    if existsAt t (run ++ [key]) then linkAll run linkDelta t rest
    else
      match createSymlink t ext (run ++ [key]) with
      | (t', some e) => (t', some e)
      | (t', none) =>
        if key = "Angular".toList ∧ linkDelta then
          match createSymlink t' (ext.dropLast ++ [deltaName]) (run ++ [deltaName]) with
          | (t'', some e) => (t'', some e)
          | (t'', none) => linkAll run linkDelta t'' rest
        else linkAll run linkDelta t' rest

/-- `WorkSpace.symlinkToExternalDirs`, workspace.py L201-217. -/
def linkExternal (run : Path) (linkDelta : Bool) (ext : List (Str × Path)) (t : Tree) :
    Tree × Option Err :=
  if ext.any (fun p => !taskNames.contains p.1) then (t, some .keyError)
  else linkAll run linkDelta t ext

/-- `mkdir(exist_ok=True)` of a path whose parent is there: nothing happens when it is a directory or
a link to one. For `seyfert_core.py` L50-62 (see `prepareDirs`). -/
def mkdirOk (t : Tree) (p : Path) : Tree × Option Err :=
  match t p with
  | none => (write t p .dir, none)
  | some .dir => (t, none)
  | some .file => (t, some .fileExists)
  | some (.link q) => if t q = some .dir then (t, none) else (t, some .fileExists)

/-- The directories made by `prepare_workspace`, seyfert_core.py L50-62: `pmm`, `cl` and `der` are the
options `powerspectrum_dir`, `angular_dir` and `derivative_dir`. -/
def prepareDirs (run : Path) (pmm cl der : Option Path) (t : Tree) : Tree × Option Err :=
  match (match pmm with
    | none => mkdirOk t (run ++ ["PowerSpectrum".toList])
    | some _ => (t, none)) with
  | (t', some e) => (t', some e)
  | (t', none) =>
    linkExternal run false
      ((cl.map (fun p => ("Angular".toList, p))).toList ++
        (der.map (fun p => ("Derivative".toList, p))).toList) t'

end Seyfert.Work
