import Verif.Model.Orchestration
import Verif.Model.Boltzmann

/-!
Model of what the program `bin/orchestrate_run` does before and around the runs of `Verif.Model.Orchestration`: making
the tree of configuration files, reading it, finding the power spectra, the lists of paths of the command line, and the
runs on existing directories (`seyfert/main/orchestration.py` L19-87 and L217-239, `seyfert/config/cmd_line.py`
L227-238).

A path is the list of its components, resolved. The configuration directory is a dictionary of nodes, its
sub-directories are dictionaries of files: directories inside the sub-directories are left out.
-/

namespace Seyfert.OrchIn

open Orch (Pth pname)

variable {C : Type}

/-- An entry of the configuration directory. For L31-36 (see `Tree`). -/
inductive Node (C : Type) where
  | file (c : C)
  | dir (d : Dict Str C)

/-- The configuration directory: its entries, in the order in which the system lists them. For L31-36 (see `addDir`). -/
abbrev Tree (C : Type) := Dict Str (Node C)

/-- The exceptions of the functions modelled here, by their kinds (`orchestration.py` L19-87, L217-239). -/
inductive Err where
  | exists_
  | missing
  | sameFile
  | isDir
  | empty
  | badJson
  | noPmms
  | badPmms
  | noTask
  | noExecution
  | refused
  deriving DecidableEq

/-- The external directories: a path or `None` for each name (`orchestration.py` L38-45, L61). -/
abbrev Ext := Dict Str (Option Pth)

/-- The configuration files given on the command line (`forecast_task_configs_options`, `cmd_line.py` L186-205). -/
structure Given where
  pmm : Option Pth
  cl : Option Pth
  der : Option Pth
  fish : Option Pth
  res : Option Pth

/-- `config_files` (L23-30). -/
def wanted (g : Given) : List (Str × Option Pth) :=
  [("fcfg".toList, none), ("pmm_cfg".toList, g.pmm), ("cl_cfg".toList, g.cl), ("der_cfg".toList, g.der),
    ("fish_cfg".toList, g.fish), ("res_cfg".toList, g.res)]

/-- The content of the file at a path: inside the tree at `base`, or elsewhere (`outside`). For L31-36 (see `addDir`). -/
def readAt (outside : Pth → Option C) (base : Pth) (t : Tree C) (p : Pth) : Option C :=
  match stripPrefix' base p with
  | some [a, b] => match t.lookup a with
    | some (.dir s) => s.lookup b
    | _ => none
  | some [a] => match t.lookup a with
    | some (.file c) => some c
    | _ => none
  | some _ => none
  | none => outside p
where
  /-- What is left of a path below a directory. -/
  stripPrefix' : Pth → Pth → Option Pth
    | [], p => some p
    | _ :: _, [] => none
    | a :: b, x :: p => if a = x then stripPrefix' b p else none

/-- One turn of the loop (L31-36): `subdir.mkdir(exist_ok=True)`, then `shutil.copy`. The tree after it, and the
exception. -/
def addDir (outside : Pth → Option C) (base : Pth) (t : Tree C) (e : Str × Option Pth) : Tree C × Option Err :=
  match t.lookup e.1 with
  | some (.file _) => (t, some .exists_)
  | some (.dir s) => copyInto s
  | none => copyInto []
where
  /-- `shutil.copy(cfg_file, subdir / cfg_file.name)` into the directory with the files `s`. -/
  copyInto (s : Dict Str C) : Tree C × Option Err :=
    let t' := PyDict.set t e.1 (.dir s)
    match e.2 with
    | none => (t', none)
    | some p => match readAt outside base t' p with
      | none => (t', some .missing)
      | some c =>
        if p = base ++ [e.1, pname p] then (t', some .sameFile)
        else (PyDict.set t' e.1 (.dir (PyDict.set s (pname p) c)), none)

/-- The loop (L31-36). -/
def addDirs (outside : Pth → Option C) (base : Pth) : Tree C → List (Str × Option Pth) → Tree C × Option Err
  | t, [] => (t, none)
  | t, e :: es => match addDir outside base t e with
    | (t', some x) => (t', some x)
    | (t', none) => addDirs outside base t' es

/-- `ext_dirs` (L38-42). -/
def noExt : Ext := [("pmm_dir".toList, none), ("cl_dir".toList, none), ("der_dir".toList, none)]

/-- Writing `external_dirs.json` (L44-45). -/
def writeExt (dump : Ext → C) (t : Tree C) : Tree C × Option Err :=
  match t.lookup "external_dirs.json".toList with
  | some (.dir _) => (t, some .isDir)
  | _ => (PyDict.set t "external_dirs.json".toList (.file (dump noExt)), none)

/-- `create_config_dir_tree` (L19-45), when the configuration directory is no file: `t` is what it holds, empty when it
is made. -/
def createTree (outside : Pth → Option C) (dump : Ext → C) (base : Pth) (g : Given) (t : Tree C) :
    Tree C × Option Err :=
  match addDirs outside base t (wanted g) with
  | (t', some x) => (t', some x)
  | (t', none) => writeExt dump t'

/-- `name.endswith(suffix)`. For L50-58 (see `readDir`). -/
def endsWith (suffix s : Str) : Bool := (stripPrefix suffix.reverse s.reverse).isSome

/-- A value of the dictionary of configurations. For L50-58 (see `readDir`). -/
inductive Val where
  | many (l : List Pth)
  | one (p : Pth)
  | ext (e : Ext)
  deriving DecidableEq

/-- The branches of `get_configs` for one sub-directory (L50-58). -/
def readDir (base : Pth) (name : Str) (s : Dict Str C) : Except Err Val :=
  if name = "fcfg".toList ∨ name = "fish_cfg".toList ∨ name = "cl_cfg".toList then
    .ok (.many ((s.filter fun f => endsWith ".json".toList f.1).map fun f => base ++ [name, f.1]))
  else match s with
    | [] => .error .empty
    | f :: _ => .ok (.one (base ++ [name, f.1]))

/-- The loop over the sub-directories (L50-58). -/
def readDirs (base : Pth) : Tree C → Dict Str Val → Except Err (Dict Str Val)
  | [], acc => .ok acc
  | (_, .file _) :: t, acc => readDirs base t acc
  | (n, .dir s) :: t, acc => match readDir base n s with
    | .error e => .error e
    | .ok v => readDirs base t (PyDict.set acc n v)

/-- The external directories (L60-61). -/
def readExt (parse : C → Option Ext) (t : Tree C) : Except Err Ext :=
  match t.lookup "external_dirs.json".toList with
  | none => .error .missing
  | some (.dir _) => .error .isDir
  | some (.file c) => match parse c with
    | none => .error .badJson
    | some e => .ok e

/-- `get_configs` (L48-63). -/
def getConfigs (parse : C → Option Ext) (base : Pth) (t : Tree C) : Except Err (Dict Str Val) :=
  match readDirs base t [] with
  | .error e => .error e
  | .ok d => match readExt parse t with
    | .error e => .error e
    | .ok x => .ok (PyDict.set d "ext_dirs".toList (.ext x))

/-- What is at a path (`orchestration.py` L217-239). -/
inductive Kind where
  | file
  | dir
  | other
  deriving DecidableEq

/-- `Path(text)`: empty and `.` components fall away; the first component of an absolute path is empty.
For L66-87 (see `getPmmDirs`). -/
def toPath (s : Str) : Pth :=
  match s with
  | '/' :: _ => [] :: ((splitChar '/' s).filter fun p => decide (p ≠ [] ∧ p ≠ ['.']))
  | _ => (splitChar '/' s).filter fun p => decide (p ≠ [] ∧ p ≠ ['.'])

/-- `get_pmm_dirs` (L66-87): `kind` tells what is at a path, `text` the content of a file. -/
def getPmmDirs (kind : Pth → Option Kind) (text : Pth → Str) (angular : Bool) (pmms : Option Pth) :
    Except Err (List (Option Pth)) :=
  if angular then
    match pmms with
    | none => .error .noPmms
    | some p => match kind p with
      | none => .error .missing
      | some .dir => .ok [some p]
      | some .file =>
        if endsWith "txt".toList (pname p) then
          let dirs := (Boltzmann.splitLines (text p)).map toPath
          if dirs.all (fun d => (kind d).isSome) then .ok (dirs.map some) else .error .missing
        else .error .badPmms
      | some .other => .error .badPmms
  else .ok [none]

/-- `Path(path).suffix`: from the last dot, unless that is the first or the last character of the name.
For `cmd_line.py` L227-238 (see `pathsOf`). -/
def suffix (name : Str) : Str :=
  match Orch.lastDot name with
  | some i => if 0 < i ∧ i < name.length - 1 then name.drop i else []
  | none => []

/-- The paths of one list file (`cmd_line.py` L232-233). -/
def listed (text : Str) : List Pth := (Boltzmann.splitLines text).map fun l => toPath (Boltzmann.strip l)

/-- Reading the list files one after the other. For `cmd_line.py` L227-238 (see `pathsOf`). -/
def readLists (text : Pth → Option Str) : List Pth → Except Err (List Pth)
  | [] => .ok []
  | p :: ps => match text p with
    | none => .error .missing
    | some t => match readLists text ps with
      | .error e => .error e
      | .ok l => .ok (listed t ++ l)

/-- `get_paths_from_files_list` (`cmd_line.py` L227-238). -/
def pathsOf (text : Pth → Option Str) (ps : List Pth) : Except Err (List Pth) :=
  if ps.all (fun p => decide (suffix (pname p) = ".txt".toList)) then readLists text ps else .ok ps

/-- The entries of the dictionary which `do_multiple_new_seyfert_runs` takes (L99-101, L141-147); `none` is a
`KeyError`, or an exception for a value of the wrong sort. With no empty list and at least one power spectra entry they
are all taken before anything is launched. -/
def toConfigs (d : Dict Str Val) : Option Orch.Configs :=
  match d.lookup "fcfg".toList, d.lookup "fish_cfg".toList, d.lookup "cl_cfg".toList, d.lookup "pmm_cfg".toList,
    d.lookup "der_cfg".toList, d.lookup "res_cfg".toList, d.lookup "ext_dirs".toList with
  | some (.many f), some (.many g), some (.many c), some (.one p), some (.one q), some (.one r), some (.ext e) =>
    some ⟨f, g, c, p, q, r, e⟩
  | _, _, _, _, _, _, _ => none

/-- The arguments of a run on an existing directory (L224-237); `inputs` is the content of its `input_files_dict.json`,
`none` when it is not there or an entry is missing. The entries are relative paths. -/
def existingKeyvals (a : Orch.Args) (inputDir rundir : Pth) (inputs : Dict Str Pth) : Option Orch.Keyvals :=
  match inputs.lookup "forecast".toList, inputs.lookup "PowerSpectrum".toList, inputs.lookup "Angular".toList,
    inputs.lookup "Derivative".toList, inputs.lookup "Fisher".toList with
  | some f, some p, some c, some d, some h =>
    some (PyDict.update [("rd".toList, rundir), ("i".toList, inputDir), ("fcfg".toList, rundir ++ f),
      ("pmm_cfg".toList, rundir ++ p), ("cl_cfg".toList, rundir ++ c), ("der_cfg".toList, rundir ++ d),
      ("fish_cfg".toList, rundir ++ h)] (Orch.cliItems a))
  | _, _, _, _, _ => none

/-- `do_multiple_seyfert_runs_on_existing_rundirs` (L217-221): the runs launched until an exception, and whether all
were. -/
def onExisting (a : Orch.Args) (inputDir : Pth) (inputs : Pth → Option (Dict Str Pth)) :
    List Pth → List Orch.Keyvals × Bool
  | [] => ([], true)
  | r :: rs => match (inputs r).bind (existingKeyvals a inputDir r) with
    | none => ([], false)
    | some k => let (l, b) := onExisting a inputDir inputs rs; (k :: l, b)

/-- The files the program sees. For `bin/orchestrate_run` L82-86 (see `newRuns`). -/
structure World (C : Type) where
  outside : Pth → Option C
  kind : Pth → Option Kind
  text : Pth → Option Str
  inputs : Pth → Option (Dict Str Pth)
  tree : Option (Tree C)

/-- The command line of `orchestrate_run` (`bin/orchestrate_run` L17-46). The input data directory it
also takes is never used. -/
structure Cli where
  args : Orch.Args
  execution : Option Str
  create : Bool
  given : Given
  pmms : Option Pth
  fcfgs : Option (List Pth)
  rundirs : Option (List Pth)

/-- What the program did. For `bin/orchestrate_run` L82-86 (see `newRuns`). -/
inductive Outcome (C : Type) where
  | error (e : Err)
  | created (t : Tree C) (e : Option Err)
  | launched (l : List Orch.Launch) (complete : Bool)
  | resumed (l : List Orch.Keyvals) (complete : Bool)

/-- The new runs (`bin/orchestrate_run` L82-86). -/
def newRuns (w : World C) (c : Cli) (inputDir : Pth) (configs : Dict Str Val) (pmmDirs : List (Option Pth)) :
    Outcome C :=
  let lists : Except Err (Dict Str Val) := match c.fcfgs with
    | none => .ok configs
    | some fs => match pathsOf w.text fs with
      | .error e => .error e
      | .ok l => .ok (PyDict.set configs "fcfg".toList (.many l))
  match lists with
  | .error e => .error e
  | .ok d => match toConfigs d with
    | none => .error .refused
    | some cs => match Orch.multiple c.args cs pmmDirs inputDir with
      | none => .error .refused
      | some (l, b) => .launched l b

/-- The runs on the directories given (`bin/orchestrate_run` L78-80). -/
def resume (w : World C) (c : Cli) (inputDir : Pth) (rds : List Pth) : Outcome C :=
  match pathsOf w.text rds with
  | .error e => .error e
  | .ok l => let (k, b) := onExisting c.args inputDir w.inputs l; .resumed k b

/-- Everything but the making of the tree (`bin/orchestrate_run` L74-86). -/
def work (parse : C → Option Ext) (base inputDir : Pth) (w : World C) (c : Cli) : Outcome C :=
  match w.tree with
  | none => .error .missing
  | some t => match getConfigs parse base t with
    | .error e => .error e
    | .ok configs => match getPmmDirs w.kind (fun p => (w.text p).getD []) c.args.angular c.pmms with
      | .error e => .error e
      | .ok pmmDirs => match c.rundirs with
        | some rds => resume w c inputDir rds
        | none => newRuns w c inputDir configs pmmDirs

/-- `main` (`bin/orchestrate_run` L49-86) up to the list of run directories at the end. -/
def main (parse : C → Option Ext) (dump : Ext → C) (base inputDir : Pth) (w : World C) (c : Cli) : Outcome C :=
  if c.create then
    let (t, e) := createTree w.outside dump base c.given (w.tree.getD []); .created t e
  else if !(c.args.angular || c.args.derivative || c.args.fisher) then .error .noTask
  else match c.execution with
    | none => .error .noExecution
    | some _ => work parse base inputDir w c

end Seyfert.OrchIn
