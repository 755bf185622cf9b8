import Verif.Model.Names
import Verif.Model.PyDict

/-!
Model of `seyfert/main/orchestration.py`: launching one run per combination of configurations and collecting the run
directories. A path is the list of its components. What a launched run does is modelled only as far as the name of its
directory (`Names.runDirName`).
-/

namespace Seyfert.Orch

/-- A path by its components (`orchestration.py` uses `pathlib.Path`).
For `seyfert/main/orchestration.py` L90-93 (see `sortConfigs`). -/
abbrev Pth := List Str

/-- `Path.name`. For `seyfert/main/orchestration.py` L90-93 (see `sortConfigs`). -/
def pname (p : Pth) : Str := p.getLast?.getD []

/-- `Path.parent.name`. For `seyfert/main/orchestration.py` L180-185 (see `pmmPart`). -/
def parentName (p : Pth) : Str := pname p.dropLast

/-- `Path.stem` of a name: up to the last dot, unless that is the first or the last character. The argument is the
position of the last dot. For `orchestration.py` L168-176 (see `stem`). -/
def lastDot : Str → Option Nat
  | [] => none
  | c :: s => match lastDot s with
    | some i => some (i + 1)
    | none => if c = '.' then some 0 else none

/-- `Path.stem` of a name (`orchestration.py` L168-176). -/
def stem (name : Str) : Str :=
  match lastDot name with
  | some i => if 0 < i ∧ i < name.length - 1 then name.take i else name
  | none => name

/-- `([0-9]+)_sp_bins` searched in a name (L91): the number of the first match. The digits are greedy, and what follows
them is no digit, so at each position only the whole run of digits has to be tried. -/
def binsAt (s : Str) : Option Nat :=
  match Names.spanChars isDigit s with
  | ([], _) => none
  | (c :: d, r) => (stripPrefix "_sp_bins".toList r).map fun _ => decVal (c :: d)

/-- The search of L91 of `orchestration.py` at every position of the name. -/
def binsOf : Str → Option Nat
  | [] => none
  | c :: s => (binsAt (c :: s)).or (binsOf s)

/-- `sort_forecast_config_files` (L90-93); `list.sort` is stable, as is the insertion sort used here. -/
def sortConfigs (fs : List Pth) : List Pth :=
  if fs.all (fun f => (binsOf (pname f)).isSome) then
    fs.insertionSort (fun a b => (binsOf (pname a)).getD 0 ≤ (binsOf (pname b)).getD 0)
  else fs

/-- The command line arguments used: the flags and the options handed on (L242-248). -/
structure Args where
  angular : Bool
  derivative : Bool
  fisher : Bool
  ex : Str
  queue : Str
  cores : Str
  memory : Str
  ini : Option Pth
  flags : List Str

/-- The files found in the tree of configurations (`orchestration.py` L50-64). -/
structure Configs where
  fcfg : List Pth
  fish : List Pth
  cl : List Pth
  pmm : Pth
  der : Pth
  res : Pth
  ext : Dict Str (Option Pth)

/-- The paths handed to a run by their option (`orchestration.py` L163-203). -/
abbrev Keyvals := Dict Str Pth

/-- A combination: forecast, Fisher and angular configuration and power spectra directory.
For `seyfert/main/orchestration.py` L127-130 (see `combos`). -/
structure Combo where
  fcfg : Pth
  fish : Pth
  cl : Pth
  pmm : Option Pth
  deriving DecidableEq

/-- The nested loops (L127-130). -/
def combos (fcfgs fish cl : List Pth) (pmms : List (Option Pth)) : List Combo :=
  fcfgs.flatMap fun f => fish.flatMap fun g => cl.flatMap fun c => pmms.map fun p => ⟨f, g, c, p⟩

/-- `update_key_val_args_from_cli_args` (L242-248). -/
def cliItems (a : Args) : Keyvals :=
  [("ex".toList, [a.ex]), ("q".toList, [a.queue]), ("ncj".toList, [a.cores]), ("mem".toList, [a.memory])] ++
    (match a.ini with
     | some p => [("ini".toList, p)]
     | none => [])

/-- The arguments of one run (L135-147). -/
def keyvals (a : Args) (c : Configs) (m : Combo) : Keyvals :=
  let k0 : Keyvals := [("fcfg".toList, m.fcfg), ("cl_cfg".toList, m.cl), ("fish_cfg".toList, m.fish)]
  let k1 := PyDict.update k0 (cliItems a)
  let k2 := match m.pmm with
    | some p => PyDict.set k1 "pmm_dir".toList p
    | none => k1
  let k3 := PyDict.update k2 [("pmm_cfg".toList, c.pmm), ("der_cfg".toList, c.der), ("res_cfg".toList, c.res)]
  PyDict.update k3 (c.ext.filterMap fun e => e.2.map fun p => (e.1, p))

/-- What is appended for the power spectra (L180-185); `none` is the exception of `split_run_id`. -/
def pmmPart (k : Keyvals) : Option Str :=
  match k.lookup "pmm_dir".toList with
  | none => some []
  | some p => (Names.splitRunId (if pname p = "PowerSpectrum".toList then parentName p else pname p)).map fun q =>
      '_' :: q.1

/-- The run id (L167-185). -/
def runId (useFish useCl : Bool) (k : Keyvals) : Option Str :=
  (Names.splitRunId (stem (pname ((k.lookup "fcfg".toList).getD [])))).bind fun q =>
    (pmmPart k).map fun r =>
      q.1 ++ (if useFish then '_' :: stem (pname ((k.lookup "fish_cfg".toList).getD [])) else []) ++
        (if useCl then '_' :: stem (pname ((k.lookup "cl_cfg".toList).getD [])) else []) ++ r

/-- A run which is launched (`orchestration.py` L163-203). -/
structure Launch where
  id : Str
  keyvals : Keyvals
  deriving DecidableEq

/-- `do_new_seyfert_run` (L163-203): `none` is an exception, before anything is launched. -/
def newRun (a : Args) (c : Configs) (useFish useCl : Bool) (inputDir : Pth) (m : Combo) : Option Launch :=
  (runId useFish useCl (keyvals a c m)).map fun i =>
    ⟨i, PyDict.set (PyDict.set (keyvals a c m) "id".toList [i]) "i".toList inputDir⟩

/-- The runs one after the other, until an exception; the launches made, and whether all were.
For `seyfert/main/orchestration.py` L96-160 (see `multiple`). -/
def runAll (f : Combo → Option Launch) : List Combo → List Launch × Bool
  | [] => ([], true)
  | m :: ms => match f m with
    | none => ([], false)
    | some l => (l :: (runAll f ms).1, (runAll f ms).2)

/-- `do_multiple_new_seyfert_runs` (L96-160): `none` when refused at the beginning. -/
def multiple (a : Args) (c : Configs) (pmms : List (Option Pth)) (inputDir : Pth) : Option (List Launch × Bool) :=
  if c.fcfg = [] then none
  else if pmms = [] ∧ a.angular then none
  else if c.fish = [] then none
  else if c.cl = [] then none
  else some (runAll (newRun a c (decide (c.fish.length > 1)) (decide (c.cl.length > 1)) inputDir)
    (combos (sortConfigs c.fcfg) c.fish c.cl pmms))

/-- `build_seyfert_cmd` (L206-214). -/
def command (a : Args) (k : Keyvals) : Str :=
  "job_submitter ".toList ++
    joinStr " ".toList ((if a.angular then ["--angular".toList] else []) ++
      (if a.derivative then ["--derivative".toList] else []) ++ (if a.fisher then ["--fisher".toList] else [])) ++
    " ".toList ++ joinStr " ".toList (k.map fun p => '-' :: p.1 ++ ' ' :: joinStr "/".toList p.2) ++
    " ".toList ++ joinStr " ".toList (a.flags.map fun f => "--".toList ++ f)

/-- `collect_rundirs` (L251-258) on the entries of the working directory: names, and whether they are directories. -/
def collect (listing : List (Str × Bool)) (ids : List Str) : List Str :=
  (listing.filter fun e => e.2 && ids.any fun i => (stripPrefix i e.1).isSome).map (·.1)

/-- `convert_keyval_params_type` (`seyfert/utils/general_utils.py` L47-58) on the run id given to the launched program,
as it then appears in the name of the directory. -/
def cliText (s : Str) : Str :=
  if s = "True".toList ∨ s = "true".toList then "True".toList
  else if s = "False".toList ∨ s = "false".toList then "False".toList
  else if s ≠ [] ∧ s.all isDigit then decStr (decVal s)
  else s

/-- The directory of a launched run. For `seyfert/utils/general_utils.py` L47-58 (see `cliText`). -/
def dirOf (version : Str) (t : Names.DateTime) (id : Str) : Str := Names.runDirName (cliText id) version t

end Seyfert.Orch
