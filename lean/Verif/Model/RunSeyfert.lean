import Verif.Model.OrchInputs
import Verif.Model.Runner

/-!
Model of the program `bin/run_seyfert`: its options, the forecasts it runs one after the other, and the command lines of
the batch jobs it submits, which are calls of the same program (`seyfert/main/seyfert_core.py` L186-235,
`seyfert/config/cmd_line.py`).

A path is the list of its components; the first component of an absolute path is empty. Symbolic links and `..` are left
out, as are the log of the program and the making of the directories. The options of `bsub` and its log files are in
`Verif.Model.Submit`, what a forecast does in `Verif.Model.Resume`.
-/

namespace Seyfert.RunS

open Orch (Pth pname stem)
open OrchIn (toPath)

/-- The value of an option. For `bin/run_seyfert` L71 (see `parse`). -/
inductive Val where
  | none
  | bool (b : Bool)
  | int (n : Int)
  | text (s : Str)
  | path (p : Pth)
  | paths (l : List Pth)
  deriving DecidableEq

/-- What an option takes: one path, number or text; at most one text (`nargs='?'`); at least one path (`nargs='+'`).
For `bin/run_seyfert` L20-36 (see `options`). -/
inductive Kind where
  | path
  | int
  | text
  | flag
  | paths
  deriving DecidableEq

/-- The options (`bin/run_seyfert` L20-36, `cmd_line.py` L141-151, L162-169, L188-224), in the order of the dictionary of
the arguments. -/
def options : List (Str × Kind) :=
  [("powerspectrum_config".toList, .path), ("angular_config".toList, .path), ("derivative_config".toList, .path),
   ("fisher_config".toList, .path), ("results_config".toList, .path), ("powerspectrum_dir".toList, .path),
   ("angular_dir".toList, .path), ("derivative_dir".toList, .path), ("fisher_dir".toList, .path),
   ("n_cores_per_job".toList, .int), ("memory".toList, .int), ("queue".toList, .text), ("execution".toList, .text),
   ("workdir".toList, .path), ("forecast_config".toList, .paths), ("input_data_dir".toList, .path),
   ("test_batch".toList, .flag), ("is_batch_job".toList, .flag)]

/-- The defaults: `cfg` is the directory of the configuration files of the installation, `data` that of its input data.
For `bin/run_seyfert` L39-68 (see `call`). -/
def defaults (cfg data : Pth) : Dict Str Val :=
  [("powerspectrum_config".toList, .path (cfg ++ ["power_spectrum_config.json".toList])),
   ("angular_config".toList, .path (cfg ++ ["angular_config.json".toList])),
   ("derivative_config".toList, .path (cfg ++ ["derivative_config.json".toList])),
   ("fisher_config".toList, .path (cfg ++ ["fisher_config.json".toList])),
   ("results_config".toList, .path (cfg ++ ["results_config.json".toList])),
   ("powerspectrum_dir".toList, .none), ("angular_dir".toList, .none), ("derivative_dir".toList, .none),
   ("fisher_dir".toList, .none), ("n_cores_per_job".toList, .int 1), ("memory".toList, .int 2048),
   ("queue".toList, .text "long".toList), ("execution".toList, .none), ("workdir".toList, .path []),
   ("forecast_config".toList, .none), ("input_data_dir".toList, .path data), ("test_batch".toList, .bool false),
   ("is_batch_job".toList, .bool false)]

/-- The exceptions of the functions modelled here, by their kinds (`seyfert_core.py` L186-235, `cmd_line.py`). -/
inductive Err where
  | usage
  | missing
  | badMode
  | keyError
  deriving DecidableEq

/-! ### The command line -/

/-- Whether `argparse` takes a word for a value: it does not begin with a dash, or is a dash alone or a negative whole
number. For `bin/run_seyfert` L71 (see `group`). -/
def isValue : Str → Bool
  | '-' :: c :: s => (c :: s).all isDigit
  | _ => true

/-- The values before the first option, and the options with the values which follow them.
For `bin/run_seyfert` L71 (see `parse`). -/
def group : List Str → List Str × List (Str × List Str)
  | [] => ([], [])
  | t :: ts => if isValue t then (t :: (group ts).1, (group ts).2) else ([], (t, (group ts).1) :: (group ts).2)

/-- `int(text)` for decimal digits with an optional minus; other spellings are left out.
For `seyfert_core.py` L186-235 (see `convert`). -/
def parseInt : Str → Option Int
  | '-' :: s => (parseNat s).map fun (n : Nat) => -(n : Int)
  | s => (parseNat s).map fun (n : Nat) => (n : Int)

/-- The value of an option from the words after it; superfluous words are refused. For `seyfert_core.py` L186-235 (see `Err`). -/
def convert : Kind → List Str → Except Err Val
  | .path, [t] => .ok (.path (toPath t))
  | .int, [t] => match parseInt t with
    | some n => .ok (.int n)
    | none => .error .usage
  | .text, [t] => .ok (.text t)
  | .flag, [] => .ok (.bool true)
  | .flag, [t] => .ok (.text t)
  | .paths, t :: ts => .ok (.paths ((t :: ts).map toPath))
  | _, _ => .error .usage

/-- Setting the options one after the other. Only the full long names are modelled: short names, abbreviations and
`--name=value` are refused here. For `bin/run_seyfert` L71 (see `parse`). -/
def assign (d : Dict Str Val) : List (Str × List Str) → Except Err (Dict Str Val)
  | [] => .ok d
  | (o, ts) :: gs =>
    match stripPrefix "--".toList o with
    | none => .error .usage
    | some k => match options.lookup k with
      | none => .error .usage
      | some kind => match convert kind ts with
        | .error e => .error e
        | .ok v => assign (PyDict.set d k v) gs

/-- `vars(parser.parse_args())` (`bin/run_seyfert` L71) on the words after the name of the program. -/
def parse (defs : Dict Str Val) (argv : List Str) : Except Err (Dict Str Val) :=
  let g := group argv
  if g.1 ≠ [] then .error .usage
  else match assign defs g.2 with
    | .error e => .error e
    | .ok d =>
      if "--execution".toList ∈ g.2.map (·.1) ∧ "--forecast_config".toList ∈ g.2.map (·.1) then .ok d else .error .usage

/-! ### Writing a command line -/

/-- `str(path)`. For `seyfert_core.py` L188 (see `Val.str`). -/
def pathText (p : Pth) : Str :=
  if p = [] then ".".toList else if p = [[]] then "/".toList else joinStr "/".toList p

/-- `str(n)`. For `seyfert_core.py` L188 (see `Val.str`). -/
def intText : Int → Str
  | .ofNat n => decStr n
  | .negSucc n => '-' :: decStr (n + 1)

/-- `str(value)`; the quotes in a list of paths are simplified. For `seyfert_core.py` L188 (see `item`). -/
def Val.str : Val → Str
  | .none => "None".toList
  | .bool b => if b then "True".toList else "False".toList
  | .int n => intText n
  | .text s => s
  | .path p => pathText p
  | .paths l => "[".toList ++ joinStr ", ".toList (l.map fun p => "PosixPath('".toList ++ pathText p ++ "')".toList) ++ "]".toList

/-- Truth value. For `seyfert_core.py` L194-212 (see `forecastArgs`). -/
def Val.truthy : Val → Bool
  | .none => false
  | .bool b => b
  | .int n => decide (n ≠ 0)
  | .text s => decide (s ≠ [])
  | .path _ => true
  | .paths l => decide (l ≠ [])

/-- One option of a command line (`seyfert_core.py` L188). -/
def item (p : Str × Val) : Option Str :=
  if p.2 = .none then none else some ("--".toList ++ p.1 ++ " ".toList ++ p.2.str)

/-- `get_interactive_run_command` (L186-191). -/
def command (args : Dict Str Val) : Str :=
  "run_seyfert ".toList ++ joinStr " ".toList
    ((PyDict.set args "execution".toList (.text "interactive".toList)).filterMap item)

/-- The characters the shell leaves alone in a word. For L233-234 (see `shell`). -/
def safeChar (c : Char) : Bool :=
  isLower c || isUpper c || isDigit c || decide (c ∈ "_-./:,+@%=".toList)

/-- What the shell, and the batch system, make of a command line: its words. `none` stands for a text with a character
which may be special for the shell. For L233-234 (see `runJob`). -/
def shell (s : Str) : Option (List Str) :=
  if s.all (fun c => decide (c = ' ') || safeChar c) then some ((splitChar ' ' s).filter fun w => decide (w ≠ [])) else none

/-! ### The program -/

/-- What the program finds around it (`seyfert_core.py` L186-235). -/
structure World where
  /-- Current directory. -/
  cwd : Pth
  /-- Directory of the configuration files of the installation. -/
  cfg : Pth
  /-- Directory of its input data. -/
  data : Pth
  version : Str
  /-- Contents of files. -/
  text : Pth → Option Str

/-- `path.resolve()`. For `seyfert_core.py` L194-212 (see `base`). -/
def resolve (cwd p : Pth) : Pth :=
  match p with
  | [] :: _ => p
  | _ => cwd ++ p

/-- Order of texts, by characters. For `bin/run_seyfert` L51-54 (see `lePath`). -/
def leStr : Str → Str → Bool
  | [], _ => true
  | _ :: _, [] => false
  | a :: s, b :: t => if a = b then leStr s t else decide (a.toNat < b.toNat)

/-- Order of paths, by components. For `bin/run_seyfert` L51-54 (see `sortAll`). -/
def lePath : Pth → Pth → Bool
  | [], _ => true
  | _ :: _, [] => false
  | a :: s, b :: t => if a = b then lePath s t else leStr a b

/-- The order in which the forecasts are run (`bin/run_seyfert` L51-54): by number of bins if all names tell it, by path
otherwise. -/
def sortAll (fs : List Pth) : List Pth :=
  if fs.all (fun f => (Orch.binsOf (pname f)).isSome) then Orch.sortConfigs fs
  else fs.insertionSort (fun a b => lePath a b = true)

/-- The forecast configurations (L50-54). -/
def configsOf (w : World) (args : Dict Str Val) : Except Err (List Pth) :=
  match args.lookup "forecast_config".toList with
  | some (.paths l) => match OrchIn.pathsOf w.text l with
    | .ok cs => .ok (sortAll cs)
    | .error _ => .error .missing
  | _ => .error .keyError

/-- The working directory given, resolved. For `seyfert_core.py` L194-212 (see `forecastArgs`). -/
def base (w : World) (args : Dict Str Val) : Except Err Pth :=
  match args.lookup "workdir".toList with
  | some (.path p) => .ok (resolve w.cwd p)
  | _ => .error .keyError

/-- The arguments of a forecast run by the program itself (`seyfert_core.py` L194-212). -/
def forecastArgs (w : World) (args : Dict Str Val) (now : Names.DateTime) (c : Pth) : Except Err (Dict Str Val) :=
  match base w args, args.lookup "is_batch_job".toList with
  | .ok b, some f =>
    .ok (PyDict.set (PyDict.set args "forecast_config".toList (.path c)) "workdir".toList
      (.path (Runner.forecastDir b f.truthy w.version (stem (pname c)) now)))
  | _, _ => .error .keyError

/-- The arguments written on the command line of a job (L215-231). -/
def jobArgs (w : World) (args : Dict Str Val) (now : Names.DateTime) (c : Pth) : Except Err (Dict Str Val) :=
  match base w args with
  | .ok b =>
    .ok (PyDict.set (PyDict.set (PyDict.set args "forecast_config".toList (.path c)) "workdir".toList
      (.path (Runner.forecastDir b false w.version (stem (pname c)) now))) "is_batch_job".toList (.bool true))
  | .error e => .error e

/-- Doing one thing after the other for all configurations: `now n` is the time when the one after `n` others is
begun. For `bin/run_seyfert` L39-68 (see `main`). -/
def eachFrom {A : Type} (f : Names.DateTime → Pth → Except Err A) (now : Nat → Names.DateTime) :
    Nat → List Pth → Except Err (List A)
  | _, [] => .ok []
  | n, c :: cs => match f (now n) c with
    | .error e => .error e
    | .ok a => match eachFrom f now (n + 1) cs with
      | .error e => .error e
      | .ok l => .ok (a :: l)

/-- What the program did: the arguments of the forecasts it ran (`do_forecast`), the commands it submitted, or the
commands it only showed (`test=args_dict['test_batch']`, L233-234). -/
inductive Outcome where
  | ran (l : List (Dict Str Val))
  | submitted (l : List Str)
  | shown (l : List Str)
  | nothing
  deriving DecidableEq

/-- `main` (`bin/run_seyfert` L39-68). Forecasts and submissions that fail are left out. -/
def main (w : World) (args : Dict Str Val) (now : Nat → Names.DateTime) : Except Err Outcome :=
  match configsOf w args with
  | .error e => .error e
  | .ok cs =>
    match args.lookup "execution".toList with
    | some (.text m) =>
      if m = "interactive".toList then
        match eachFrom (forecastArgs w args) now 0 cs with
        | .ok l => .ok (.ran l)
        | .error e => .error e
      else if m = "batch".toList then
        match eachFrom (fun t c => (jobArgs w args t c).map command) now 0 cs with
        | .ok l =>
          if ((args.lookup "test_batch".toList).getD .none).truthy then .ok (.shown l) else .ok (.submitted l)
        | .error e => .error e
      else if m = "no".toList then .ok .nothing
      else .error .badMode
    | _ => .error .badMode

/-- Calling the program with the words `argv`. For `bin/run_seyfert` L39-68 (see `main`). -/
def call (w : World) (argv : List Str) (now : Nat → Names.DateTime) : Except Err Outcome :=
  match parse (defaults w.cfg w.data) argv with
  | .error e => .error e
  | .ok args => main w args now

/-- A submitted command, run by the batch system in the directory it was submitted from. For L233-234 (see `Outcome`). -/
def runJob (w : World) (cmd : Str) (now : Nat → Names.DateTime) : Option (Except Err Outcome) :=
  match shell cmd with
  | some (_ :: argv) => some (call w argv now)
  | _ => none

end Seyfert.RunS
