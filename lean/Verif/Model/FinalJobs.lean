import Verif.Model.Cli

/-!
Model of the program `bin/evaluate_final_results`: its options, the directories it goes through, the batch jobs it submits,
which are calls of the same program, and how a forecast calls it (`seyfert/main/task_runners.py` L579-594).

The result of the program is the list of calls of `create_final_results` it makes (modelled in `Verif.Model.Results`), or
the list of jobs. Left out are the log file, what `bsub` does with its options (`Verif.Model.Submit`), and calls which
raise.
-/

namespace Seyfert.Eval

open Orch (Pth pname)
open OrchIn (toPath pathsOf)
open RunS (Val pathText resolve shell)

/-- The options (`bin/evaluate_final_results` L14-37, `seyfert/config/cmd_line.py` L141-151, L162-169), in the order of
`vars(args)`. -/
def opts : List Cli.Opt :=
  [⟨["--n_cores_per_job".toList, "-ncj".toList], "n_cores_per_job".toList, .int, .int 1, false⟩,
   ⟨["--memory".toList, "-mem".toList], "memory".toList, .int, .int 2048, false⟩,
   ⟨["--queue".toList, "-q".toList], "queue".toList, .text, .text "long".toList, false⟩,
   ⟨["--execution".toList, "-ex".toList], "execution".toList, .text, .none, true⟩,
   ⟨["--workdir".toList, "-wd".toList], "workdir".toList, .path, .path [], false⟩,
   ⟨["--input_rundirs".toList, "-i".toList], "input_rundirs".toList, .paths, .none, true⟩,
   ⟨["--outdir_name".toList, "-o".toList], "outdir_name".toList, .text, .text "final_results".toList, false⟩,
   ⟨["--silent".toList], "silent".toList, .bool, .bool false, false⟩,
   ⟨["--test".toList, "-t".toList], "test".toList, .bool, .bool false, false⟩,
   ⟨["--overwrite".toList, "-ow".toList], "overwrite".toList, .bool, .bool false, false⟩,
   ⟨["--dont_wait_for_batch".toList, "-nowait".toList], "dont_wait_for_batch".toList, .bool, .bool false, false⟩]

/-- A call of `create_final_results`. For `bin/evaluate_final_results` L36-76 (see `Outcome`). -/
structure Create where
  rundir : Pth
  outdir : Str
  overwrite : Bool
  deriving DecidableEq

/-- A batch job: its command and the directory of its logs. For `bin/evaluate_final_results` L36-76 (see `Outcome`). -/
structure Job where
  command : Str
  logs : Pth
  deriving DecidableEq

/-- What the program does (`bin/evaluate_final_results` L36-76). -/
inductive Outcome where
  | created (l : List Create)
  | submitted (l : List Job)
  /-- Commands which are only shown (`test=True`). -/
  | shown (l : List Job)
  | nothing
  deriving DecidableEq

/-- `--key value` for an argument (L52). -/
def item (p : Str × Val) : Str := "--".toList ++ p.1 ++ " ".toList ++ p.2.str

/-- The arguments of the job of a run directory (L48, L51). -/
def jobArgs (args : Dict Str Val) (rundir : Pth) : Dict Str Val :=
  PyDict.set (PyDict.set args "execution".toList (.text "interactive".toList)) "input_rundirs".toList
    (.text (pathText rundir))

/-- The command of the job of a run directory (L52-53). -/
def command (args : Dict Str Val) (rundir : Pth) : Str :=
  "evaluate_final_results ".toList ++ joinStr " ".toList ((jobArgs args rundir).map item)

/-- The jobs of `execute_in_batch` (L50-57). -/
def jobs (args : Dict Str Val) (outdir : Str) (rundirs : List Pth) : List Job :=
  rundirs.map fun r => ⟨command args r, resolve r (toPath outdir) ++ ["logs".toList]⟩

/-- `main` (L64-86); `none` is an exception. Waiting for no jobs at all raises (`bsub_utils.py` L146). -/
def main (text : Pth → Option Str) (args : Dict Str Val) : Option Outcome :=
  match args.lookup "input_rundirs".toList, args.lookup "execution".toList, args.lookup "outdir_name".toList,
    args.lookup "overwrite".toList, args.lookup "test".toList, args.lookup "dont_wait_for_batch".toList with
  | some (.paths ps), some (.text ex), some (.text out), some (.bool ow), some (.bool test), some (.bool nowait) =>
    match pathsOf text ps with
    | .error _ => none
    | .ok rs =>
      if ex = "interactive".toList then some (.created (rs.map fun r => ⟨r, out, ow⟩))
      else if ex = "batch".toList then
        if rs = [] ∧ nowait = false then none
        else if test then some (.shown (jobs args out rs)) else some (.submitted (jobs args out rs))
      else if ex = "no".toList then some .nothing
      else none
  | _, _, _, _, _, _ => none

/-- The program, called with the words after its name. For `bsub_utils.py` L146 (see `main`). -/
def program (text : Pth → Option Str) (argv : List Str) : Option Outcome :=
  (Cli.parse opts argv).bind (main text)

/-- What comes of a command given to the shell; `none` if the command fails.
For `task_runners.py` L579-594 (see `evaluateFinal`). -/
def run (text : Pth → Option Str) (cmd : Str) : Option Outcome :=
  match shell cmd with
  | some (w :: ws) => if w = "evaluate_final_results".toList then program text ws else none
  | _ => none

/-! ### Call by a forecast -/

/-- The command of a forecast (`task_runners.py` L589-593); `execution` and `overwrite` are its own options. -/
def forecastCommand (execution : Str) (rundir : Pth) (overwrite : Val) : Str :=
  "evaluate_final_results ".toList ++ joinStr " ".toList
    (([("-ex".toList, execution), ("-i".toList, pathText rundir), ("-q".toList, "long".toList), ("-ncj".toList, "1".toList),
      ("-mem".toList, "3000".toList), ("-ow".toList, overwrite.str), ("-wd".toList, pathText rundir)] :
      List (Str × Str)).map fun p => p.1 ++ " ".toList ++ p.2)

/-- What `evaluateFinalResults` does (L579-594): whether it removes the directory of the results, and what the program it
calls does. The status of the program is not looked at. -/
structure Evaluation where
  removed : Bool
  outcome : Option Outcome
  deriving DecidableEq

/-- `evaluateFinalResults` (`task_runners.py` L579-594). -/
def evaluateFinal (text : Pth → Option Str) (execution : Str) (rundir : Pth) (overwrite : Val) : Evaluation :=
  ⟨overwrite.truthy, run text (forecastCommand execution rundir overwrite)⟩

end Seyfert.Eval
