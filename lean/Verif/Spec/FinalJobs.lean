import Verif.Model.FinalJobs
import Verif.Lemmas.JobRuns

/-!
What is expected of the jobs of `evaluate_final_results`, in terms of what the program does when called.
-/

namespace Seyfert.Eval

open Orch (Pth pname)
open OrchIn (suffix)
open RunS (Val pathText Plain)

/-- The arguments of the same call in interactive mode. -/
def interactively (args : Dict Str Val) : Dict Str Val :=
  PyDict.set args "execution".toList (.text "interactive".toList)

/-- The texts and paths among the arguments are single words for the shell, and not taken for options. -/
def PlainArgs (args : Dict Str Val) : Prop :=
  (∀ k s, args.lookup k = some (.text s) → Plain s) ∧ (∀ k p, args.lookup k = some (.path p) → Plain (pathText p))

/-- A run directory with such a path, which does not look like a list of directories. -/
def PlainRun (r : Pth) : Prop := Plain (pathText r) ∧ suffix (pname r) ≠ ".txt".toList

end Seyfert.Eval
