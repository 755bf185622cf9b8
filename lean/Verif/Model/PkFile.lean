import Verif.Model.PyDict
import Verif.Model.PyStr

/-!
Model of the external Fisher matrix in the directory of a run: the end of the direct program (`seyfert/main/seyfert_core.py`
L134-155, L179-181), the end of the forecast by tasks (`seyfert/main/task_runners.py` L312-318, L574-603) and
`bin/evaluate_final_results`, over any history of these, finished or stopped.

Simplified: the matrices the run computes itself are given (`Model/FisherCore.lean`) and computed without failure; the final
results are one thing, computed from the matrices read, begun or complete (their files are in `Model/FinalFiles.lean`); results
that are begun have at least their first matrix. Tasks before the Fisher task are left out.
-/

namespace Seyfert.Pk

/-- A file of a matrix: the name in it and the matrix, or begun. For `final_results_core.py` L31-33 (see `readAll`). -/
inductive File (M : Type) where
  | full (name : Str) (m : M)
  | begun

/-- The final results: the matrices they were computed from, or begun. For `final_results_core.py` L27-56 (see `State`). -/
inductive Res (M : Type) where
  | full (d : Dict Str M)
  | begun

/-- The directory of base matrices by name of the file, and the final results.
For `final_results_core.py` L27-56 (see `create`). -/
@[ext] structure State (M : Type) where
  base : Dict Str (File M)
  results : Option (Res M)

variable {M : Type}

/-- The file of the direct program (`seyfert_core.py` L153). -/
def fileD : Str := "fisher_IST_gcsp_pk.hdf5".toList

/-- The file of the forecast by tasks (`task_runners.py` L600-603). -/
def fileR : Str := "fisher_IST_gcsp_pk_w0_wa_CDM.hdf5".toList

/-- The name of the external matrix (`seyfert/file_io/ext_input.py` L45-51, L280-286), from the name of its file. -/
def pk : Str := "[GCsp(Pk)]".toList

/-- What is given: the external matrix of a scenario if its file is there (`filesystem_utils.py` L157-162), and the matrices
computed for a scenario, with their files and names. -/
structure Env (M : Type) where
  ext : Str → Option M
  own : Str → List (Str × Str × M)

/-- The loop of `create_final_results` (`final_results_core.py` L31-33) over the files in the order of the directory. `none` if
one cannot be read. -/
def readAll : List (Str × File M) → Dict Str M → Option (Dict Str M)
  | [], d => some d
  | (_, .full n m) :: l, d => readAll l (PyDict.set d n m)
  | (_, .begun) :: _, _ => none

/-- An order in which a directory is listed. For `final_results_core.py` L27-56 (see `create`). -/
abbrev Order (M : Type) := List (Str × File M) → List (Str × File M)

/-- What the programs do, one step after the other. For `seyfert_core.py` L134-155, L179-181 (see `acts`). -/
inductive Act (M : Type) where
  /-- `clearOutput` (`task_runners.py` L312-318). -/
  | clearBase
  /-- A matrix of the run, if its file is not there (`fisher_core.py` L73-98). -/
  | own (file name : Str) (m : M)
  /-- `shutil.rmtree(results_dir)` (`task_runners.py` L580-584). -/
  | clearResults
  /-- The external matrix of a scenario to a file (`fisher_matrix.py` L323-353 without `overwrite`). -/
  | ext (file scenario : Str)
  /-- `create_final_results`; `child` if in a process of its own whose failure is not looked at (`task_runners.py` L594). -/
  | create (ow child : Bool) (ord : Order M)

/-- `create_final_results` (`final_results_core.py` L27-56) as one step. -/
def create (ow : Bool) (ord : Order M) (s : State M) : Option (State M) :=
  match readAll (ord s.base) [] with
  | none => none
  | some d => if s.results.isSome ∧ ow = false then none else some { s with results := some (.full d) }

/-- The state after a step; `none` if it raises. For `final_results_core.py` L27-56 (see `create`). -/
def exec (E : Env M) (s : State M) : Act M → Option (State M)
  | .clearBase => some { s with base := [] }
  | .own f n m => some (if (s.base.lookup f).isSome then s else { s with base := PyDict.set s.base f (.full n m) })
  | .clearResults => some { s with results := none }
  | .ext f sc => match E.ext sc with
    | none => none
    | some m => if (s.base.lookup f).isSome then none else some { s with base := PyDict.set s.base f (.full pk m) }
  | .create ow child ord => match create ow ord s with
    | some s' => some s'
    | none => if child then some s else none

/-- The states within a step, in which a program can be stopped: a directory is deleted file by file, files are begun before
they are full. For `final_results_core.py` L27-56 (see `create`). -/
inductive Mid (E : Env M) (s : State M) : Act M → State M → Prop
  | clearBase (p : Str × File M → Bool) : Mid E s .clearBase { s with base := s.base.filter p }
  | own {f n : Str} {m : M} (h : s.base.lookup f = none) : Mid E s (.own f n m) { s with base := PyDict.set s.base f .begun }
  | clearResults (h : s.results.isSome) : Mid E s .clearResults { s with results := some .begun }
  | ext {f sc : Str} {m : M} (hm : E.ext sc = some m) (h : s.base.lookup f = none) :
      Mid E s (.ext f sc) { s with base := PyDict.set s.base f .begun }
  | create {ow child : Bool} {ord : Order M} {s' : State M} (h : create ow ord s = some s') :
      Mid E s (.create ow child ord) { s with results := some .begun }

/-- The state at the end of a program, and whether it came to its end. For `filesystem_utils.py` L157-162 (see `Env`). -/
def final (E : Env M) : State M → List (Act M) → State M × Bool
  | s, [] => (s, true)
  | s, a :: as => match exec E s a with
    | none => (s, false)
    | some s' => final E s' as

/-- The states in which a program can be stopped, its end among them. For `filesystem_utils.py` L157-162 (see `Env`). -/
inductive Stop (E : Env M) : State M → List (Act M) → State M → Prop
  | here (s as) : Stop E s as s
  | mid {s a as s'} (h : Mid E s a s') : Stop E s (a :: as) s'
  | next {s a as s' s''} (h : exec E s a = some s') (h' : Stop E s' as s'') : Stop E s (a :: as) s''

/-- A program and the order in which it lists the directory. For `seyfert_core.py` L134-155 (see `Call.order`). -/
inductive Call (M : Type) where
  /-- `do_forecast` for a scenario. -/
  | direct (sc : Str) (ord : Order M)
  /-- The forecast by tasks, with `overwrite_results` or not. -/
  | tasks (ow : Bool) (sc : Str) (ord : Order M)
  /-- `evaluate_final_results`. -/
  | evaluate (ow : Bool) (ord : Order M)

/-- The order of the directory listings in a call (`seyfert_core.py` L134-155). -/
def Call.order : Call M → Order M
  | .direct _ o => o
  | .tasks _ _ o => o
  | .evaluate _ o => o

/-- The steps of a program (`seyfert_core.py` L134-155, L179-181; `task_runners.py` L312-365, L574-603;
`bin/evaluate_final_results` L72-76). -/
def acts (E : Env M) : Call M → List (Act M)
  | .direct sc o => (E.own sc).map (fun x => .own x.1 x.2.1 x.2.2) ++ [.ext fileD sc, .create false false o]
  | .tasks ow sc o => (if ow then [.clearBase] else []) ++ ((E.own sc).map (fun x => .own x.1 x.2.1 x.2.2) ++
      ((if ow then [.clearResults] else []) ++ [.ext fileR sc, .create ow true o]))
  | .evaluate ow o => [.create ow false o]

/-- What is there after a history of calls, each finished or stopped anywhere.
For `seyfert_core.py` L134-155, L179-181 (see `acts`). -/
inductive Later (E : Env M) (ok : Call M → Prop) : State M → State M → Prop
  | refl (s) : Later E ok s s
  | step {s s' s'' : State M} (c : Call M) : Later E ok s s' → ok c → Stop E s' (acts E c) s'' → Later E ok s s''

end Seyfert.Pk
