import Verif.Model.CollectProg

/-!
Model of the files of the final results: `create_final_results` and `create_results_for_cosmology`
(`seyfert/fisher/final_results_core.py` L27-103) with `saveFishersToDisk` and the writers of tables
(`seyfert/fisher/fisher_analysis.py` L228-231, L309-325), `FisherMatrix.writeToFile` (`fisher_matrix.py` L323-353) and
`write_dataframe_table` (`seyfert/utils/table_utils.py` L9-20), over any history of runs of the program, finished or stopped. What
is computed for a cosmology and treatment is given (`Model/FisherStore.lean`): the matrices by the name of their file and the two
tables, or the failure of the computation.
-/

namespace Seyfert.FFiles
open CProg (Key keys)

/-- A file: written, or begun. For `fisher_matrix.py` L323-353 (see `Tree.putF`). -/
inductive File (A : Type) where
  | full (a : A)
  | begun
  deriving DecidableEq

variable {M T : Type}

/-- The directory of the results: the directories that exist, and in each the files of matrices and of tables by their names.
For `fisher_matrix.py` L323-353 (see `Tree.putF`). -/
@[ext] structure Tree (M T : Type) where
  made : Key → Bool
  fishers : Key → Str → Option (File M)
  tables : Key → Str → Option (File T)

/-- What is computed for a cosmology and treatment. For L58-103 (see `keyActs`). -/
structure Res (M T : Type) where
  fishers : List (Str × M)
  marg : T
  rel : T

/-- The names of the tables (L313-325): the analysis has no name of its own (`final_results_core.py` L86). -/
def tableFiles : List Str :=
  ["marginalized_errors_test_analysis.xlsx".toList, "marginalized_errors_test_analysis.csv".toList,
    "relative_marginalized_errors_test_analysis.xlsx".toList, "relative_marginalized_errors_test_analysis.csv".toList]

/-- What the program does, one call after the other. For `fisher_matrix.py` L333-341 (see `exec`). -/
inductive Act (M T : Type) where
  | fail
  | mkdir (k : Key)
  | fisher (k : Key) (f : Str) (m : M)
  | table (k : Key) (f : Str) (t : T)

/-- Changes the file of a matrix (`fisher_matrix.py` L323-353). -/
def Tree.putF (t : Tree M T) (k : Key) (f : Str) (c : Option (File M)) : Tree M T :=
  { t with fishers := fun k' f' => if k' = k ∧ f' = f then c else t.fishers k' f' }

/-- Changes the file of a table (`table_utils.py` L12-20). -/
def Tree.putT (t : Tree M T) (k : Key) (f : Str) (c : Option (File T)) : Tree M T :=
  { t with tables := fun k' f' => if k' = k ∧ f' = f then c else t.tables k' f' }

/-- The state after a call; `none` if it raises. A matrix is refused if its file is there and is not to be overwritten
(`fisher_matrix.py` L333-341), a table is left out then (`table_utils.py` L12-20). -/
def exec (ow : Bool) (t : Tree M T) : Act M T → Option (Tree M T)
  | .fail => none
  | .mkdir k => some { t with made := fun k' => decide (k' = k) || t.made k' }
  | .fisher k f m => if (t.fishers k f).isSome ∧ ow = false then none else some (t.putF k f (some (.full m)))
  | .table k f x => if (t.tables k f).isSome ∧ ow = false then some t else some (t.putT k f (some (.full x)))

/-- The states on the way: a matrix that is to be overwritten is deleted first (`fisher_matrix.py` L339); files are begun before
they are full. -/
def mid (ow : Bool) (t : Tree M T) : Act M T → List (Tree M T)
  | .fail => []
  | .mkdir _ => []
  | .fisher k f _ =>
    if (t.fishers k f).isSome then (if ow then [t.putF k f none, t.putF k f (some .begun)] else [])
    else [t.putF k f (some .begun)]
  | .table k f _ => if (t.tables k f).isSome ∧ ow = false then [] else [t.putT k f (some .begun)]

/-- The state at the end, and whether the program came to its end. For `fisher_matrix.py` L333-341 (see `exec`). -/
def final (ow : Bool) : Tree M T → List (Act M T) → Tree M T × Bool
  | t, [] => (t, true)
  | t, a :: as => match exec ow t a with
    | none => (t, false)
    | some t' => final ow t' as

/-- All states on the way: those in which the program can be stopped. For `fisher_matrix.py` L339 (see `mid`). -/
def states (ow : Bool) : Tree M T → List (Act M T) → List (Tree M T)
  | t, [] => [t]
  | t, a :: as => t :: (mid ow t a ++ match exec ow t a with
    | none => []
    | some t' => states ow t' as)

/-- `create_results_for_cosmology` (L58-103): everything is computed before the first file is written; matrices come before
tables. -/
def keyActs (res : Key → Option (Res M T)) (k : Key) : List (Act M T) :=
  match res k with
  | none => [.fail]
  | some r => .mkdir k :: (r.fishers.map (fun p => Act.fisher k p.1 p.2) ++
      (tableFiles.zip [r.marg, r.marg, r.rel, r.rel]).map fun p => Act.table k p.1 p.2)

/-- The loop of `create_final_results` (L41-55). -/
def acts (res : Key → Option (Res M T)) (ks : List Key) : List (Act M T) := ks.flatMap (keyActs res)

/-- The program. For L41-55 (see `acts`). -/
def create (ow : Bool) (res : Key → Option (Res M T)) (t : Tree M T) : Tree M T × Bool := final ow t (acts res keys)

/-- A start of the program: whether it overwrites, and what it computes. For L41-55 (see `Later`). -/
structure Start (M T : Type) where
  ow : Bool
  res : Key → Option (Res M T)

/-- What is on disk after a history of starts, each finished or stopped anywhere. For L41-55 (see `acts`). -/
inductive Later : Tree M T → List (Start M T) → Tree M T → Prop
  | refl (t) : Later t [] t
  | step {t t' t'' : Tree M T} {h : List (Start M T)} (s : Start M T) :
      Later t h t' → t'' ∈ states s.ow t' (acts s.res keys) → Later t (h ++ [s]) t''

end Seyfert.FFiles
