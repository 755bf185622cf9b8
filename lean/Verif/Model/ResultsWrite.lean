import Verif.Model.Compare
import Verif.Model.FisherIO

/-!
The files of `FisherResultsCollector.writeResultsAndDoPlots` (`seyfert/fisher/fisher_results.py` L118-153): for each cosmology the
tables of errors, the matrices and the correlations, one file after the other.

Simplified: a file is there as a whole or not at all (a stop within a file is not modelled), contents are of one type, and the plots
(L146-153) are left out (`do_plots=False`).
-/

namespace Seyfert.ResWrite

variable {C : Type}

/-- The directories of a cosmology (`fisher_results.py` L127-129). -/
inductive Sub where
  | errors | fishers | correlations
deriving DecidableEq

/-- Cosmology, directory and name of a file (`fisher_results.py` L131-136). -/
abbrev Path := Str × Sub × Str

/-- The directory of the results (`fisher_results.py` L118-124). -/
abbrev Disk (C : Type) := Path → Option C

/-- A matrix with its correlations. For `fisher_analysis.py` L228-231, L327-330 (see `cosmoActs`). -/
structure Mat (C : Type) where
  name : Str
  matrix : C
  correlation : C

/-- The results of a cosmology. For `fisher_results.py` L138-145 (see `cosmoActs`). -/
structure Cosmo (C : Type) where
  name : Str
  marg : C
  rel : C
  mats : List (Mat C)

/-- The calls which write one file. For `fisher_results.py` L142-145 (see `exec`). -/
inductive Act (C : Type) where
  | table (p : Path) (c : C)
  | matrix (p : Path) (c : C)
  | correlation (p : Path) (c : C)

/-- A file is written. For `fisher_analysis.py` L329-330 (see `exec`). -/
def put (d : Disk C) (p : Path) (c : C) : Disk C := fun q => if q = p then some c else d q

/-- A call: a table that is there is left as it is (`table_utils.py` L12-20), a matrix that is there is refused
(`fisher_matrix.py` L333-341), correlations are written always (`fisher_analysis.py` L327-330). `none` means that it raises. -/
def exec (d : Disk C) : Act C → Option (Disk C)
  | .table p c => some (if (d p).isSome then d else put d p c)
  | .matrix p c => if (d p).isSome then none else some (put d p c)
  | .correlation p c => some (put d p c)

/-- One call after the other: what is on disk at the end, and whether the end was reached. For `fisher_results.py` L142-145 (see
`cosmoActs`). -/
def run : Disk C → List (Act C) → Disk C × Bool
  | d, [] => (d, true)
  | d, a :: as =>
    match exec d a with
    | none => (d, false)
    | some d' => run d' as

/-- `writeResultsAndDoPlotsForCosmology` (`fisher_results.py` L138-145) for an analysis called `an`: the tables
(`fisher_analysis.py` L313-325), then the matrices (L228-231), then the correlations (L327-330). -/
def cosmoActs (an : Str) (c : Cosmo C) : List (Act C) :=
  ((Compare.errorFiles an).zip [c.marg, c.marg, c.rel, c.rel]).map (fun q => Act.table (c.name, .errors, q.1) q.2) ++
    (c.mats.map (fun m => Act.matrix (c.name, .fishers, Fisher.fileName m.name) m.matrix) ++
      c.mats.map (fun m => Act.correlation (c.name, .correlations, Compare.corrFile an m.name) m.correlation))

/-- The calls for all cosmologies (`fisher_results.py` L122-124). -/
def acts (an : Str) (cs : List (Cosmo C)) : List (Act C) := cs.flatMap (cosmoActs an)

/-- `writeResultsAndDoPlots` (`fisher_results.py` L118-124). -/
def write (an : Str) (cs : List (Cosmo C)) (d : Disk C) : Disk C × Bool := run d (acts an cs)

/-- A start of the program: name of the analysis, results, and the number of files after which it is stopped at the latest. For
`fisher_results.py` L118-124 (see `start`). -/
structure Start (C : Type) where
  an : Str
  cs : List (Cosmo C)
  stop : Nat

/-- What a start leaves on disk (`fisher_results.py` L118-124). -/
def start (d : Disk C) (s : Start C) : Disk C := (run d ((acts s.an s.cs).take s.stop)).1

/-- What a history of starts leaves on disk. For `fisher_results.py` L118-124 (see `start`). -/
def history (d : Disk C) (l : List (Start C)) : Disk C := l.foldl start d

end Seyfert.ResWrite
