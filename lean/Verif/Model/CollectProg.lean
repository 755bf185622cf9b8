import Verif.Model.Collector

/-!
Model of the program `bin/collect_results` (L29-43) with `ResultsCollector.collectAndDumpResults`
(`fisher/results_collector.py` L76-92) on the directory of its output. The runs found are given (`Model/Explorer.lean`), for each
cosmology and treatment of the nuisance parameters by the tables in their directories of results and the table of their analyses
(`P`), whose building can fail.
-/

namespace Seyfert.CProg
open Collector (Run Frame buildErrorsTable)

/-- The exceptions of the functions modelled here, by their kinds (`bin/collect_results` L29-43,
`results_collector.py` L76-92). -/
inductive Err where
  | table (e : Collector.Err)
  | analyses
deriving DecidableEq

/-- The files of one directory: `marginalized_errors.xlsx`, `relative_marginalized_errors.xlsx`, `fisher_analyses.pickle`.
For L39-40 (see `Tree`). -/
structure Out (P : Type) where
  marg : Option Frame
  rel : Option Frame
  pick : Option P
deriving DecidableEq

/-- Cosmology and treatment. For L39-40 (see `keys`). -/
abbrev Key := Str × Str

/-- The output directory: the directories that exist, with their files. For L39-40 (see `run`). -/
abbrev Tree (P : Type) := Dict Key (Out P)

/-- The two loops of `main` (L39-40). -/
def keys : List Key :=
  ["w0_wa_CDM".toList, "LCDM".toList].flatMap fun c =>
    ["marg_before".toList, "marg_after".toList, "nuis_fixed".toList].map fun s => (c, s)

/-- The changes of the output directory, each of them one call; a writer which is interrupted while it writes is not modelled.
For L76-92 (see `dump`). -/
inductive Act (P : Type) where
  | mkdir (k : Key)
  | marg (k : Key) (t : Frame)
  | rel (k : Key) (t : Frame)
  | pick (k : Key) (p : P)

variable {P : Type}

/-- `mkdir(exist_ok=True, parents=True)` keeps what is there; the writers replace their file. For L39-40 (see `run`). -/
def apply (t : Tree P) : Act P → Tree P
  | .mkdir k => if (t.lookup k).isSome then t else PyDict.set t k ⟨none, none, none⟩
  | .marg k f => PyDict.modify t k fun o => { o with marg := some f }
  | .rel k f => PyDict.modify t k fun o => { o with rel := some f }
  | .pick k p => PyDict.modify t k fun o => { o with pick := some p }

/-- `collectAndDumpResults` (L76-92): the changes made, and the exception it ends with, if any. Both tables are built before
the first is written. -/
def dump (src : Key → List Run) (an : Key → Option P) (k : Key) : List (Act P) × Option Err :=
  match buildErrorsTable "marginalized_errors".toList (src k) with
  | .error e => ([.mkdir k], some (.table e))
  | .ok m => match buildErrorsTable "relative_marginalized_errors".toList (src k) with
    | .error e => ([.mkdir k], some (.table e))
    | .ok r => match an k with
      | none => ([.mkdir k, .marg k m, .rel k r], some .analyses)
      | some p => ([.mkdir k, .marg k m, .rel k r, .pick k p], none)

/-- The loops of `main`: an exception ends the program. For L76-92 (see `dump`). -/
def collect (src : Key → List Run) (an : Key → Option P) : List Key → List (Act P) × Option Err
  | [] => ([], none)
  | k :: ks => match dump src an k with
    | (l, some e) => (l, some e)
    | (l, none) => let r := collect src an ks; (l ++ r.1, r.2)

/-- The program on an output directory. For L39-40 (see `keys`). -/
def run (src : Key → List Run) (an : Key → Option P) (t : Tree P) : Tree P × Option Err :=
  let r := collect src an keys
  (r.1.foldl apply t, r.2)

/-- The program stopped from outside after `n` changes. For L39-40 (see `keys`). -/
def stopped (src : Key → List Run) (an : Key → Option P) (n : Nat) (t : Tree P) : Tree P :=
  ((collect src an keys).1.take n).foldl apply t

end Seyfert.CProg
