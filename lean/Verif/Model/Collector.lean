import Verif.Model.Compare
import Verif.Model.PyDict

/-!
Collection of the results of many runs (`fisher/results_collector.py`).

Cells of tables are numbers, truth values or texts. A table of errors is a list of rows, each with the name of the Fisher
matrix and its columns; the columns of pandas are those of the rows, a missing cell is an absent column. Tables without
rows are not modelled.
-/

namespace Seyfert.Collector

/-- The exceptions of the functions modelled here, by their kinds (`results_collector.py` L25-148). -/
inductive Err where
  | notUnique
  | emptyList
  | columnExists
  | tooManyColumns
  | keyError
  | attributeError
  | indexError
  | undefinedName
  | emptyQuery
  | wrongOrder
deriving DecidableEq, Repr

/-- A value in a table or among the options of a configuration. For `results_collector.py` L95-130 (see `Frame`). -/
inductive Cell where
  | num (q : ℚ)
  | bool (b : Bool)
  | str (s : Str)
deriving DecidableEq

/-- A table of errors: rows with the name of the Fisher matrix and their columns (`results_collector.py` L95-130). -/
abbrev Frame := List (Str × Dict Str Cell)

/-- What is used of a run: the tables in its directory of results by the name of their file, and the options
(`synthetic_opts`) of its configuration. For `fisher/results_collector.py` L50-59 (see `runErrors`). -/
structure Run where
  files : Dict Str Frame
  opts : Dict Str Cell

/-- `for name, value in opts.items(): df[name] = value` (`results_collector.py` L57-58, L136-138). -/
def withOpts (opts : Dict Str Cell) (df : Frame) : Frame := df.map fun r => (r.1, PyDict.update r.2 opts)

/-- The body of the loop of `buildErrorsTable` (L50-59); `pre` is the beginning of the pattern before `*.csv`. -/
def runErrors (pre : Str) (r : Run) : Except Err Frame :=
  match Compare.uniqueFile (r.files.map (·.1)) pre ".csv".toList with
  | .error _ => .error .notUnique
  | .ok f => match r.files.lookup f with
    | none => .error .notUnique
    | some df => .ok (withOpts r.opts df)

/-- The loop over the runs. For `fisher/results_collector.py` L48-63 (see `buildErrorsTable`). -/
def concatRuns (pre : Str) : List Run → Except Err Frame
  | [] => .ok []
  | r :: rest => match runErrors pre r with
    | .error e => .error e
    | .ok df => match concatRuns pre rest with
      | .error e => .error e
      | .ok dfs => .ok (df ++ dfs)

/-- `buildErrorsTable` (L48-63): `pd.concat` refuses an empty list, `reset_index` a second column `fisher`. -/
def buildErrorsTable (pre : Str) (runs : List Run) : Except Err Frame :=
  match concatRuns pre runs with
  | .error e => .error e
  | .ok t =>
    if runs = [] then .error .emptyList
    else if ∃ r ∈ t, "fisher".toList ∈ r.2.map (·.1) then .error .columnExists
    else .ok t

/-! ### The table of analyses -/

/-- The table of `buildFisherAnalysesDataFrame` (L65-74): columns and rows of options and analyses. Rows are taken by
position; shorter ones are filled, longer ones refused. `fcfg_list[0]` needs at least one run. -/
def analysesTable {A : Type} (runs : List (Dict Str Cell × A)) :
    Except Err (List Str × List (List (Option (Cell ⊕ A)))) :=
  match runs with
  | [] => .error .indexError
  | first :: _ =>
    let columns := first.1.map (·.1) ++ ["analysis".toList]
    let rows := runs.map fun r => r.1.map (fun p => some (Sum.inl p.2)) ++ [some (Sum.inr r.2)]
    if ∀ r ∈ rows, r.length ≤ columns.length then
      .ok (columns, rows.map fun r => r ++ List.replicate (columns.length - r.length) none)
    else .error .tooManyColumns

/-- The cell of a row in a column; the outer `none` means that there is no such column.
For `results_collector.py` L95-130 (see `Cell`). -/
def cell {A : Type} (columns : List Str) (row : List (Option (Cell ⊕ A))) (name : Str) : Option (Option (Cell ⊕ A)) :=
  (columns.zip row).lookup name

/-- `getErrorsTableFromAnalysesDataFrame` (L130-142) for rows of options and tables of errors. An option called `fisher` is
not modelled. -/
def errorsOfAnalyses (rows : List (Dict Str Cell × Frame)) : Except Err Frame :=
  if rows = [] then .error .emptyList else .ok (rows.flatMap fun r => withOpts r.1 r.2)

/-! ### Selection -/

/-- `==` of Python for cells: truth values are numbers. For `fisher/results_collector.py` L121-123 (see `query`). -/
def pyEq : Cell → Cell → Bool
  | .num a, .num b => a = b
  | .num a, .bool b => a = if b then 1 else 0
  | .bool a, .num b => (if a then 1 else 0) = b
  | .bool a, .bool b => a = b
  | .str a, .str b => a = b
  | _, _ => false

/-- The right side of a comparison in the query (L122): the text of the value is parsed again, so a text is the name of a
column. Texts that are not names are not modelled. -/
def operand (row : Dict Str Cell) : Cell → Option Cell
  | .num q => some (.num q)
  | .bool b => some (.bool b)
  | .str s => row.lookup s

/-- Whether a text on the right side is not the name of a column. For `fisher/results_collector.py` L121-123 (see `query`). -/
def undefined (columns : List Str) : Cell → Bool
  | .str s => s ∉ columns
  | _ => false

/-- `getFisherAnalysesSubDf` without the choice of Fisher matrices (L121-123). -/
def query {A : Type} (columns : List Str) (rows : List (Dict Str Cell × A)) (sel : Dict Str Cell) :
    Except Err (List (Dict Str Cell × A)) :=
  if sel = [] then .error .emptyQuery
  else if ∃ q ∈ sel, q.1 ∉ columns ∨ undefined columns q.2 = true then .error .undefinedName
  else .ok (rows.filter fun r => sel.all fun q =>
    match r.1.lookup q.1, operand r.1 q.2 with
    | some a, some b => pyEq a b
    | _, _ => false)

/-! ### Analyses -/

/-- A Fisher analysis: matrices and rows of the tables of errors. For `fisher_analysis.py` L233-246 (see `subsetAnalysis`). -/
structure Analysis (F E : Type) where
  fishers : Dict Str F
  errs : Dict Str E
  relErrs : Dict Str E

/-- `table.loc[names]`. For `fisher_analysis.py` L233-246 (see `subsetAnalysis`). -/
def locRows {E : Type} (t : Dict Str E) : List Str → Except Err (Dict Str E)
  | [] => .ok []
  | n :: ns => match t.lookup n with
    | none => .error .keyError
    | some e => match locRows t ns with
      | .error e => .error e
      | .ok r => .ok ((n, e) :: r)

/-- `getSubsetAnalysis` without evaluating the errors again (`fisher_analysis.py` L233-246). Setting the order (L238) raises
unless the names are those of the matrices that are kept (L119-126). The matrices at the start (`base_fishers`) are in
`Model/AnalysisLife.lean`. -/
def subsetAnalysis {F E : Type} (a : Analysis F E) (names : List Str) : Except Err (Analysis F E) :=
  if ∃ n ∈ names, n ∉ (a.fishers.filter (·.1 ∈ names)).map (·.1) then .error .wrongOrder
  else match locRows a.errs names with
  | .error e => .error e
  | .ok es => match locRows a.relErrs names with
    | .error e => .error e
    | .ok rs => .ok ⟨a.fishers.filter (·.1 ∈ names), es, rs⟩

/-- One row of the table of analyses for `replaceHybridFishersWith4BinsEquivalents`: number of spectroscopic bins, the other
four options, analysis. For `fisher/results_collector.py` L112 (see `findFour`). -/
structure HRow (κ F E : Type) where
  bins : Nat
  other : κ
  an : Analysis F E

/-- The part of a name which marks the matrices with the three-dimensional spectrum (`results_collector.py` L115). -/
def pk : Str := "Pk".toList

/-- The loop over the names of matrices (L114-117). The assignment to a row of the table of errors is modelled for tables
with the same columns. -/
def replaceNames {F E : Type} (four : Analysis F E) : List Str → Analysis F E → Analysis F E × Option Err
  | [], cur => (cur, none)
  | n :: ns, cur =>
    if Compare.contains pk n then
      match four.fishers.lookup n with
      | none => (cur, some .keyError)
      | some f => match four.errs.lookup n with
        | none => ({ cur with fishers := PyDict.set cur.fishers n f }, some .keyError)
        | some e => replaceNames four ns
            { cur with fishers := PyDict.set cur.fishers n f, errs := PyDict.set cur.errs n e }
    else replaceNames four ns cur

section Replace

variable {κ F E : Type} [DecidableEq κ]

/-- `analyses_df.loc[(4, *other)].analysis` (L112): with several such rows this is a column, whose use raises. -/
def findFour (t : List (HRow κ F E)) (o : κ) : Except Err (Analysis F E) :=
  match t.filter fun r => r.bins = 4 ∧ r.other = o with
  | [] => .error .keyError
  | [r] => .ok r.an
  | _ => .error .attributeError

/-- The loop over the rows (L109-117). Rows with four bins are looked up in the table at the start: the loop does not
change them. -/
def replaceRows (t : List (HRow κ F E)) : List (HRow κ F E) → List (HRow κ F E) × Option Err
  | [] => ([], none)
  | r :: rest =>
    if r.bins = 4 then
      let s := replaceRows t rest
      (r :: s.1, s.2)
    else match findFour t r.other with
      | .error e => (r :: rest, some e)
      | .ok four => match replaceNames four (r.an.fishers.map (·.1)) r.an with
        | (a, some e) => ({ r with an := a } :: rest, some e)
        | (a, none) =>
          let s := replaceRows t rest
          ({ r with an := a } :: s.1, s.2)

/-- The table in the collector: whether its options are the index at the moment.
For `fisher/results_collector.py` L104-119 (see `replaceHybrid`). -/
structure State (κ F E : Type) where
  rows : List (HRow κ F E)
  indexed : Bool

/-- `replaceHybridFishersWith4BinsEquivalents` (L104-119): `set_index` raises if the options are the index already;
`reset_index` is not reached after an exception. -/
def replaceHybrid (s : State κ F E) : State κ F E × Option Err :=
  if s.indexed then (s, some .keyError)
  else match replaceRows s.rows s.rows with
    | (rows, none) => (⟨rows, false⟩, none)
    | (rows, some e) => (⟨rows, true⟩, some e)

end Replace

end Seyfert.Collector
