import Verif.Model.Collector
import Mathlib.Data.List.Sort
import Mathlib.Data.Prod.Lex
import Mathlib.Order.Lex
import Mathlib.Data.List.Lex
import Mathlib.Data.Char
import Mathlib.Algebra.Order.Field.Basic

/-!
Model of the tables of results (`notebook_helpers/table_helpers.py` L26-43, L80-102, L125-155, L167-286).

A table has named columns; a row that is looked up by the name of its Fisher matrix and by further values
(number of bins, scenario, ...) carries them apart from its numbers.  Cells without a value (NaN) inside the
tables that are read, column names that are not identifiers and texts with quotation marks are not modelled.
-/

namespace Seyfert.Tables

open Collector (Cell pyEq)

/-- The exceptions of the functions modelled here, by their kinds (`table_helpers.py` L26-286). -/
inductive Err where
  | keyError
  | valueError
deriving DecidableEq, Repr

/-! ### Selection of rows -/

/-- `default_query_dict` (L167-173). -/
def defaults : Dict Str Cell :=
  [("scenario".toList, .str "optimistic".toList), ("shot_noise_sp_reduced".toList, .bool false),
    ("gcph_minus_gcsp".toList, .bool false), ("gcph_only_bins_in_spectro_range".toList, .bool false)]

/-- `query_dict` (L176-184); no `exclude` is the empty list. -/
def queryDict (exclude : List Str) (kw : Dict Str Cell) : Dict Str Cell :=
  (PyDict.update defaults (kw.filter (fun p => decide (p.1 ∈ defaults.map Prod.fst)))).filter
    (fun p => decide (p.1 ∉ exclude))

/-- A table: its columns and its rows, each with a cell for every column.
For `notebook_helpers/table_helpers.py` L187-188 (see `dropConstant`). -/
structure Table where
  cols : List Str
  rows : List (Dict Str Cell)

/-- Whether two cells are equal for pandas. For `notebook_helpers/table_helpers.py` L197-204 (see `agrees`). -/
def cellEq : Option Cell → Option Cell → Bool
  | some a, some b => pyEq a b
  | _, _ => false

/-- Whether a row agrees with a query (L197-204). -/
def agrees (q : Dict Str Cell) (r : Dict Str Cell) : Bool :=
  q.all (fun p => cellEq (r.lookup p.1) (some p.2))

/-- `remove_constant_columns_from_df` (L187-188): the columns with a cell that differs from the first. -/
def dropConstant (t : Table) : Table :=
  match t.rows with
  | [] => t
  | r :: _ =>
    let keep := t.cols.filter (fun c => t.rows.any (fun x => !cellEq (x.lookup c) (r.lookup c)))
    ⟨keep, t.rows.map (fun x => x.filter (fun p => decide (p.1 ∈ keep)))⟩

/-- `select_from_query_dict` (L191-211); an empty query is refused by pandas. -/
def select (t : Table) (q : Dict Str Cell) (removeConstant : Bool) : Except Err Table :=
  if ∃ p ∈ q, p.1 ∉ t.cols then .error .keyError
  else if q = [] then .error .valueError
  else
    let sel : Table := ⟨t.cols, t.rows.filter (agrees q)⟩
    .ok (if removeConstant && decide (1 < sel.rows.length) then dropConstant sel else sel)

/-! ### Differences of figures of merit -/

/-- A row of a table indexed by the name of the matrix and further values.
For `notebook_helpers/table_helpers.py` L26-43 (see `subFor`). -/
structure Row (I K : Type) where
  fisher : Str
  idx : I
  vals : Dict Str K

section Differences

variable {I K : Type} [LinearOrder I] [Field K]

/-- `get_subdf_for_fishers` (L26-43) without sorting: missing names are refused, and so are repeated ones
(by `pd.Categorical`). -/
def subFor (names : List Str) (t : List (Row I K)) : Except Err (List (Row I K)) :=
  if ∃ n ∈ names, n ∉ t.map Row.fisher then .error .keyError
  else if ¬ names.Nodup then .error .valueError
  else .ok (t.filter (fun r => decide (r.fisher ∈ names)))

/-- The order of `sort_index` (L133) on an ordered categorical index: the place in the list of names, then
the further values. -/
def before (names : List Str) (a b : Row I K) : Prop :=
  names.idxOf a.fisher < names.idxOf b.fisher ∨
    names.idxOf a.fisher = names.idxOf b.fisher ∧ a.idx ≤ b.idx

instance (names : List Str) (a b : Row I K) : Decidable (before names a b) := by
  unfold before; infer_instance

/-- A cell of `df.loc[name]` (L215-216, L222-223). -/
def cellAt (t : List (Row I K)) (name : Str) (i : I) (c : Str) : Option K :=
  (t.find? (fun r => decide (r.fisher = name ∧ r.idx = i))).bind (fun r => r.vals.lookup c)

/-- A cell of the difference of two tables (L218, L225), which pandas aligns by the further values: no
value where one of them has none. -/
def diffAt (op : K → K → K) (t : List (Row I K)) (minuend ref : Str) (i : I) (c : Str) : Option K :=
  match cellAt t minuend i c, cellAt t ref i c with
  | some a, some b => some (op a b)
  | _, _ => none

/-- `nug.percentage_difference` (numeric/general.py L70-71). -/
def percentage (a b : K) : K := 100 * (a - b) / b

/-- A row with the two new columns; no value where nothing is aligned with it.
For `notebook_helpers/table_helpers.py` L283-284 (see `outRow`). -/
structure OutRow (I K : Type) where
  row : Row I K
  delta : Option K
  percent : Option K

/-- Name of the column of the figure of merit (`table_helpers.py` L51, L89). -/
def fom : Str := "FoM".toList

/-- The new cells of a row (L283-284). -/
def outRow (dfom : Dict Str Str) (t : List (Row I K)) (r : Row I K) : OutRow I K :=
  match dfom.lookup r.fisher with
  | none => ⟨r, none, none⟩
  | some ref => ⟨r, diffAt (fun a b => a - b) t r.fisher ref r.idx fom,
      diffAt percentage t r.fisher ref r.idx fom⟩

/-- The references of the rows (L274-278). -/
def refs (dfom : Dict Str Str) (t : List (Row I K)) : List Str :=
  t.filterMap (fun r => dfom.lookup r.fisher)

/-- `get_fom_table_for_fishers` (L266-286) for a table with at least one further index: a reference that
is not in the table is refused, and a table without any reference (by `pd.concat`), and one without the
column of the figure of merit. -/
def fomTable (names : List Str) (dfom : Dict Str Str) (cols : List Str) (t : List (Row I K)) :
    Except Err (List (OutRow I K)) :=
  match subFor names t with
  | .error e => .error e
  | .ok s =>
    let sub := s.insertionSort (before names)
    if ∃ ref ∈ refs dfom sub, ref ∉ sub.map Row.fisher then .error .keyError
    else if refs dfom sub = [] then .error .valueError
    else if fom ∉ cols then .error .keyError
    else .ok (sub.map (outRow dfom sub))

end Differences

/-! ### Matrices that do not depend on the number of bins -/

/-- A row of the table of results: name of the matrix, number of bins, further values, numbers.
For `notebook_helpers/table_helpers.py` L149-153 (see `hybridLoop`). -/
structure HRow (κ V : Type) where
  fisher : Str
  bins : Nat
  other : κ
  vals : V

section Hybrid

variable {κ V : Type} [LinearOrder κ]

/-- The index of a row. For `notebook_helpers/table_helpers.py` L149-153 (see `hybridLoop`). -/
def HRow.key (r : HRow κ V) : Str ×ₗ ℕ ×ₗ κ := toLex (r.fisher, toLex (r.bins, r.other))

/-- `"GCsp(Pk)" in fisher` (L151). -/
def hybrid (s : Str) : Bool := decide ("GCsp(Pk)".toList <:+: s)

/-- `df.loc[(fisher, n, *other)]`. For `notebook_helpers/table_helpers.py` L149-153 (see `hybridLoop`). -/
def atKey (t : List (HRow κ V)) (k : Str ×ₗ ℕ ×ₗ κ) : Option V :=
  (t.find? (fun r => decide (r.key = k))).map HRow.vals

/-- `df.loc[idx] = replacement`. For `notebook_helpers/table_helpers.py` L149-153 (see `hybridLoop`). -/
def setKey (t : List (HRow κ V)) (k : Str ×ₗ ℕ ×ₗ κ) (v : V) : List (HRow κ V) :=
  t.map (fun r => if r.key = k then { r with vals := v } else r)

/-- The loop of `replace_hybrid_fishers_with_4_bins_equivalents` (L149-153): over the rows as they were,
with the table as it is. -/
def hybridLoop : List (HRow κ V) → List (HRow κ V) → List (HRow κ V) × Option Err
  | [], cur => (cur, none)
  | r :: rest, cur =>
    if hybrid r.fisher && decide (r.bins ≠ 4) then
      match atKey cur (toLex (r.fisher, toLex (4, r.other))) with
      | none => (cur, some .keyError)
      | some v => hybridLoop rest (setKey cur r.key v)
    else hybridLoop rest cur

/-- The table: whether name, number of bins and further values are its index at the moment.
For `notebook_helpers/table_helpers.py` L141-155 (see `replaceHybrid`). -/
structure State (κ V : Type) where
  rows : List (HRow κ V)
  indexed : Bool

/-- `sort_index` (L133). -/
def sortRows (t : List (HRow κ V)) : List (HRow κ V) := t.insertionSort (fun a b => a.key ≤ b.key)

/-- `replace_hybrid_fishers_with_4_bins_equivalents` (L141-155) for a table with the columns `fisher` and
`n_sp_bins`: the index is set in place and reset after the loop; a table that is indexed has no columns to
make an index of, which pandas refuses. -/
def replaceHybrid (s : State κ V) : State κ V × Option Err :=
  if s.indexed then (s, some .valueError)
  else
    match hybridLoop (sortRows s.rows) (sortRows s.rows) with
    | (t, some e) => (⟨t, true⟩, some e)
    | (t, none) => (⟨t, false⟩, none)

end Hybrid

/-! ### Rows in LaTeX -/

section Latex

variable {K : Type} [Field K] [LinearOrder K]

/-- The gain of a row (L91-94); `fmt` is the format `%.2f`. -/
def gainText (fmt : K → Str) (fomVal ref : K) : Str :=
  let d := 100 * (fomVal - ref) / ref
  if 0 < d then "+".toList ++ fmt d ++ "\\%".toList else "-".toList ++ fmt d ++ "\\%".toList

/-- The cells of a row before translation (L80-99): `cols` are its columns in order, with texts for the
first ones and numbers for the others; `err` is the format of the errors, `str` that of a number of bins, the slice is by position. -/
def latexCells (fmt err str : K → Str) (cols : Dict Str (Str ⊕ K)) (ref : Option K) : Except Err (List Str) :=
  let nb := match cols.lookup "nbins".toList with
    | some (.inl s) => [s]
    | some (.inr x) => [str x]
    | none => []
  match cols.lookup "fisher".toList, cols.lookup fom with
  | some (.inl f), some (.inr x) =>
    .ok (nb ++ [f, fmt x] ++ [match ref with | some y => gainText fmt x y | none => "--".toList] ++
      (cols.drop 3).map (fun p => match p.2 with | .inr e => err e | .inl s => s))
  | _, _ => .error .keyError

end Latex

end Seyfert.Tables
