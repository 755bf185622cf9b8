import Verif.Model.Tables

/-!
Model of `scripts/build_tables.py`, which makes the tables of a thesis from the results of all runs, and of the two writers it
uses (`seyfert/notebook_helpers/table_helpers.py` L46-77, L105-122). The queries before it are in `Model/Tables.lean`. A row
has the name of its matrix, its number of spectroscopic bins and a number for each column; `()` stands for the bins when the
column `n_sp_bins` is not there. The order in which pandas gives the rows of `df.loc[fishers]` is left open. Division by zero
is that of the field.
-/

namespace Seyfert.BTab
open Tables (Row Err before diffAt percentage fom)

variable {I K : Type} [LinearOrder I] [Field K] [DecidableEq K]

/-- `round(8)` (L13) of every number of a row. -/
def roundRow (rnd : K → K) (r : Row I K) : Row I K := { r with vals := r.vals.map fun p => (p.1, rnd p.2) }

/-- `drop_duplicates()` (L13): the index is not compared, the first of equal rows stays. -/
def dropDup (seen : List (Dict Str K)) : List (Row I K) → List (Row I K)
  | [] => []
  | r :: rs => if r.vals ∈ seen then dropDup seen rs else r :: dropDup (r.vals :: seen) rs

/-- A cell of the column `Delta FoM` (L25-33): the percentage difference to the reference at the same bins; `dropna` removes
the row if any of its differences is missing. -/
def gain (t : List (Row I K)) (ref : Str) (r : Row I K) : Option K :=
  if r.vals.all (fun p => (diffAt percentage t r.fisher ref r.idx p.1).isSome) then diffAt percentage t r.fisher ref r.idx fom
  else none

/-- The rows without the new column (L13-20): `picked` are the rows of `df.loc[fishers]`. -/
def body (rnd : K → K) (names : List Str) (picked : List (Row I K)) : List (Row I K) :=
  (dropDup [] (picked.map (roundRow rnd))).insertionSort (before names)

/-- `get_sub_table` (L12-33). `pd.Categorical` refuses repeated names; with the bins in the index every category is looked up
(L27), otherwise the names that are left (L29). A reference given as a dictionary (as for the table `harmonic_vs_hybrid`) is
not modelled. -/
def subTable (rnd : K → K) (bins : Bool) (names : List Str) (ref : Str) (picked : List (Row I K)) :
    Except Err (List (Row I K × Option K)) :=
  if ¬ names.Nodup then .error .valueError
  else
    let s := body rnd names picked
    if ref ∉ s.map Row.fisher then .error .keyError
    else if bins = true ∧ ∃ n ∈ names, n ∉ s.map Row.fisher then .error .keyError
    else .ok (s.map fun r => (r, gain s ref r))

/-- The number of columns declared in `write_latex_table` (L55-58) for a table with `levels` columns in its index. -/
def declared (multi : Bool) (levels cols : Nat) : Nat := if multi then levels + cols else cols

/-- The number of cells of a line that `to_latex` writes (L69): the index and the columns. -/
def cells (levels cols : Nat) : Nat := levels + cols

/-- The widths set in the sheet by `write_excel_table` (L117-120), by the place in the sheet. `widths` are the widths needed by
the columns of the table; `index` tells whether the index is written (`index=True`, L107), `levels` columns before the others. -/
def sheetWidths (widths : List Nat) (k : Nat) : Option Nat := widths[k]?

/-- Where a column of the table is in the sheet (`seyfert/notebook_helpers/table_helpers.py` L107-120). -/
def sheetPlace (index : Bool) (levels j : Nat) : Nat := if index then levels + j else j

/-- `write_excel_table` (L110-122) on the file: an existing one is refused unless `overwrite`. -/
def writeExcel {B : Type} (old : Option B) (overwrite : Bool) (new : B) : Except Unit Unit × Option B :=
  if old.isSome ∧ overwrite = false then (.error (), old) else (.ok (), some new)

end Seyfert.BTab
