import Verif.Model.BuildTables

/-! What the tables made by `build_tables.py` show. -/

namespace Seyfert.BTab
open Tables (Row)

variable {I K : Type}

/-- A row in which every number is rounded. -/
def Rounded (rnd : K → K) (x r : Row I K) : Prop :=
  r.fisher = x.fisher ∧ r.idx = x.idx ∧ r.vals = x.vals.map fun p => (p.1, rnd p.2)

/-- A row shown: a rounded row of the results, the first with its numbers. -/
def Shown (rnd : K → K) (picked : List (Row I K)) (r : Row I K) : Prop :=
  ∃ pre x post, picked = pre ++ x :: post ∧ Rounded rnd x r ∧ ∀ y ∈ pre, ∀ z, Rounded rnd y z → z.vals ≠ r.vals

/-- All rows have the same columns, among them the figure of merit, and no two the same matrix and bins. -/
structure Regular (cols : List Str) (picked : List (Row I K)) : Prop where
  columns : ∀ r ∈ picked, r.vals.map (·.1) = cols
  nodup : cols.Nodup
  fom : "FoM".toList ∈ cols
  unique : ∀ r ∈ picked, ∀ r' ∈ picked, r.fisher = r'.fisher → r.idx = r'.idx → r = r'

end Seyfert.BTab
