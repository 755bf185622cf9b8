import Verif.Model.Tables
import Verif.Props.Collector

/-! What is expected of tables of results. -/

namespace Seyfert.Tables

open Collector (Cell Same Matches)

/-- Every row has exactly one cell for every column. -/
def Table.WF (t : Table) : Prop :=
  t.cols.Nodup ∧ ∀ r ∈ t.rows, r.map Prod.fst = t.cols

/-- The row has the value of every key of the query. -/
def Answers (q : Dict Str Cell) (r : Dict Str Cell) : Prop := ∀ p ∈ q, Matches r p

/-- The row `r'` shows the row `r` in the columns `cols`. -/
def Shows (cols : List Str) (r r' : Dict Str Cell) : Prop :=
  r'.map Prod.fst = cols ∧ ∀ c ∈ cols, r'.lookup c = r.lookup c

/-- A column with one value in all rows. -/
def Constant (rows : List (Dict Str Cell)) (c : Str) : Prop :=
  ∀ x ∈ rows, ∀ y ∈ rows, ∃ a b, x.lookup c = some a ∧ y.lookup c = some b ∧ Same a b

section

variable {I K : Type} [LinearOrder I] [Field K]

/-- Every row has a value in every column, and no two rows have the same index. -/
structure Indexed (cols : List Str) (t : List (Row I K)) : Prop where
  cells : ∀ r ∈ t, ∀ c ∈ cols, ∃ x, r.vals.lookup c = some x
  unique : t.Pairwise (fun r r' => ¬ (r.fisher = r'.fisher ∧ r.idx = r'.idx))

/-- The figure of merit of a matrix and that of its reference for the same further values. -/
def Compared (dfom : Dict Str Str) (t : List (Row I K)) (r : Row I K) (a b : K) : Prop :=
  ∃ ref s, dfom.lookup r.fisher = some ref ∧ s ∈ t ∧ s.fisher = ref ∧ s.idx = r.idx ∧
    r.vals.lookup "FoM".toList = some a ∧ s.vals.lookup "FoM".toList = some b

/-- The first name of the list comes before the second. -/
def NamedBefore (names : List Str) (a b : Str) : Prop :=
  ∃ l₁ l₂ l₃, names = l₁ ++ a :: l₂ ++ b :: l₃

end

section

variable {κ V : Type} [LinearOrder κ]

/-- The matrix contains the spectroscopic galaxies by their power spectrum. -/
def WithPk (s : Str) : Prop := ∃ a b, s = a ++ "GCsp(Pk)".toList ++ b

/-- The number of bins whose numbers are shown in a row. -/
def Source (s : Str) (n m : Nat) : Prop := (WithPk s → m = 4) ∧ (¬ WithPk s → m = n)

/-- No two rows for the same matrix, number of bins and further values. -/
def Unique (t : List (HRow κ V)) : Prop :=
  t.Pairwise (fun r r' => ¬ (r.fisher = r'.fisher ∧ r.bins = r'.bins ∧ r.other = r'.other))

/-- Every matrix with the power spectrum has a row with four bins wherever it has one. -/
def HasFour (t : List (HRow κ V)) : Prop :=
  ∀ r ∈ t, WithPk r.fisher → ∃ s ∈ t, s.fisher = r.fisher ∧ s.bins = 4 ∧ s.other = r.other

end

end Seyfert.Tables
