import Verif.Model.RunCompare
import Verif.Spec.Keys

/-!
Specification of the comparison of two runs.
-/

namespace Seyfert.RunCmp

open Compare (Table)
open Names (central)

variable {M : Type}

/-- The text has a part like `1.2.3`. -/
def HasVersion (s : Str) : Prop :=
  ∃ p q a b c, isDigit a = true ∧ isDigit b = true ∧ isDigit c = true ∧ s = p ++ a :: '.' :: b :: '.' :: c :: q

/-- The name of a job directory is that of a parameter and a step. -/
def JobName (n : Str) : Prop := (Names.parseJobDir n).isSome

/-- The file name is `cl`, any characters, `.h5`. -/
def ClName (n : Str) : Prop := ∃ m, n = "cl".toList ++ m ++ ".h5".toList

/-- Among the files there is exactly one with such a name, and `v` can be read from it. -/
def One {V : Type} (files : List (Str × Option V)) (v : V) : Prop :=
  ∃ l r n, files = l ++ (n, some v) :: r ∧ ClName n ∧ ∀ q ∈ l ++ r, ¬ ClName q.1

/-- The directory belongs to a parameter which has a directory without `central` in its name. -/
def Varied (ds : List AngDir) (d : AngDir) : Prop :=
  ∃ d' ∈ ds, ¬ central <:+: d'.name ∧ ∃ p s s', Names.parseJobDir d.name = some (p, s) ∧
    Names.parseJobDir d'.name = some (p, s')

/-- The version in the name of the run is one which the readers accept. -/
def ReadableVersion (r : RunDir M) : Prop := ∃ x, Compare.runReader r.name = .ok x

/-- Everything that a comparison reads from a run can be read, and the files of the derivatives are empty. -/
structure Loadable (r : RunDir M) : Prop where
  version : HasVersion r.name
  info : r.info ≠ some none
  power : ∀ ds, r.power = some ds → ∀ q ∈ ds, JobName q.1 ∧ q.2 ≠ none
  angular : ∃ ds, r.angular = some ds ∧ ∀ d ∈ ds, JobName d.name ∧
    (Varied ds d → ReadableVersion r ∧ d.cosmo ≠ some none ∧ ∃ v, One d.files v)
  derivative : ∃ ds, r.derivative = some ds ∧ ∀ d ∈ ds, One d.files []
  fishers : ∀ x ∈ r.hdf5 "fisher_matrices".toList, ∃ f, x = .ok f
  errors : ∀ e, r.errors "results".toList ≠ some (.error e)

/-- The percentage difference of two numbers. -/
def diff (x y : ℚ) : ℚ := if x + y = 0 then 0 else 200 * |x - y| / |x + y|

/-- `z` holds the percentage differences of two arrays of one shape. -/
def IsDiff (x y z : Arr) : Prop :=
  x.shape = y.shape ∧ z.shape = x.shape ∧ z.vals = List.zipWith diff x.vals y.vals

/-- The percentage difference of two entries of tables: with the sign of their sum. -/
def diffTab (x y : ℚ) : ℚ := if x + y = 0 then 100 * |x - y| else 200 * |x - y| / (x + y)

/-- The entry of a table at a label. -/
def entry {L : Type} [DecidableEq L] (y : Table L ℚ) (l : L) : ℚ := (y.lookup l).getD 0

/-- `t` holds the percentage differences of two tables with the same labels. -/
def IsDiffTab (x y t : Table (Str × Str) ℚ) : Prop :=
  (∀ l, l ∈ x.map (·.1) ↔ l ∈ y.map (·.1)) ∧
  t = x.map (fun q => (q.1, diffTab q.2 (entry y q.1)))

/-- The key stands in both dictionaries, with these values. -/
def Both {V : Type} (a b : Dict Str V) (k : Str) (x y : V) : Prop := a.lookup k = some x ∧ b.lookup k = some y

/-- The two dictionaries have the same keys. -/
def SameKeys {V W : Type} (a : Dict Str V) (b : Dict Str W) : Prop := ∀ k, k ∈ a.map (·.1) ↔ k ∈ b.map (·.1)

/-- The six differences of two spectra with kernels. -/
def SixDiffs (x y : Cl) (l : List Arr) : Prop :=
  ∃ u v c n1 n2 w1 w2 k, x.ker = some u ∧ y.ker = some v ∧ l = [c, n1, n2, w1, w2, k] ∧ IsDiff x.c y.c c ∧
    IsDiff u.n1 v.n1 n1 ∧ IsDiff u.n2 v.n2 n2 ∧ IsDiff u.w1 v.w1 w1 ∧ IsDiff u.w2 v.w2 w2 ∧ IsDiff u.k v.k k

/-- The long text of a pair of probes, as it is in the files, and the short one, as it is in the comparison. -/
def longText (p q : Keys.Probe) : Str := p.name .long ++ "_".toList ++ q.name .long

def shortText (p q : Keys.Probe) : Str := p.name .short ++ q.name .short

/-- All keys of the spectra are long texts of pairs of probes. -/
def LongKeys (d : Dict Str Cl) : Prop := ∀ k ∈ d.map (·.1), ∃ p q, k = longText p q

/-- All entries of a table of differences are below the threshold. -/
def Below (t : Table (Str × Str) ℚ) (x : ℚ) : Prop := ∀ l p, (l, p) ∈ t → p < x

end Seyfert.RunCmp
