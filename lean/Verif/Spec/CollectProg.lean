import Verif.Model.CollectProg

/-! What the directory of a collection should contain. -/

namespace Seyfert.CProg
open Collector (Run buildErrorsTable)

variable {P : Type}

/-- The directory of a key has all results of the runs. -/
def Good (src : Key → List Run) (an : Key → Option P) (k : Key) (o : Option (Out P)) : Prop :=
  ∃ m r p, buildErrorsTable "marginalized_errors".toList (src k) = .ok m ∧
    buildErrorsTable "relative_marginalized_errors".toList (src k) = .ok r ∧ an k = some p ∧ o = some ⟨some m, some r, some p⟩

/-- The results of a key can be collected. -/
def Able (src : Key → List Run) (an : Key → Option P) (k : Key) : Prop :=
  (∃ m, buildErrorsTable "marginalized_errors".toList (src k) = .ok m) ∧
    (∃ r, buildErrorsTable "relative_marginalized_errors".toList (src k) = .ok r) ∧ ∃ p, an k = some p

/-- A directory on the way from `old` to the results of the runs: the files are replaced one after the other. -/
inductive Way (src : Key → List Run) (an : Key → Option P) (k : Key) (old : Option (Out P)) : Option (Out P) → Prop
  | same : Way src an k old old
  | made : Way src an k old (some (old.getD ⟨none, none, none⟩))
  | first (m) : buildErrorsTable "marginalized_errors".toList (src k) = .ok m →
      Way src an k old (some ⟨some m, (old.bind (·.rel)), old.bind (·.pick)⟩)
  | tables (m r) : buildErrorsTable "marginalized_errors".toList (src k) = .ok m →
      buildErrorsTable "relative_marginalized_errors".toList (src k) = .ok r →
      Way src an k old (some ⟨some m, some r, old.bind (·.pick)⟩)
  | all (o) : Good src an k o → Way src an k old o

end Seyfert.CProg
