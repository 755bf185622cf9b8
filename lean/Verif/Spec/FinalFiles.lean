import Verif.Model.FinalFiles

/-! What a directory of final results should contain. -/

namespace Seyfert.FFiles
open CProg (Key keys)

variable {M T : Type}

/-- Results with a file of its own for each matrix. -/
def Proper (res : Key → Option (Res M T)) (r : Key → Res M T) : Prop :=
  ∀ k ∈ keys, res k = some (r k) ∧ ((r k).fishers.map (·.1)).Nodup

/-- The table that belongs in a file. -/
def tableOf (r : Res M T) (f : Str) : Option T :=
  if f = "marginalized_errors_test_analysis.xlsx".toList ∨ f = "marginalized_errors_test_analysis.csv".toList then some r.marg
  else if f = "relative_marginalized_errors_test_analysis.xlsx".toList ∨
    f = "relative_marginalized_errors_test_analysis.csv".toList then some r.rel
  else none

/-- The directory after the results `r` were written over what was there. -/
def over (t : Tree M T) (r : Key → Res M T) : Tree M T where
  made k := decide (k ∈ keys) || t.made k
  fishers k f := if k ∈ keys then (match (r k).fishers.lookup f with | some m => some (.full m) | none => t.fishers k f)
    else t.fishers k f
  tables k f := if k ∈ keys then (match tableOf (r k) f with | some x => some (.full x) | none => t.tables k f)
    else t.tables k f

/-- The directory has the results `r` and nothing else. -/
def Exactly (t : Tree M T) (r : Key → Res M T) : Prop :=
  ∀ k ∈ keys, t.made k = true ∧ (∀ f, t.fishers k f = ((r k).fishers.lookup f).map .full) ∧
    ∀ f, t.tables k f = (tableOf (r k) f).map .full

end Seyfert.FFiles
