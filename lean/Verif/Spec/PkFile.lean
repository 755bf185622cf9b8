import Verif.Model.PkFile
import Mathlib.Data.List.Perm.Basic

/-! Specification of C155. -/

namespace Seyfert.Pk

variable {M : Type}

/-- A call for a scenario. -/
def For (sc : Str) : Call M → Prop
  | .direct sc' _ => sc' = sc
  | .tasks _ sc' _ => sc' = sc
  | .evaluate _ _ => True

/-- The directory is listed in some order. -/
def Lists (o : Order M) : Prop := ∀ l, (o l).Perm l

/-- The matrices a run computes have files and names of their own, and neither are those of the external one. -/
structure Own (l : List (Str × Str × M)) : Prop where
  files : (l.map fun x => x.1).Nodup
  names : (l.map fun x => x.2.1).Nodup
  apart : ∀ x ∈ l, x.1 ≠ fileD ∧ x.1 ≠ fileR ∧ x.2.1 ≠ pk

/-- The matrices of a run and the external one, by name; nothing else. -/
def Of (l : List (Str × Str × M)) (m : M) (d : Dict Str M) : Prop :=
  ∀ n x, d.lookup n = some x → (n = pk ∧ x = m) ∨ ∃ f, (f, n, x) ∈ l

/-- All matrices of a run and the external one, by name. -/
def All (l : List (Str × Str × M)) (m : M) (d : Dict Str M) : Prop :=
  Of l m d ∧ d.lookup pk = some m ∧ ∀ y ∈ l, d.lookup y.2.1 = some y.2.2

end Seyfert.Pk
