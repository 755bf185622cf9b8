import Verif.Model.Equality

/-!
When two objects hold the same data.
-/

namespace Seyfert.Same

variable {E : Type}

/-- The coordinates of an index are within the axes. -/
def Within : List Nat → List Nat → Prop
  | [], [] => True
  | n :: s, i :: is => i < n ∧ Within s is
  | _, _ => False

/-- Two attributes hold the same: arrays of the same axes with the same elements, dictionaries with the same entries, equal
values. -/
def SameVal : Val E → Val E → Prop
  | .arr a, .arr b => a.axes = b.axes ∧ ∀ i, Within a.axes i → a.elem i = b.elem i
  | .dict d, .dict e => ∀ k, d.lookup k = e.lookup k
  | .none, .none => True
  | .num x, .num y => x = y
  | .text s, .text t => s = t
  | .flag b, .flag c => b = c
  | _, _ => False

/-- Two attributes of the same sort: arrays of the same axes, or no arrays. -/
def Alike : Val E → Val E → Prop
  | .arr a, .arr b => a.axes = b.axes
  | .arr _, _ => False
  | _, .arr _ => False
  | _, _ => True

/-- The keys of dictionaries are distinct. -/
def Good : Val E → Prop
  | .dict d => (d.map (·.1)).Nodup
  | _ => True

/-- An object: its attributes have distinct names. -/
structure Object (a : List (Str × Val E)) : Prop where
  names : (a.map (·.1)).Nodup
  good : ∀ p ∈ a, Good p.2

/-- The objects hold the same in the attribute. -/
def SameAt (a b : List (Str × Val E)) (k : Str) : Prop :=
  ∃ v w, a.lookup k = some v ∧ b.lookup k = some w ∧ SameVal v w

/-- The objects have the attribute, and there values of the same sort. -/
def AlikeAt (a b : List (Str × Val E)) (k : Str) : Prop :=
  ∃ v w, a.lookup k = some v ∧ b.lookup k = some w ∧ Alike v w

end Seyfert.Same
