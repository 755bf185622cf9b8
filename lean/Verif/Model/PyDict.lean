import Mathlib.Data.List.Basic

/-!
Python dictionaries as association lists with distinct keys in insertion order, and the wrapper
`GenericDictInterface` (`base_structs/generic_dict.py`).
-/

namespace Seyfert.PyDict

variable {κ υ : Type} [DecidableEq κ]

/-- `d[k] = v`: an existing key keeps its place. For `generic_dict.py` L11-45 (see `Op`). -/
def set : List (κ × υ) → κ → υ → List (κ × υ)
  | [], k, v => [(k, v)]
  | (a, b) :: l, k, v => if a = k then (a, v) :: l else (a, b) :: set l k v

/-- `d.update(other)`. For `generic_dict.py` L11-45 (see `Op`). -/
def update (d other : List (κ × υ)) : List (κ × υ) := other.foldl (fun d p => set d p.1 p.2) d

/-- The dictionary built from items, later ones winning (`dict(items)`, dict comprehensions).
For `generic_dict.py` L11-45 (see `update`). -/
def ofItems (items : List (κ × υ)) : List (κ × υ) := update [] items

/-- `del d[k]` for a key that is there. For `generic_dict.py` L11-45 (see `step`). -/
def erase (d : List (κ × υ)) (k : κ) : List (κ × υ) := d.filter (fun p => decide (p.1 ≠ k))

/-- In-place change of the object stored under a key. For `forecast_config.py` L164-224 (see `setIn` in `Config.lean`). -/
def modify (d : List (κ × υ)) (k : κ) (f : υ → υ) : List (κ × υ) :=
  d.map (fun p => if p.1 = k then (p.1, f p.2) else p)

/-- Operations of `GenericDictInterface` (generic_dict.py L11-45, and `get`, `in` of
`collections.abc.Mapping`, which call `__getitem__` and catch `KeyError`). -/
inductive Op (κ υ : Type) where
  | set (k : κ) (v : υ)
  | del (k : κ)
  | update (other : List (κ × υ))
  | read (k : κ)
  | get (k : κ) (default : υ)
  | contains (k : κ)
  | keys
  | len

/-- What an operation returns. For `generic_dict.py` L11-45 (see `step`). -/
inductive Ans (κ υ : Type) where
  | none
  | value (v : υ)
  | bool (b : Bool)
  | keys (l : List κ)
  | len (n : Nat)
  | keyError
deriving DecidableEq

variable [BEq κ]

/-- One call on the wrapper. For `generic_dict.py` L11-45 (see `Op`). -/
def step (d : List (κ × υ)) : Op κ υ → List (κ × υ) × Ans κ υ
  | .set k v => (set d k v, .none)
  | .del k => match d.lookup k with
    | some _ => (erase d k, .none)
    | Option.none => (d, .keyError)
  | .update o => (update d o, .none)
  | .read k => match d.lookup k with
    | some v => (d, .value v)
    | Option.none => (d, .keyError)
  | .get k v => match d.lookup k with
    | some w => (d, .value w)
    | Option.none => (d, .value v)
  | .contains k => (d, .bool (d.lookup k).isSome)
  | .keys => (d, .keys (d.map (·.1)))
  | .len => (d, .len d.length)

/-- A sequence of calls and the answers. For `generic_dict.py` L11-45 (see `Op`). -/
def run (d : List (κ × υ)) : List (Op κ υ) → List (κ × υ) × List (Ans κ υ)
  | [] => (d, [])
  | o :: os => let (d', a) := step d o; let (d'', as) := run d' os; (d'', a :: as)

/-- `GenericDictInterface(data_dict=d)` (L11-14): anything but a dictionary gives an empty wrapper. -/
def ofData {κ υ : Type} (d : Option (List (κ × υ))) : List (κ × υ) := d.getD []

/-- `==` of two dictionaries (`generic_dict.py` L38-39), given equality of values: same keys, equal values, in any order. -/
def beq [DecidableEq υ] (a b : List (κ × υ)) : Bool :=
  decide (a.length = b.length) && a.all (fun p => decide (b.lookup p.1 = some p.2))

/-! Nested dictionaries. -/


/-- A nested dictionary with string keys and leaves of type `α`. For `general_utils.py` L163-167 (see `mapNested`). -/
inductive Nested (κ α : Type) where
  | leaf (a : α)
  | node (l : List (κ × Nested κ α))

/-- `map_nested_dict(dct, func)` (general_utils.py L163-167). -/
def mapNested {κ α β : Type} (f : α → β) : Nested κ α → Nested κ β
  | .leaf a => .leaf (f a)
  | .node l => .node (go f l)
where
  go {κ α β : Type} (f : α → β) : List (κ × Nested κ α) → List (κ × Nested κ β)
  | [] => []
  | (k, v) :: l => (k, mapNested f v) :: go f l

/-- `subset_dict(d, subset_keys)` (general_utils.py L209-212). -/
def subset {κ υ : Type} [DecidableEq κ] (d : List (κ × υ)) (ks : List κ) : List (κ × υ) := d.filter (fun p => decide (p.1 ∈ ks))

end Seyfert.PyDict
