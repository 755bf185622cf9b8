import Verif.Model.Redshift
import Verif.Model.PyDict
import Mathlib.Data.List.Sort
import Mathlib.Data.List.Lex

/-!
The files of the bias: `H5Bias` (`seyfert/cosmology/bias.py` L100-156). A file is what is stored under the root group of
the bias, which must be new (writing into a group that exists is the subject of `Model/H5.lean`).
-/

namespace Seyfert.BiasFile

/-- The exceptions of the functions modelled here, by their kinds (`bias.py` L100-156). -/
inductive Err
  | typeError
  | attributeError
  deriving DecidableEq, Repr

/-- The attributes of a `Bias` that the file holds (L49-58). `V` are numbers, `A` and `B` arrays. -/
structure Obj (V A B : Type) where
  probe : Option Str
  model : Option Str
  additional : Option (Dict Str V)
  nuisance : Option (Dict Str V)
  edges : Option A
  grid : Option A
  values : Option B
  deriving DecidableEq

/-- The content of a file; the parameters as `h5py` lists them. For `seyfert/cosmology/bias.py` L124-137 (see `save`). -/
structure Content (V A B : Type) where
  probe : Str
  model : Str
  additional : Dict Str V
  nuisance : Dict Str V
  edges : Option A
  grid : Option A
  values : Option B
  deriving DecidableEq

variable {V A B : Type}

/-- `Bias()` (L49-58) with the arguments `probe` and `z_bin_edges`. -/
def new (probe : Option Str) (edges : Option A) : Obj V A B := ⟨probe, none, none, none, edges, none, none⟩

/-- The order in which `h5py` lists the members of a group: by name, character by character.
For `bias.py` L140-156 (see `listing`). -/
def before (p q : Str × V) : Prop := p.1.map Char.toNat ≤ q.1.map Char.toNat

instance : DecidableRel (before (V := V)) := fun _ _ => inferInstanceAs (Decidable (_ ≤ _))

/-- The attributes of a group as `h5py` lists them, by name (`bias.py` L140-156). -/
def listing (d : Dict Str V) : Dict Str V := d.insertionSort before

/-- `writeObjectToFile` (L124-137): `None` is no value of an attribute and has no items. Names with a slash or without
characters are not modelled. -/
def save (o : Obj V A B) : Except Err (Content V A B) :=
  match o.probe with
  | none => .error .typeError
  | some p => match o.model with
    | none => .error .typeError
    | some m => match o.additional with
      | none => .error .attributeError
      | some a => match o.nuisance with
        | none => .error .attributeError
        | some n => .ok ⟨p, m, listing a, listing n, o.edges, o.grid, o.values⟩

/-- `writeToObject` (L139-156): into an object that exists. -/
def loadInto (o : Obj V A B) (c : Content V A B) : Obj V A B :=
  { probe := some c.probe, model := some c.model, additional := some c.additional, nuisance := some c.nuisance
    edges := c.edges.or o.edges
    grid := c.grid.or o.grid
    values := if c.grid.isSome then c.values.or o.values else o.values }

/-- `fromHDF5` (L100-103). -/
def load (c : Content V A B) : Obj V A B := loadInto (new none none) c

end Seyfert.BiasFile
