import Verif.Model.PyStr
import Verif.Model.PyDict

/-!
Model of `seyfert/file_io/hdf5_io.py`: opening, loading and saving. A file is its groups, data sets and attributes;
paths are lists of components, `[]` is the root `/`. What `h5py` does for each mode and when it refuses to create a node
is modelled after its documentation. Soft links are not modelled (`try_link_first` is never set in the code).
-/

namespace Seyfert.H5

/-- A path in a file by its components (`hdf5_io.py` L155-203). -/
abbrev Path := List Str

/-- A file of HDF5 by what `hdf5_io.py` L66-203 uses of it: groups, data sets, attributes. -/
structure File (V : Type) where
  groups : List Path
  data : Dict Path V
  attrs : Dict (Path × Str) V

/-- A new file (`hdf5_io.py` L84-90). -/
def File.empty {V : Type} : File V := ⟨[], [], []⟩

/-- The exceptions of the functions modelled here, by their kinds (`hdf5_io.py` L66-104, L155-203). -/
inductive Err
  | badMode
  | fileExists
  | missing
  | readOnly
  | nodeExists
  deriving DecidableEq

variable {V : Type}

/-- `path in file`. For `seyfert/file_io/hdf5_io.py` L96-104 (see `enter`). -/
def File.has (f : File V) (p : Path) : Bool := p.isEmpty || f.groups.contains p || (f.data.map (·.1)).contains p

/-- The nonempty beginnings of a path, shortest first. For `hdf5_io.py` L155-203 (see `Path`). -/
def begins : Path → List Path
  | [] => []
  | c :: p => [c] :: (begins p).map (c :: ·)

/-- `create_group(path)`: refused when the path exists or leads through a data set; missing groups on the way are created.
For `seyfert/file_io/hdf5_io.py` L96-104 (see `enter`). -/
def File.createGroup (f : File V) (p : Path) : Except Err (File V) :=
  if f.has p then .error .nodeExists
  else if (begins p).any (fun q => (f.data.map (·.1)).contains q) then .error .nodeExists
  else .ok { f with groups := f.groups ++ (begins p).filter (fun q => !f.groups.contains q) }

/-- `create_dataset(name, data)` in the group `g`. For `hdf5_io.py` L155-203 (see `apply`). -/
def File.createData (f : File V) (g : Path) (name : Str) (v : V) : Except Err (File V) :=
  if f.has (g ++ [name]) then .error .nodeExists
  else if (begins g).any (fun q => (f.data.map (·.1)).contains q) then .error .nodeExists
  else .ok { f with data := f.data ++ [(g ++ [name], v)] }

/-- `group.attrs[name] = value`. For `seyfert/file_io/hdf5_io.py` L96-104 (see `enter`). -/
def File.setAttr (f : File V) (g : Path) (name : Str) (v : V) : File V := { f with attrs := PyDict.set f.attrs (g, name) v }

/-- The modes of `h5py.File` (`hdf5_io.py` L66-90). -/
inductive Mode
  | r
  | rplus
  | w
  | wminus
  | x
  | a
  deriving DecidableEq

/-- The modes accepted (L69). -/
def parseMode (s : Str) : Option Mode :=
  if s = "r".toList then some .r else if s = "r+".toList then some .rplus else if s = "w".toList then some .w
  else if s = "w-".toList then some .wminus else if s = "x".toList then some .x else if s = "a".toList then some .a
  else none

/-- `h5py.File(path, mode)` (L95). -/
def h5pyOpen (fs : Option (File V)) : Mode → Except Err (File V)
  | .r | .rplus => match fs with
    | none => .error .missing
    | some f => .ok f
  | .w => .ok File.empty
  | .wminus | .x => match fs with
    | none => .ok File.empty
    | some _ => .error .fileExists
  | .a => .ok (fs.getD File.empty)

/-- The metadata (L78-93): on an existing file the update time, on a new one all of them; only for the root `/`. -/
def metadata (exists_ : Bool) (m : Mode) (root : Path) (stamp : V) (creation : List (Str × V)) : List (Str × V) :=
  if exists_ then (if m ≠ .r ∧ root = [] then [("LastUpdate".toList, stamp)] else [])
  else if root = [] then creation else []

/-- The part of `openFile` after the file is there (L96-104): the group is created unless the mode is `r`. The second
component is the file afterwards. -/
def enter (f : File V) (m : Mode) (root : Path) (meta_ : List (Str × V)) : Except Err Unit × File V :=
  if f.has root then
    (.ok (), if m = .r then f else meta_.foldl (fun f p => f.setAttr root p.1 p.2) f)
  else if m = .r then (.error .readOnly, f)
  else match f.createGroup root with
    | .error e => (.error e, f)
    | .ok f' => (.ok (), meta_.foldl (fun f p => f.setAttr root p.1 p.2) f')

/-- `openFile` (L66-104): the result, and the file afterwards (`none`: no file). -/
def openFile (fs : Option (File V)) (mode : Str) (root : Path) (stamp : V) (creation : List (Str × V)) :
    Except Err Unit × Option (File V) :=
  match parseMode mode with
  | none => (.error .badMode, fs)
  | some m =>
    if fs.isSome ∧ m = .w then (.error .fileExists, fs)
    else match h5pyOpen fs m with
      | .error e => (.error e, fs)
      | .ok f =>
        let r := enter f m root (metadata fs.isSome m root stamp creation)
        (r.1, some r.2)

/-- One step of `writeObjectToFile`: `createGroup`, `createDataset`, `attrs[...] = ...`, in a group below the root.
For `hdf5_io.py` L155-203 (see `apply`). -/
inductive Op (V : Type)
  | group (g : Path)
  | data (g : Path) (name : Str) (v : V)
  | attr (g : Path) (name : Str) (v : V)

/-- One step of a save (`hdf5_io.py` L155-203). -/
def apply (f : File V) (root : Path) : Op V → Except Err (File V)
  | .group g => f.createGroup (root ++ g)
  | .data g name v => f.createData (root ++ g) name v
  | .attr g name v => .ok (f.setAttr (root ++ g) name v)

/-- The steps one after the other; what has been done before a failing step stays.
For `seyfert/file_io/hdf5_io.py` L120-124 (see `save`). -/
def applyAll (f : File V) (root : Path) : List (Op V) → Except Err Unit × File V
  | [] => (.ok (), f)
  | op :: ops => match apply f root op with
    | .error e => (.error e, f)
    | .ok f' => applyAll f' root ops

/-- `save` (L120-124). -/
def save (fs : Option (File V)) (root : Path) (stamp : V) (creation : List (Str × V)) (ops : List (Op V)) :
    Except Err Unit × Option (File V) :=
  match openFile fs (if fs.isSome then "a".toList else "w".toList) root stamp creation with
  | (.ok (), some f) =>
    let r := applyAll f root ops
    (r.1, some r.2)
  | (.ok (), none) => (.error .missing, none)
  | (.error e, fs') => (.error e, fs')

/-- `load` (L112-118): `read` is the class's own reading of the open file. -/
def load {O : Type} (fs : Option (File V)) (root : Path) (stamp : V) (creation : List (Str × V))
    (read : File V → Path → Except Err O) : Except Err O × Option (File V) :=
  match openFile fs "r".toList root stamp creation with
  | (.ok (), some f) => (read f root, some f)
  | (.ok (), none) => (.error .missing, none)
  | (.error e, fs') => (.error e, fs')

end Seyfert.H5
