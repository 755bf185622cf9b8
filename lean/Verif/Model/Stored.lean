import Verif.Model.H5
import Mathlib.Data.List.Sort
import Mathlib.Data.List.Lex

/-!
The HDF5 files through which the jobs of a forecast hand their results on: redshift densities
(`seyfert/cosmology/redshift_density.py`), weight functions (`weight_functions.py`), kernels (`kernel_functions.py`),
angular spectra (`c_ells.py`), their covariances (`seyfert/fisher/delta_cl.py`) and derivatives
(`seyfert/derivatives/cl_derivative.py`). The file itself is the one of `Model/H5.lean`: groups, data sets and
attributes under paths. Arrays are values of any type `A`; their conversion to double precision is not modelled, nor are
the dates written at `/`. The `bias` group of a weight function is the subject of `Model/BiasFile.lean` and left out
here.
-/

namespace Seyfert.Stored
open H5 (Path File begins)

/-- The names the program itself gives to groups, data sets and attributes. For L219-237 (see `N`). -/
inductive Fld
  | probe | probe1 | probe2 | probe_1 | probe_2 | name
  | hasNiz | zDomain | zEdges | fSky | surface | nIz | dN | response | zGrid | normDensity
  | wBinZ | density | kIjz
  | cLij | ells | widths | kernel | cls | weights | zArray
  | deltaCls | singleBlocks | deltaC | invDeltaC | noise | dcLij
  deriving DecidableEq, Repr

/-- The names as they are in the file. For L219-237 (see `densOps`). -/
def N : Fld → Str
  | .probe => "probe".toList
  | .probe1 => "probe1".toList
  | .probe2 => "probe2".toList
  | .probe_1 => "probe_1".toList
  | .probe_2 => "probe_2".toList
  | .name => "name".toList
  | .hasNiz => "has_niz_from_input".toList
  | .zDomain => "input_z_domain".toList
  | .zEdges => "z_bin_edges".toList
  | .fSky => "catalog_f_sky".toList
  | .surface => "dN_dOmega_bins".toList
  | .nIz => "input_n_iz".toList
  | .dN => "input_dN_dz_dOmega".toList
  | .response => "instrument_response".toList
  | .zGrid => "z_grid".toList
  | .normDensity => "norm_density_iz".toList
  | .wBinZ => "w_bin_z".toList
  | .density => "density".toList
  | .kIjz => "k_ijz".toList
  | .cLij => "c_lij".toList
  | .ells => "l_bin_centers".toList
  | .widths => "l_bin_widths".toList
  | .kernel => "kernel".toList
  | .cls => "cls".toList
  | .weights => "weight_functions".toList
  | .zArray => "z_array".toList
  | .deltaCls => "delta_cls".toList
  | .singleBlocks => "single_blocks".toList
  | .deltaC => "delta_c_lij".toList
  | .invDeltaC => "inv_delta_c_lij".toList
  | .noise => "noise_lij".toList
  | .dcLij => "dc_lij".toList

/-- The exceptions of the functions modelled here, by their kinds (`hdf5_io.py` L66-203 and the readers below). -/
inductive Err
  | exists_
  | typeError
  | keyError
  | attributeError
  | valueError
  | readOnly
  | cosmologyError
  deriving DecidableEq, Repr

/-- What a data set or attribute holds. For `hdf5_io.py` L137-141 (see `View.field`). -/
inductive Val (A : Type)
  | num (a : A)
  | str (s : Str)
  | flag (b : Bool)
  deriving DecidableEq

/-- One call on the file, with paths from `/`: opening for a save (`openFile` with mode `a`, `file_io/hdf5_io.py`
L66-104), `createGroup` (L155-168), `createDataset` (L170-185), setting an attribute, and an exception of the program
itself. -/
inductive Op (V : Type)
  | enter (p : Path)
  | group (p : Path)
  | put (p : Path) (v : V)
  | att (p : Path) (n : Str) (v : V)
  | fail (e : Err)

variable {V A : Type}

/-- Whether a data set is at the path (`hdf5_io.py` L187-203). -/
def isData (f : File V) (p : Path) : Bool := (f.data.map (·.1)).contains p

/-- The groups after those on the way to `p` have been made. For `hdf5_io.py` L155-168 (see `mkGroup`). -/
def touch (f : File V) (p : Path) : List Path := f.groups ++ (begins p).filter (fun q => !f.groups.contains q)

/-- Makes a group and those on the way (`hdf5_io.py` L155-168). -/
def mkGroup (f : File V) (p : Path) : Except Err (File V) :=
  if (begins p).any (isData f) then .error .exists_ else .ok { f with groups := touch f p }

/-- A call (`hdf5_io.py` L96-102, L187-203). `h5py` makes the groups missing on the way and refuses a path that exists. -/
def step (f : File V) : Op V → Except Err (File V)
  | .enter p => if f.has p then .ok f else mkGroup f p
  | .group p => if f.has p then .error .exists_ else mkGroup f p
  | .put p v =>
    if f.has p then .error .exists_
    else if (begins p).any (isData f) then .error .exists_
    else .ok { f with groups := touch f p.dropLast, data := f.data ++ [(p, v)] }
  | .att p n v => .ok (f.setAttr p n v)
  | .fail e => .error e

/-- Calls one after the other: what was written before an exception stays. For `c_ells.py` L485-493 (see `runCmd`). -/
def runOps (f : File V) : List (Op V) → Except Err Unit × File V
  | [] => (.ok (), f)
  | op :: ops => match step f op with
    | .error e => (.error e, f)
    | .ok g => runOps g ops

/-- Calls, some only when a path is not there (`if path not in self._h5file`). For `c_ells.py` L485-493 (see `runCmd`). -/
inductive Cmd (V : Type)
  | op (o : Op V)
  | unless (p : Path) (ops : List (Op V))

/-- One command, which may have a condition (`c_ells.py` L485-493). -/
def runCmd (f : File V) : Cmd V → Except Err Unit × File V
  | .op o => runOps f [o]
  | .unless p ops => if f.has p then (.ok (), f) else runOps f ops

/-- Commands one after the other; what was written before an exception stays (`c_ells.py` L474-493). -/
def run (f : File V) : List (Cmd V) → Except Err Unit × File V
  | [] => (.ok (), f)
  | c :: cs => match runCmd f c with
    | (.error e, g) => (.error e, g)
    | (.ok (), g) => run g cs

/-- Order of names in `h5py`: by the characters. For `hdf5_io.py` L96-104 (see `kids`). -/
def nameLe (a b : Str) : Prop := a.map Char.toNat ≤ b.map Char.toNat

instance : DecidableRel nameLe := fun _ _ => inferInstanceAs (Decidable (_ ≤ _))

/-- The name of `q` in its group, when that is `p`. For `hdf5_io.py` L96-104 (see `kids`). -/
def childOf (p q : Path) : Option Str := if q ≠ [] ∧ q.dropLast = p then q.getLast? else none

/-- `for name in group`: the members, ordered by name. For `hdf5_io.py` L96-104 (see `view`). -/
def kids (f : File V) (p : Path) : List Str :=
  ((f.groups ++ f.data.map (·.1)).filterMap (childOf p)).insertionSort nameLe

/-- What is seen of a file from a group. For `hdf5_io.py` L96-104 (see `view`). -/
structure View (V : Type) where
  data : Path → Option V
  has : Path → Bool
  att : Path → Str → Option V
  kids : Path → List Str

/-- A file seen from the group which is the root of a load (`hdf5_io.py` L96-104). -/
def view (f : File V) (r : Path) : View V where
  data q := f.data.lookup (r ++ q)
  has q := f.has (r ++ q)
  att q n := f.attrs.lookup (r ++ q, n)
  kids q := kids f (r ++ q)

/-- The view from a group below (`hdf5_io.py` L137-147). -/
def View.sub (v : View V) (p : Path) : View V where
  data q := v.data (p ++ q)
  has q := v.has (p ++ q)
  att q n := v.att (p ++ q) n
  kids q := v.kids (p ++ q)

/-- `group[path][()]` for an array. For `hdf5_io.py` L137-141 (see `View.field`). -/
def View.num (v : View (Val A)) (p : Path) : Except Err A := match v.data p with
  | some (.num a) => .ok a
  | some _ => .error .typeError
  | none => .error .keyError

/-- `if path in group: ... = group[path][()]`. For `c_ells.py` L264-268, L448-472 (see `loadCl`). -/
def View.opt (v : View (Val A)) (p : Path) : Except Err (Option A) :=
  if v.has p then match v.num p with
    | .ok a => .ok (some a)
    | .error e => .error e
  else .ok none

/-- An attribute of the object set by `populateObject` (`hdf5_io.py` L137-141). -/
def View.field (v : View (Val A)) (n : Str) : Option A := match v.data [n] with
  | some (.num a) => some a
  | _ => none

/-- `attrs[name]` for a text. For L219-237 (see `densOps`). -/
def View.str (v : View (Val A)) (n : Str) : Except Err Str := match v.att [] n with
  | some (.str s) => .ok s
  | some _ => .error .typeError
  | none => .error .keyError

/-- `createDataset` of an array that may be `None` (`hdf5_io.py` L195-196 refuses `None`). -/
def putO (p : Path) : Option A → Op (Val A)
  | none => .fail .typeError
  | some a => .put p (.num a)

/-- `if x is not None: createDataset`. For L219-237 (see `densOps`). -/
def putIf (p : Path) : Option A → List (Op (Val A))
  | none => []
  | some a => [.put p (.num a)]

/-- A dictionary read name by name (`for name in group: ...[name] = ...`). For L210-217 (see `readDens`). -/
def readDict {B : Type} (g : Str → Except Err B) : List Str → Except Err (Dict Str B)
  | [] => .ok []
  | n :: ns => match g n with
    | .error e => .error e
    | .ok a => match readDict g ns with
      | .error e => .error e
      | .ok l => .ok ((n, a) :: l)

/-! ### Redshift densities (`redshift_density.py`) -/

/-- The attributes of a `RedshiftDensity` that a file can hold (L30-48); `None` is `none`. -/
structure Dens (A : Type) where
  probe : Str
  fromInput : Option Bool := none
  domain : Option A := none
  edges : Option A := none
  fSky : Option A := none
  surface : Option A := none
  nIz : Option A := none
  dN : Option A := none
  response : Dict Str A := []
  grid : Option A := none
  norm : Option A := none
  deriving DecidableEq

/-- `H5Density.writeObjectToFile` (L219-237) under a root. -/
def densOps (r : Path) (d : Dens A) : List (Op (Val A)) :=
  [.att r (N .probe) (.str d.probe),
   match d.fromInput with
    | none => .fail .typeError
    | some b => .put (r ++ [N .hasNiz]) (.flag b),
   putO (r ++ [N .zDomain]) d.domain, putO (r ++ [N .zEdges]) d.edges, putO (r ++ [N .fSky]) d.fSky] ++
  putIf (r ++ [N .surface]) d.surface ++
  (if d.fromInput = some true then [putO (r ++ [N .nIz]) d.nIz]
   else [putO (r ++ [N .dN]) d.dN, .group (r ++ [N .response])] ++
     d.response.map (fun p => .put (r ++ [N .response, p.1]) (.num p.2))) ++
  putIf (r ++ [N .zGrid]) d.grid ++ putIf (r ++ [N .normDensity]) d.norm

/-- `RedshiftDensity.saveToHDF5` (L58-60), `AbstractH5FileIO.save` (`hdf5_io.py` L120-124). -/
def saveDens (r : Path) (d : Dens A) : List (Op (Val A)) := .enter r :: densOps r d

/-- `H5Density.writeToObject` (L210-217) into a new `RedshiftDensity`. -/
def readDens (v : View (Val A)) : Except Err (Dens A) :=
  match v.str (N .probe) with
  | .error e => .error e
  | .ok p =>
    let d : Dens A := {
      probe := p
      fromInput := match v.data [N .hasNiz] with
        | some (.flag b) => some b
        | _ => none
      domain := v.field (N .zDomain)
      edges := v.field (N .zEdges)
      fSky := v.field (N .fSky)
      surface := v.field (N .surface)
      nIz := v.field (N .nIz)
      dN := v.field (N .dN)
      grid := v.field (N .zGrid)
      norm := v.field (N .normDensity) }
    if d.fromInput = some true then .ok d
    else if v.has [N .response] then
      match readDict (fun n => v.num [N .response, n]) (v.kids [N .response]) with
      | .ok l => .ok { d with response := l }
      | .error e => .error e
    else .error .keyError

/-- `save_densities_to_file` (L240-242). -/
def saveDensities (ds : Dict Str (Dens A)) : List (Op (Val A)) := ds.flatMap (fun p => saveDens [p.1] p.2)

/-- `load_densities_from_file` (L245-253). -/
def loadDensities (f : File (Val A)) : Except Err (Dict Str (Dens A)) :=
  readDict (fun n => readDens (view f [n])) (kids f [])

/-! ### Weight functions (`weight_functions.py`) -/

/-- The classes `…WeightFunction` of the module (L128, L252, L277, L286). -/
def probes : List Str :=
  ["Lensing".toList, "PhotometricGalaxy".toList, "SpectroscopicGalaxy".toList, "Void".toList]

/-- `WeightFunction` (`weight_functions.py` L24-60), what is stored of it. -/
structure Weight (A : Type) where
  probe : Str
  grid : Option A := none
  w : Option A := none
  dens : Option (Dens A) := none
  deriving DecidableEq

/-- `H5WeightFunction.writeObjectToFile` (L320-330), without the bias. -/
def saveWeight (r : Path) (w : Weight A) : List (Op (Val A)) :=
  [.enter r, .att r (N .probe) (.str w.probe)] ++ putIf (r ++ [N .zGrid]) w.grid ++ putIf (r ++ [N .wBinZ]) w.w ++
  match w.dens with
  | none => []
  | some d => saveDens (r ++ [N .density]) d

/-- `H5WeightFunction.load` (L300-313, L337-338, L350-360): the class comes from the attribute; without `z_grid` the weights are
not looked for. -/
def readWeight (v : View (Val A)) : Except Err (Weight A) :=
  match v.str (N .probe) with
  | .error e => .error e
  | .ok p =>
    if p ∈ probes then
      let w : Weight A := {
        probe := p
        grid := v.field (N .zGrid)
        w := if (v.field (N .zGrid)).isSome then v.field (N .wBinZ) else none }
      if v.has [N .density] then match readDens (v.sub [N .density]) with
        | .ok d => .ok { w with dens := some d }
        | .error e => .error e
      else .ok w
    else .error .attributeError

/-- `WeightFunction.loadFromHDF5` (L105-109): `openFile` gets the root as mode. -/
def loadWeightInto (fs : Option (File V)) (root : Str) (stamp : V) (creation : List (Str × V)) :
    Except H5.Err Unit × Option (File V) := H5.openFile fs root [] stamp creation

/-! ### Angular spectra (`c_ells.py`, `kernel_functions.py`) -/

/-- `KernelFunction` (`kernel_functions.py` L14-45), what is stored of it. -/
structure Kern (A : Type) where
  p1 : Str
  p2 : Str
  grid : Option A := none
  k : Option A := none
  w1 : Option (Weight A) := none
  w2 : Option (Weight A) := none
  deriving DecidableEq

/-- `H5Kernel.writeObjectToFile` (`kernel_functions.py` L103-107). -/
def saveKern (r : Path) (k : Kern A) : List (Op (Val A)) :=
  [.enter r, .att r (N .probe1) (.str k.p1), .att r (N .probe2) (.str k.p2), putO (r ++ [N .zGrid]) k.grid,
   putO (r ++ [N .kIjz]) k.k]

/-- `H5Kernel.writeToObject` (`kernel_functions.py` L96-101). -/
def readKern (v : View (Val A)) : Except Err (Kern A) :=
  match v.str (N .probe1), v.str (N .probe2), v.num [N .zGrid], v.num [N .kIjz] with
  | .ok a, .ok b, .ok g, .ok k => .ok { p1 := a, p2 := b, grid := some g, k := some k }
  | .error e, _, _, _ => .error e
  | _, .error e, _, _ => .error e
  | _, _, .error e, _ => .error e
  | _, _, _, .error e => .error e

/-- `AngularCoefficient` (`c_ells.py` L39-90), what is stored of it. -/
structure Cl (A : Type) where
  p1 : Str
  p2 : Str
  c : Option A := none
  ells : Option A := none
  widths : Option A := none
  kernel : Option (Kern A) := none
  deriving DecidableEq

/-- `get_probes_combination_key` (`general_utils.py` L115-116). -/
def key (p1 p2 : Str) : Str := p1 ++ '_' :: p2

/-- The weight functions of a spectrum (`c_ells.py` L485-493): looked up and written under `/weight_functions`,
whatever the root of the spectrum is. -/
def weightCmds (p1 p2 : Str) (w1 w2 : Option (Weight A)) : List (Cmd (Val A)) :=
  match w1 with
  | none => []
  | some w => [.unless [N .weights, p1] (saveWeight [N .weights, p1] w),
      .unless [N .weights, p2] (match w2 with
        | some w' => saveWeight [N .weights, p2] w'
        | none => [.enter [N .weights, p2], .fail .attributeError])]

/-- `H5Cl.writeObjectToFile` (`c_ells.py` L474-493); `obj.weight1` of a spectrum without kernel raises (L110-113). -/
def saveCl (r : Path) (c : Cl A) : List (Cmd (Val A)) :=
  let k := key c.p1 c.p2
  [.op (.enter r), .op (putO (r ++ [k, N .cLij]) c.c), .op (putO (r ++ [k, N .ells]) c.ells)] ++
  (putIf (r ++ [k, N .widths]) c.widths).map .op ++
  match c.kernel with
  | none => [.op (.fail .attributeError)]
  | some kn => (saveKern (r ++ [k, N .kernel]) kn).map .op ++ weightCmds c.p1 c.p2 kn.w1 kn.w2

/-- Whether the path of a group ends with `weight_functions/probe` (names hold no slash; `hdf5_io.py` L149-153). -/
def isWeightGroup (p : Str) (q : Path) : Bool := match q.reverse with
  | a :: b :: _ => a == p && (N .weights).isSuffixOf b
  | _ => false

/-- The order in which `visititems` goes through the groups (`hdf5_io.py` L149-153). -/
def pathLe (p q : Path) : Prop := p.map (·.map Char.toNat) ≤ q.map (·.map Char.toNat)

instance : DecidableRel pathLe := fun _ _ => inferInstanceAs (Decidable (_ ≤ _))

/-- `findGroup("weight_functions/probe")` (`hdf5_io.py` L149-153): the first one of the whole file, groups visited
downwards by name. -/
def findWeight (f : File V) (p : Str) : Option Path := (f.groups.insertionSort pathLe).find? (isWeightGroup p)

/-- A weight function for a loaded spectrum: `findGroup(...)[0]` fails when there is none (L467-472). -/
def loadWeight (f : File (Val A)) (p : Str) : Except Err (Weight A) := match findWeight f p with
  | none => .error .typeError
  | some q => readWeight (view f q)

/-- `AngularCoefficient.fromHDF5` (`c_ells.py` L264-268, L448-472). -/
def loadCl (f : File (Val A)) (r : Path) (p1 p2 : Str) : Except Err (Cl A) :=
  if f.has r then
    let v := view f (r ++ [key p1 p2])
    if v.has [] then
      match v.num [N .cLij], v.num [N .ells], v.opt [N .widths] with
      | .ok c, .ok l, .ok w =>
        if v.has [N .kernel] then
          match readKern (v.sub [N .kernel]) with
          | .error e => .error e
          | .ok k => match loadWeight f p1, loadWeight f p2 with
            | .ok w1, .ok w2 =>
              .ok ⟨p1, p2, some c, some l, w, some { k with w1 := some w1, w2 := some w2 }⟩
            | .error e, _ => .error e
            | _, .error e => .error e
        else .ok ⟨p1, p2, some c, some l, w, none⟩
      | .error e, _, _ => .error e
      | _, .error e, _ => .error e
      | _, _, .error e => .error e
    else .error .keyError
  else .error .readOnly

/-- What of an `AngularCoefficientsCollector` (`c_ells.py` L328-343) is in a file. -/
structure Coll (A : Type) where
  grid : Option A := none
  cls : Dict Str (Cl A) := []
  weights : Dict Str (Weight A) := []
  deriving DecidableEq

/-- `H5ClCollection.writeObjectToFile` (`c_ells.py` L532-545). -/
def saveColl (r : Path) (o : Coll A) : List (Cmd (Val A)) :=
  [.op (.enter r)] ++ (putIf (r ++ [N .zGrid]) o.grid).map .op ++ [.op (.group (r ++ [N .cls]))] ++
  o.cls.flatMap (fun p => saveCl (r ++ [N .cls]) p.2) ++
  o.weights.map (fun p => .unless (r ++ [N .weights, p.1]) (saveWeight (r ++ [N .weights, p.1]) p.2))

/-- `if p not in obj.weight_dict: obj.weight_dict[p] = ...`. For `c_ells.py` L520-530 (see `loadCls`). -/
def setNew (d : Dict Str (Weight A)) (p : Str) (w : Option (Weight A)) : Dict Str (Weight A) :=
  match d.lookup p, w with
  | none, some w => d ++ [(p, w)]
  | _, _ => d

/-- The spectra of the group `cls` one by one (`c_ells.py` L520-530), with the weight functions taken from them. -/
def loadCls (f : File (Val A)) (r : Path) : List Str → Coll A → Except Err (Coll A)
  | [], o => .ok o
  | n :: ns, o => match splitChar '_' n with
    | [p1, p2] => match loadCl f r p1 p2 with
      | .error e => .error e
      | .ok c => match c.kernel with
        | some k =>
          loadCls f r ns { o with cls := PyDict.set o.cls n c, weights := setNew (setNew o.weights p1 k.w1) p2 k.w2 }
        | none =>
          if (o.weights.lookup p1).isSome ∧ (o.weights.lookup p2).isSome then
            loadCls f r ns { o with cls := PyDict.set o.cls n c }
          else .error .attributeError
    | _ => .error .valueError

/-- The weight functions of the group `weight_functions` are all read (L508-515); L519 throws them away. -/
def readAll (v : View (Val A)) : List Str → Except Err Unit
  | [] => .ok ()
  | n :: ns => match readWeight (v.sub [n]) with
    | .ok _ => readAll v ns
    | .error e => .error e

/-- `H5ClCollection.load` (`c_ells.py` L501-530). -/
def loadColl (f : File (Val A)) (r : Path) : Except Err (Coll A) :=
  if f.has r then
    let v := view f r
    let grid := if v.has [N .zGrid] then v.opt [N .zGrid] else v.opt [N .zArray]
    match grid with
    | .error e => .error e
    | .ok g =>
      match (if v.has [N .weights] then readAll (v.sub [N .weights]) (v.kids [N .weights]) else .ok ()) with
      | .error e => .error e
      | .ok () =>
        if v.has [N .cls] then loadCls f (r ++ [N .cls]) (v.kids [N .cls]) { grid := g } else .error .keyError
  else .error .readOnly

/-- `AngularCoefficient.__eq__` (`c_ells.py` L285-290), for arrays of the same shapes. -/
def clEq [DecidableEq A] (c c' : Cl A) : Bool := c.c = c'.c ∧ c.ells = c'.ells ∧ c.widths = c'.widths

/-- `AngularCoefficientsCollector.__eq__` (`c_ells.py` L426-427). -/
def collEq [DecidableEq A] (o o' : Coll A) : Except Err Bool :=
  match o.cls.mapM (fun i => (o'.cls.lookup i.1).map (clEq i.2)) with
  | none => .error .keyError
  | some l => .ok (l.all id)

/-! ### Covariances (`fisher/delta_cl.py`) and derivatives (`derivatives/cl_derivative.py`) -/

/-- `DeltaCl` (`delta_cl.py` L24-60). -/
structure DeltaCl (A : Type) where
  name : Str
  probe1 : Option Str := none
  probe2 : Option Str := none
  delta : Option A := none
  ells : Option A := none
  inv : Option A := none
  widths : Option A := none
  noise : Option A := none
  c : Option A := none
  deriving DecidableEq

/-- An attribute which is written if there is a value (`delta_cl.py` L275-292). -/
def attIf (r : Path) (n : Str) : Option Str → List (Op (Val A))
  | none => []
  | some s => [.att r n (.str s)]

/-- `H5DeltaCl.writeObjectToFile` (`delta_cl.py` L275-292). -/
def saveDelta (r : Path) (d : DeltaCl A) : List (Op (Val A)) :=
  [.enter r, .att r (N .name) (.str d.name)] ++ attIf r (N .probe_1) d.probe1 ++ attIf r (N .probe_2) d.probe2 ++
  [putO (r ++ [N .ells]) d.ells, putO (r ++ [N .deltaC]) d.delta] ++ putIf (r ++ [N .invDeltaC]) d.inv ++
  putIf (r ++ [N .widths]) d.widths ++ putIf (r ++ [N .noise]) d.noise ++ putIf (r ++ [N .cLij]) d.c

/-- `if name in attrs`. For `delta_cl.py` L256-273 (see `readDelta`). -/
def View.strOpt (v : View (Val A)) (n : Str) : Option Str := match v.att [] n with
  | some (.str s) => some s
  | _ => none

/-- `H5DeltaCl.readBuildingData` and `writeToObject` (`delta_cl.py` L256-273): the name comes from the file. -/
def readDelta (v : View (Val A)) : Except Err (DeltaCl A) :=
  match v.str (N .name), v.num [N .deltaC], v.num [N .ells], v.opt [N .cLij], v.opt [N .noise], v.opt [N .widths],
    v.opt [N .invDeltaC] with
  | .ok n, .ok d, .ok l, .ok c, .ok no, .ok w, .ok i =>
    .ok ⟨n, v.strOpt (N .probe_1), v.strOpt (N .probe_2), some d, some l, i, w, no, c⟩
  | .error e, _, _, _, _, _, _ => .error e
  | _, .error e, _, _, _, _, _ => .error e
  | _, _, .error e, _, _, _, _ => .error e
  | _, _, _, .error e, _, _, _ => .error e
  | _, _, _, _, .error e, _, _ => .error e
  | _, _, _, _, _, .error e, _ => .error e
  | _, _, _, _, _, _, .error e => .error e

/-- `DeltaClCollection` (`delta_cl.py` L136-160). -/
structure DeltaColl (A : Type) where
  items : Dict Str (DeltaCl A) := []
  single : Dict Str (DeltaCl A) := []
  deriving DecidableEq

/-- `H5DeltaClCollection.writeObjectToFile` (`delta_cl.py` L307-312). -/
def saveDeltaColl (r : Path) (o : DeltaColl A) : List (Op (Val A)) :=
  .enter r :: (o.items.flatMap (fun p => saveDelta (r ++ [N .deltaCls, p.1]) p.2) ++
    o.single.flatMap (fun p => saveDelta (r ++ [N .singleBlocks, p.1]) p.2))

/-- `DeltaClCollection.fromHDF5` (`delta_cl.py` L243-247, L299-305): both groups must be there. -/
def loadDeltaColl (f : File (Val A)) (r : Path) : Except Err (DeltaColl A) :=
  if f.has r then
    let v := view f r
    if v.has [N .deltaCls] then
      match readDict (fun n => readDelta (v.sub [N .deltaCls, n])) (v.kids [N .deltaCls]) with
      | .error e => .error e
      | .ok a =>
        if v.has [N .singleBlocks] then
          match readDict (fun n => readDelta (v.sub [N .singleBlocks, n])) (v.kids [N .singleBlocks]) with
          | .error e => .error e
          | .ok b => .ok ⟨a, b⟩
        else .error .keyError
    else .error .keyError
  else .error .readOnly

/-- `ClDerivative` (`cl_derivative.py` L16-45), what is stored of it. -/
structure DCl (A : Type) where
  p1 : Str
  p2 : Str
  dc : A
  ells : A
  deriving DecidableEq

/-- `ClDerivativeCollector.writeToFile` (`cl_derivative.py` L105-113) into the file emptied by mode `w`. -/
def saveDerivs (d : Dict Str (A × A)) : List (Op (Val A)) :=
  d.flatMap (fun p => [.group [p.1], .put [p.1, N .dcLij] (.num p.2.1), .put [p.1, N .ells] (.num p.2.2)])

/-- `ClDerivativeCollector.loadFromFile` (`cl_derivative.py` L115-127). -/
def loadDerivs (f : File (Val A)) : List Str → Except Err (Dict Str (DCl A))
  | [] => .ok []
  | n :: ns => match splitChar '_' n with
    | [p1, p2] => match (view f [n]).num [N .dcLij], (view f [n]).num [N .ells] with
      | .ok a, .ok b => match loadDerivs f ns with
        | .ok l => .ok ((n, ⟨p1, p2, a, b⟩) :: l)
        | .error e => .error e
      | .error e, _ => .error e
      | _, .error e => .error e
    | _ => .error .valueError

end Seyfert.Stored
