import Mathlib.Data.List.Sort
import Mathlib.Algebra.Order.Field.Basic
import Verif.Model.PyStr
import Verif.Model.PyDict

/-!
Model of `cosmology/parameter.py`.

Values are elements of an ordered field `K`.  The parameters of a collection are distinct objects.
-/

namespace Seyfert.Param

variable {K : Type} [Field K] [LinearOrder K]

/-- The exceptions of the functions modelled here, by their kinds (`parameter.py` L28-64, L255-285). -/
inductive Err where
  | keyError | typeError | valueError
  | notFree   -- `ParameterError`: parameter not present (L263-264)
  | flatSum   -- `ParameterError`: fiducials do not sum to one (L271-273)
  | bothFree  -- `ParameterError`: both densities free (L274-275)
deriving DecidableEq

/-- `COSMO_PAR_STRING`, `NUISANCE_PAR_STRING` (L25-26). -/
inductive Kind where
  | cosmo | nuisance
deriving DecidableEq

/-- The texts of the kinds (`parameter.py` L25-26). -/
def Kind.str : Kind → Str
  | .cosmo => "CosmologicalParameter".toList
  | .nuisance => "NuisanceParameter".toList

/-- `PhysicalParameter` after construction (L28-54).  `numpyFlag` tells that `is_free_parameter` is a
numpy bool (L46 allows both). -/
structure Par (K : Type) where
  name : Str
  fiducial : K
  current : K
  kind : Kind
  probe : Option Str
  free : Bool
  numpyFlag : Bool
  stem : K
  description : Str
  units : Str
  method : Str
deriving DecidableEq

/-- The keyword arguments of the constructor (L28-30) as read from a file: the items of one
parameter dictionary. -/
structure Args (K : Type) where
  name : Str
  fiducial : K
  current : Option K
  kind : Str
  probe : Option Str
  free : Bool
  stem : K
  description : Str
  units : Str
  method : Str

/-- `__init__` (L28-54) for arguments of the right types. -/
def construct (a : Args K) : Except Err (Par K) :=
  let mk (k : Kind) : Par K := ⟨a.name, a.fiducial, a.current.getD a.fiducial, k, a.probe, a.free,
    false, a.stem, a.description, a.units, a.method⟩
  if a.kind = Kind.cosmo.str then .ok (mk .cosmo)
  else if a.kind = Kind.nuisance.str then
    match a.probe with
    | none => .error .valueError
    | some _ => .ok (mk .nuisance)
  else .error .valueError

/-- `to_dict` (L74-88) and the defaults that `from_dict` uses for what is missing (L28-30):
`probe` is written for nuisance parameters only, `description` never. -/
def toDict (p : Par K) : Args K :=
  ⟨p.name, p.fiducial, some p.current, p.kind.str, if p.kind = .nuisance then p.probe else none, p.free,
    p.stem, [], p.units, p.method⟩

/-- `computeValueForDisplacement` (L108-112). -/
def valueFor (p : Par K) (eps : K) : K :=
  let d := eps * p.stem
  let d := if p.fiducial ≠ 0 then d * p.fiducial else d
  p.fiducial + d

/-- `list.insert(i, x)`. For `cosmology/parameter.py` L114-117 (see `stemValues`). -/
def insertAt {A : Type} (l : List A) (i : Nat) (x : A) : List A := l.take i ++ x :: l.drop i

/-- `computeSteMValues` (L114-117). -/
def stemValues (p : Par K) (disps : List K) : List K :=
  let values := disps.map (valueFor p)
  insertAt values (values.length / 2) p.fiducial

/-- `PhysicalParametersCollection` (L140-156).  `flat = none` is `None`. -/
structure Coll (K : Type) where
  pars : List (Str × Par K)
  disps : Option (List K)
  steps : Option (List Int)
  stemDict : Option (List (Int × K))
  inv : Option (List (K × Int))
  flat : Option Bool

/-- `np.r_[-n:0, 1:n+1]` (L222). -/
def stepNumbers (n : Nat) : List Int :=
  (List.range n).map (fun i : Nat => (i : Int) - n) ++
    (List.range n).map (fun i : Nat => (i : Int) + 1)

/-- `loadStemDisplacements` (L217-224). -/
def loadStem (c : Coll K) (base : List K) : Coll K :=
  let disps := (base.map (fun x => -x) ++ base).insertionSort (· ≤ ·)
  let steps := stepNumbers base.length
  let dict := steps.zip disps
  { c with
    disps := some disps
    steps := some steps
    stemDict := some dict
    inv := some (PyDict.ofItems (dict.map (fun p => (p.2, p.1)))) }

/-- Name of the matter density (`parameter.py` L267-269). -/
def omm : Str := "Omm".toList
/-- Name of the dark energy density (`parameter.py` L267-269). -/
def omde : Str := "OmDE".toList
/-- Name for no displacement (`parameter.py` L258). -/
def central : Str := "central".toList

/-- Assignment to `current_value` of the parameter under a key. For `cosmology/parameter.py` L268-281 (see `keepFlat`). -/
def setCurrent (c : Coll K) (k : Str) (v : K) : Coll K :=
  { c with pars := PyDict.modify c.pars k (fun p => { p with current := v }) }

/-- `resetPhysicalParametersToFiducial` (L283-285). -/
def reset (c : Coll K) : Coll K :=
  { c with pars := c.pars.map (fun q => (q.1, { q.2 with current := q.2.fiducial })) }

/-- The part of `updatePhysicalParametersForDvarStep` after the varied parameter has its new value
(L268-281). -/
def keepFlat (c : Coll K) (dvar : Str) : Coll K × Option Err :=
  if c.flat = some true ∧ (dvar = omm ∨ dvar = omde) then
    match c.pars.lookup omm, c.pars.lookup omde with
    | none, _ => (c, some .keyError)
    | _, none => (c, some .keyError)
    | some m, some d =>
      if m.fiducial + d.fiducial ≠ 1 then (c, some .flatSum)
      else if m.free ∧ d.free then (c, some .bothFree)
      else if dvar = omm ∧ ¬ d.free then (setCurrent c omde (1 - m.current), none)
      else if dvar = omde ∧ ¬ m.free then (setCurrent c omm (1 - d.current), none)
      else (c, none)
  else (c, none)

/-- `updatePhysicalParametersForDvarStep` (L257-281): the collection afterwards and the exception, if
any. -/
def update (c : Coll K) (dvar : Str) (step : Int) : Coll K × Option Err :=
  if dvar = central then (reset c, none)
  else
    match c.pars.lookup dvar with
    | none => (c, some .keyError)
    | some p =>
      if ¬ p.free then (c, some .notFree)
      else
        match c.stemDict with
        | none => (c, some .typeError)
        | some dict =>
          match dict.lookup step with
          | none => (c, some .keyError)
          | some eps => keepFlat (setCurrent c dvar (valueFor p eps)) dvar

/-- Calls made on a collection. For `parameter.py` L245-285 (see `call`). -/
inductive Call where
  | update (dvar : Str) (step : Int)
  | reset

/-- The effect of a call, and its exception (`parameter.py` L245-285). -/
def call (c : Coll K) : Call → Coll K × Option Err
  | .update d s => update c d s
  | .reset => (reset c, none)

/-- A history of calls; exceptions are caught by the caller. For `parameter.py` L245-285 (see `call`). -/
def calls (c : Coll K) (l : List Call) : Coll K := l.foldl (fun c x => (call c x).1) c

/-! ### Files -/

/-- Contents of a parameter file: whatever is not valid JSON, or the list of parameter dictionaries
with the last entry. For `cosmology/parameter.py` L208-215 (see `writeJSON`). -/
inductive File (K : Type) where
  | broken
  | json (pars : List (Args K)) (base : List K) (flat : Option Bool)

/-- `writeJSON` (L208-215): the new contents of the file, and the exception if any.  The file is opened
(truncated) first; `None > 0` raises, and `json.dump` without an encoder raises on a numpy bool after
part of the text is written. -/
def writeJSON (c : Coll K) : File K × Option Err :=
  match c.disps with
  | none => (.broken, some .typeError)
  | some disps =>
    if c.pars.any (fun q => q.2.numpyFlag) then (.broken, some .typeError)
    else (.json (c.pars.map (fun q => toDict q.2)) (disps.filter (fun x => decide (0 < x))) c.flat, none)

/-- `getParamsDictFromDictList` (L242-255). -/
def parsFrom (l : List (Args K)) (onlyCosmo : Bool) : Except Err (List (Str × Par K)) :=
  match l.mapM construct with
  | .error e => .error e
  | .ok ps => .ok (PyDict.ofItems ((ps.filter (fun p => !onlyCosmo || decide (p.kind = .cosmo))).map
      (fun p => (p.name, p))))

/-- `from_dict_list` and `fromJSON` (L188-199). -/
def fromJSON (f : File K) (onlyCosmo : Bool) : Except Err (Coll K) :=
  match f with
  | .broken => .error .valueError
  | .json l base flat =>
    match parsFrom l onlyCosmo with
    | .error e => .error e
    | .ok ps => .ok (loadStem ⟨ps, none, none, none, none, flat⟩ base)

/-- `readJSON` (L201-206): parameters of the file replace or join those in the collection. -/
def readJSON (c : Coll K) (f : File K) (onlyCosmo : Bool) : Except Err (Coll K) :=
  match f with
  | .broken => .error .valueError
  | .json l base flat =>
    match parsFrom l onlyCosmo with
    | .error e => .error e
    | .ok ps => .ok { loadStem { c with pars := PyDict.update c.pars ps } base with flat := flat }

/-! ### Selections -/

/-- `free_physical_parameters`, `free_cosmological_parameters`, `getFreeNuisanceParametersForProbe`,
`getFreePhysicalParametersForProbe` (L168-174, L226-240). -/
def freePars (c : Coll K) : List (Str × Par K) := c.pars.filter (fun q => q.2.free)
/-- `free_cosmological_parameters` (`parameter.py` L173). -/
def freeCosmo (c : Coll K) : List (Str × Par K) :=
  (c.pars.filter (fun q => decide (q.2.kind = .cosmo))).filter (fun q => q.2.free)
/-- `getFreeNuisanceParametersForProbe` (`parameter.py` L229). -/
def freeNuisance (c : Coll K) (probe : Str) : List (Str × Par K) :=
  (c.pars.filter (fun q => decide (q.2.kind = .nuisance) && decide (q.2.probe = some probe))).filter
    (fun q => q.2.free)
/-- `getFreePhysicalParametersForProbe` (`parameter.py` L235). -/
def freeForProbe (c : Coll K) (probe : Str) : List (Str × Par K) :=
  PyDict.update (PyDict.update [] (freeCosmo c)) (freeNuisance c probe)

end Seyfert.Param
