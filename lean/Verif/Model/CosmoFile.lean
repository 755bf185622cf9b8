import Verif.Model.Stored
import Verif.Model.Parameter

/-!
The HDF5 files of cosmologies and matter power spectra: `H5Cosmology` (`seyfert/cosmology/cosmology.py` L357-442) and
`H5PowerSpectrum` (`seyfert/cosmology/power_spectrum.py` L98-142), and the comparison of both. The file is the one of
`Model/Stored.lean`. Arrays and numbers are values of one type `A`. The checks of the parameters
(`Cosmology.checkParameters`, `Model/Background.lean`) are a parameter `chk` here: given the parameters and the flatness,
whether they raise no exception. Roots are absolute paths (`populateObject` takes the path of the group as absolute, L407).
-/

namespace Seyfert.CosmoFile
open H5 (Path File begins)
open Stored (Op Val View Err putO putIf view runOps kids readDict)

/-- The names the program gives to groups, data sets and attributes of these files.
For `power_spectrum.py` L135-142 (see `N`). -/
inductive Fld
  | cosmology | isFlat | model | zGrid | hubble | distance | growth | pars
  | name | fiducial | current | kind | free | stem | method | units | probe
  | power | code | kGrid | lin | nonlin | transfer
  deriving DecidableEq, Repr

/-- The names as they are in the file. For `power_spectrum.py` L135-142 (see `powerOps`). -/
def N : Fld → Str
  | .cosmology => "cosmology".toList
  | .isFlat => "is_flat".toList
  | .model => "cosmological_model".toList
  | .zGrid => "z_grid".toList
  | .hubble => "dimensionless_hubble_array".toList
  | .distance => "dimensionless_comoving_distance_array".toList
  | .growth => "growth_factor_z".toList
  | .pars => "cosmological_parameters".toList
  | .name => "name".toList
  | .fiducial => "fiducial".toList
  | .current => "current_value".toList
  | .kind => "kind".toList
  | .free => "is_free_parameter".toList
  | .stem => "stem_factor".toList
  | .method => "derivative_method".toList
  | .units => "units".toList
  | .probe => "probe".toList
  | .power => "power_spectrum".toList
  | .code => "boltzmann_code".toList
  | .kGrid => "k_grid".toList
  | .lin => "lin_p_mm_z_k".toList
  | .nonlin => "nonlin_p_mm_z_k".toList
  | .transfer => "transfer_function".toList

variable {A : Type}

/-! ### Power spectra -/

/-- The attributes of a `PowerSpectrum` that a file can hold (`power_spectrum.py` L51-63). -/
structure Power (A : Type) where
  code : Str := "CLASS".toList
  z : Option A := none
  k : Option A := none
  lin : Option A := none
  nonlin : Option A := none
  transfer : Option A := none
  deriving DecidableEq

/-- `H5PowerSpectrum.writeObjectToFile` (`power_spectrum.py` L135-142) in an open file. The transfer function is put beside
the group of the others. -/
def powerOps (r : Path) (p : Power A) : List (Op (Val A)) :=
  [.group (r ++ [N .power]), .att (r ++ [N .power]) (N .code) (.str p.code), putO (r ++ [N .power, N .zGrid]) p.z,
   putO (r ++ [N .power, N .kGrid]) p.k, putO (r ++ [N .power, N .lin]) p.lin,
   putO (r ++ [N .power, N .nonlin]) p.nonlin] ++ putIf (r ++ [N .transfer]) p.transfer

/-- `PowerSpectrum.saveToHDF5` (`power_spectrum.py` L103-105). -/
def savePower (r : Path) (p : Power A) : List (Op (Val A)) := .enter r :: powerOps r p

/-- `H5PowerSpectrum.writeToObject` (`power_spectrum.py` L128-133): what the file does not have stays. -/
def readPower (o : Power A) (v : View (Val A)) : Except Err (Power A) :=
  if v.has [N .power] then
    let u := v.sub [N .power]
    match u.str (N .code), v.opt [N .transfer] with
    | .ok c, .ok t => .ok {
        code := c
        z := (u.field (N .zGrid)).or o.z
        k := (u.field (N .kGrid)).or o.k
        lin := (u.field (N .lin)).or o.lin
        nonlin := (u.field (N .nonlin)).or o.nonlin
        transfer := t.or o.transfer }
    | .error e, _ => .error e
    | _, .error e => .error e
  else .error .keyError

/-- `PowerSpectrum.__eq__` (`power_spectrum.py` L113-120), for arrays of the same shapes; the code is not compared. -/
def powerEq [DecidableEq A] (p q : Power A) : Bool :=
  p.z = q.z ∧ p.k = q.k ∧ p.lin = q.lin ∧ p.nonlin = q.nonlin ∧ p.transfer = q.transfer

/-! ### Cosmologies -/

/-- The attributes of a `Cosmology` (`cosmology.py` L58-70). -/
structure Cosmo (A : Type) where
  flat : Option Bool := none
  model : Option Str := some "CPL".toList
  pars : Option (Dict Str (Param.Par A)) := none
  grid : Option A := none
  hubble : Option A := none
  distance : Option A := none
  growth : Option A := none
  power : Option (Power A) := none
  name : Option Str := none
  deriving DecidableEq

/-- The attributes of the group of a parameter: `to_dict` (`parameter.py` L74-88). -/
def parAttrs (p : Param.Par A) : List (Str × Val A) :=
  [(N .name, .str p.name), (N .fiducial, .num p.fiducial), (N .current, .num p.current), (N .kind, .str p.kind.str),
   (N .free, .flag p.free), (N .stem, .num p.stem), (N .method, .str p.method), (N .units, .str p.units)] ++
  match p.kind, p.probe with
  | .nuisance, some s => [(N .probe, .str s)]
  | _, _ => []

/-- The calls for the parameters (`cosmology.py` L434-440). -/
def parsOps (r : Path) (ps : Dict Str (Param.Par A)) : List (Op (Val A)) :=
  .group (r ++ [N .cosmology, N .pars]) :: ps.flatMap (fun p =>
    .group (r ++ [N .cosmology, N .pars, p.1]) ::
      (parAttrs p.2).map (fun a => .att (r ++ [N .cosmology, N .pars, p.1]) a.1 a.2))

/-- `H5Cosmology.writeObjectToFile` (`cosmology.py` L417-443): `None` is no value of an attribute. -/
def cosmoOps (r : Path) (c : Cosmo A) : List (Op (Val A)) :=
  [.enter r, .group (r ++ [N .cosmology]),
   match c.flat with
    | none => .fail .typeError
    | some b => .att (r ++ [N .cosmology]) (N .isFlat) (.flag b),
   match c.model with
    | none => .fail .typeError
    | some s => .att (r ++ [N .cosmology]) (N .model) (.str s),
   putO (r ++ [N .cosmology, N .zGrid]) c.grid] ++
  putIf (r ++ [N .cosmology, N .hubble]) c.hubble ++ putIf (r ++ [N .cosmology, N .distance]) c.distance ++
  putIf (r ++ [N .cosmology, N .growth]) c.growth ++
  match c.pars with
  | none => []
  | some ps => parsOps r ps

/-- `Cosmology.saveToHDF5` (`cosmology.py` L365-370). -/
def saveCosmo (r : Path) (c : Cosmo A) (withPower : Bool) : List (Op (Val A)) :=
  cosmoOps r c ++ match c.power with
  | some p => if withPower then savePower r p else []
  | none => []

/-- `attrs[name]` for a number. For `parameter.py` L28-64 (see `readPar`). -/
def attNum (v : View (Val A)) (n : Str) : Except Err A := match v.att [] n with
  | some (.num a) => .ok a
  | some _ => .error .typeError
  | none => .error .keyError

/-- `attrs[name]` for a truth value. For `parameter.py` L28-64 (see `readPar`). -/
def attFlag (v : View (Val A)) (n : Str) : Except Err Bool := match v.att [] n with
  | some (.flag b) => .ok b
  | some _ => .error .typeError
  | none => .error .keyError

/-- The exceptions of the constructor of a parameter (`parameter.py` L28-64) among those of the files. -/
def ofParErr : Param.Err → Err
  | .typeError => .typeError
  | .keyError => .keyError
  | _ => .valueError

/-- `PhysicalParameter.from_dict(par_grp.attrs)` (`parameter.py` L28-64). What is always written is required here; in the
program a missing attribute that has a default gets it. -/
def readPar (v : View (Val A)) : Except Err (Param.Par A) :=
  match v.str (N .name), attNum v (N .fiducial), attNum v (N .current), v.str (N .kind), attFlag v (N .free),
    attNum v (N .stem), v.str (N .units), v.str (N .method) with
  | .ok n, .ok f, .ok c, .ok k, .ok b, .ok s, .ok u, .ok m =>
    match Param.construct ⟨n, f, some c, k, v.strOpt (N .probe), b, s, [], u, m⟩ with
    | .ok p => .ok { p with numpyFlag := true }
    | .error e => .error (ofParErr e)
  | _, _, _, _, _, _, _, _ => .error .typeError

/-- `readBuildingData` (`cosmology.py` L398-403). -/
def readBuild (v : View (Val A)) : Except Err (Bool × Str × Dict Str (Param.Par A)) :=
  if v.has [N .cosmology] then
    let u := v.sub [N .cosmology]
    match attFlag u (N .isFlat) with
    | .error e => .error e
    | .ok b => match u.str (N .model) with
      | .error e => .error e
      | .ok m =>
        if u.has [N .pars] then
          match readDict (fun n => readPar (u.sub [N .pars, n])) (u.kids [N .pars]) with
          | .error e => .error e
          | .ok ps => .ok (b, m, ps)
        else .error .keyError
  else .error .keyError

/-- `writeToObject` (`cosmology.py` L405-415) with the data of `readBuildingData`: the arrays of the file replace those of
the object, flatness, model and parameters only where the object has none. -/
def fill (o : Cosmo A) (v : View (Val A)) (b : Bool) (m : Str) (ps : Dict Str (Param.Par A)) : Cosmo A :=
  let u := v.sub [N .cosmology]
  { o with
    grid := (u.field (N .zGrid)).or o.grid
    hubble := (u.field (N .hubble)).or o.hubble
    distance := (u.field (N .distance)).or o.distance
    growth := (u.field (N .growth)).or o.growth
    flat := o.flat.or (some b)
    model := o.model.or (some m)
    pars := o.pars.or (some ps) }

/-- `PowerSpectrum.fromHDF5` (`power_spectrum.py` L98-101). -/
def loadPower (f : File (Val A)) (r : Path) : Except Err (Power A) :=
  if f.has r then readPower {} (view f r) else .error .readOnly

/-- `Cosmology.fromHDF5` (`cosmology.py` L356-363): the constructor checks the parameters (L71-74). -/
def loadCosmo (chk : Dict Str (Param.Par A) → Bool → Bool) (f : File (Val A)) (r : Path) (withPower : Bool) :
    Except Err (Cosmo A) :=
  if f.has r then
    let v := view f r
    match readBuild v with
    | .error e => .error e
    | .ok (b, m, ps) =>
      if chk ps b then
        let o := fill { flat := some b, model := some m, pars := some ps } v b m ps
        if withPower then match readPower {} v with
          | .ok p => .ok { o with power := some p }
          | .error e => .error e
        else .ok o
      else .error .cosmologyError
  else .error .readOnly

/-- `Cosmology.loadFromHDF5` (`cosmology.py` L372-382): the object afterwards and the exception. The group of the
cosmology must be there for any array to be replaced (L407); an exception while the data are read leaves the arrays
replaced. -/
def loadInto (chk : Dict Str (Param.Par A) → Bool → Bool) (o : Cosmo A) (f : File (Val A)) (r : Path)
    (withPower : Bool) : Cosmo A × Option Err :=
  if f.has r then
    let v := view f r
    match readBuild v with
    | .error e => (if v.has [N .cosmology] then { fill o v false [] [] with flat := o.flat, model := o.model, pars := o.pars }
        else o, some e)
    | .ok (b, m, ps) =>
      let o' := fill o v b m ps
      match o'.pars, o'.flat with
      | some qs, some b' =>
        if chk qs b' then
          if withPower then match readPower (o'.power.getD {}) v with
            | .ok p => ({ o' with power := some p }, none)
            | .error e => (o', some e)
          else (o', none)
        else (o', some .cosmologyError)
      | _, _ => (o', some .typeError)
  else (o, some .readOnly)

/-- `PhysicalParameter.__eq__` (`parameter.py` L133-137). -/
def parEq [DecidableEq A] (p q : Param.Par A) : Bool :=
  p.name = q.name ∧ p.fiducial = q.fiducial ∧ p.kind = q.kind ∧ p.current = q.current

/-- Equality of dictionaries of parameters: the same keys with equal values. For `cosmology.py` L384-390 (see `cosmoEq`). -/
def parsEq [DecidableEq A] (d e : Dict Str (Param.Par A)) : Bool :=
  d.length = e.length ∧ d.all (fun i => (e.lookup i.1).any (parEq i.2))

/-- `Cosmology.__eq__` (`cosmology.py` L384-390): all four comparisons are made. A power spectrum is compared with
`None` by reading attributes of `None`. -/
def cosmoEq [DecidableEq A] (c d : Cosmo A) : Except Err Bool :=
  let rest : Bool := (match c.pars, d.pars with
    | some p, some q => parsEq p q
    | none, none => true
    | _, _ => false) && decide (c.model = d.model) && decide (c.flat = d.flat)
  match c.power, d.power with
  | some p, some q => .ok (rest && powerEq p q)
  | none, none => .ok rest
  | _, _ => .error .attributeError

end Seyfert.CosmoFile
