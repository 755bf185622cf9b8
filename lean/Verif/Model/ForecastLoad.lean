import Verif.Model.Config
import Verif.Model.Multipoles

/-!
Reading a forecast configuration: probes, parameters and multipoles (`seyfert/config/forecast_config.py` L95-162,
`seyfert/config/probe_config.py` L71-120) and the multipoles of the spectra (`seyfert/cosmology/c_ells.py`).

Files are given by their contents.  An exception leaves the object partly filled; the partly filled object is not
modelled.
-/

namespace Seyfert.FLoad

open Param (Par Args Coll construct)

/-- Exceptions: those of the names, of the parameters and of the multipole grids, and those raised here.
For `forecast_config.py` L116 (see `nameTo`). -/
inductive Err
  | name (e : Keys.Err)
  | par (e : Param.Err)
  | ell (e : Ells.Err)
  | keyError
  | fileNotFound
  | noCommon      -- `Exception`: no multipoles in common (forecast_config.py L159-160)
  | incompatible  -- `ValueError` of `checkProbesMultipoles` (forecast_config.py L148-149)
deriving DecidableEq

/-- The entry of one probe in the configuration file.  `grid` is what `getProbeMultipoleBinning` returns for it (see
`binning` below), `bias` the nuisance parameters in the bias file named in it (empty if there are none), `extra` the
list `extra_nuisance_parameters`, if it is there. For `probe_config.py` L71-84 (see `loadProbe`). -/
structure PDict (K : Type) where
  present : Bool
  grid : Except Err (List K × List K)
  bias : Dict Str K
  marg : Option Bool
  diff : Option Str
  extra : Option (List (Args K))

/-- The configuration file: the probes, the cosmological parameters, flatness, the displacements and the name of the
shot noise file. For `forecast_config.py` L113-128 (see `loadProbes`). -/
structure Json (K : Type) where
  probes : Dict Str (PDict K)
  cosmo : List (Args K)
  flat : Option Bool
  base : List K
  shot : Option Str

/-- `ProbeConfig` (probe_config.py L27-40): multipoles, contents of the bias file if one has been set, and the
nuisance parameters read so far.  Density file and specific settings are not modelled. -/
structure PCfg (K : Type) where
  centers : List K
  widths : List K
  bias : Option (Dict Str K)
  marg : Option Bool
  diff : Option Str
  nuis : Dict Str (Par K)

/-- The probe without bias (`probe_config.py` L76). -/
def lensing : Str := "Lensing".toList

/-- `ProbeName(name).toLong().name`, `.toAlias().name` (forecast_config.py L116, probe_config.py L44-48, L72). -/
def nameTo (k : Keys.Kind) (name : Str) : Except Err Str :=
  match Keys.probeCtor name with
  | .error e => .error (.name e)
  | .ok p =>
    match Keys.probeTransformTo p (some k) with
    | .error e => .error (.name e)
    | .ok q => .ok q.name

variable {K : Type}

/-- `ProbeConfig(long)` and `loadFromJSONConfig` (probe_config.py L71-84) with `load_nuis_params=False`, as called in
forecast_config.py L117-118.  The dictionary is looked up under the alias. -/
def loadProbe (probes : Dict Str (PDict K)) (long : Str) : Except Err (PCfg K) :=
  match nameTo .alias long with
  | .error e => .error e
  | .ok a =>
    match probes.lookup a with
    | none => .error .keyError
    | some d =>
      match d.grid with
      | .error e => .error e
      | .ok (c, w) =>
        if long ≠ lensing then .ok ⟨c, w, some d.bias, d.marg, d.diff, []⟩
        else .ok ⟨c, w, none, some false, none, []⟩

/-- The loop of `loadProbeConfigurationsFromJSONConfig` (forecast_config.py L114-119) over the remaining items;
`probes` is the whole dictionary. -/
def loadProbesFrom (probes : Dict Str (PDict K)) : Dict Str (PDict K) → Dict Str (PCfg K) →
    Except Err (Dict Str (PCfg K))
  | [], cfgs => .ok cfgs
  | (name, d) :: rest, cfgs =>
    if d.present then
      match nameTo .long name with
      | .error e => .error e
      | .ok long =>
        match loadProbe probes long with
        | .error e => .error e
        | .ok c => loadProbesFrom probes rest (PyDict.set cfgs long c)
    else loadProbesFrom probes rest cfgs

/-- What is loaded of a configuration (forecast_config.py L32-41): the probes, their combinations, and the path of the
shot noise file. -/
structure Forecast (K : Type) where
  cfgs : Dict Str (PCfg K)
  combos : List (Str × Str)
  shot : Option Str

/-- `loadProbeConfigurationsFromJSONConfig` (forecast_config.py L113-128); `isFile` says which files there are in the
directory of shot noise files. -/
def loadProbes (isFile : Str → Bool) (j : Json K) (f : Forecast K) : Except Err (Forecast K) :=
  match loadProbesFrom j.probes j.probes f.cfgs with
  | .error e => .error e
  | .ok cfgs =>
    let combos := Config.combosWR (cfgs.map (·.1))
    match j.shot with
    | none => .ok ⟨cfgs, combos, f.shot⟩
    | some s => if isFile s then .ok ⟨cfgs, combos, some s⟩ else .error .fileNotFound

/-- A configuration nothing has been loaded into (forecast_config.py L31-41). -/
def fresh : Forecast K := ⟨[], [], none⟩

/-! ### Parameters -/

/-- Default of `derivative_method` (`parameter.py` L30). -/
def stemS : Str := "SteM".toList
/-- Default of `units` (`parameter.py` L30). -/
def noneS : Str := "None".toList

/-- One nuisance parameter of the bias (probe_config.py L91-95); `stem_factor`, `description`, `units` and
`derivative_method` have the defaults of the constructor (parameter.py L28-30). -/
def biasItem [One K] (long : Str) (marg : Bool) (diff : Option Str) (kv : Str × K) : Except Err (Str × Par K) :=
  match construct ⟨kv.1, kv.2, none, Param.Kind.nuisance.str, some long, marg, 1, [], noneS, stemS⟩ with
  | .error e => .error (.par e)
  | .ok p =>
    match diff with
    | some m => .ok (kv.1, { p with method := m })
    | none => .ok (kv.1, p)

/-- A list of calls that may raise. For `probe_config.py` L87-96 (see `biasPart`). -/
def mapE {A B : Type} (f : A → Except Err B) : List A → Except Err (List B)
  | [] => .ok []
  | a :: l =>
    match f a with
    | .error e => .error e
    | .ok b =>
      match mapE f l with
      | .error e => .error e
      | .ok bs => .ok (b :: bs)

/-- `PhysicalParameter.from_dict` with the name of the result (forecast_config.py L134-137, probe_config.py L98-104). -/
def named (a : Args K) : Except Err (Str × Par K) :=
  match construct a with
  | .error e => .error (.par e)
  | .ok p => .ok (p.name, p)

/-- The bias part of `loadAllNuisanceParameters` (probe_config.py L87-96). -/
def biasPart [One K] (long : Str) (c : PCfg K) : Except Err (Dict Str (Par K)) :=
  match c.bias, c.marg with
  | some b, some m =>
    match mapE (biasItem long m c.diff) b with
    | .error e => .error e
    | .ok items => .ok (PyDict.update c.nuis items)
  | _, _ => .ok c.nuis

/-- `loadAllNuisanceParameters` (probe_config.py L86-104): the parameters of the probe afterwards. -/
def loadNuis [One K] (long : Str) (c : PCfg K) (d : PDict K) : Except Err (Dict Str (Par K)) :=
  match biasPart long c with
  | .error e => .error e
  | .ok n =>
    match d.extra with
    | none => .ok n
    | some l =>
      match mapE named l with
      | .error e => .error e
      | .ok items => .ok (PyDict.update n (PyDict.ofItems items))

/-- The loop over the probes (forecast_config.py L139-141): the parameters of the collection and the probes
afterwards. -/
def probePars [One K] (probes : Dict Str (PDict K)) : Dict Str (PCfg K) → Dict Str (Par K) →
    Except Err (Dict Str (Par K) × Dict Str (PCfg K))
  | [], pars => .ok (pars, [])
  | (long, c) :: rest, pars =>
    match nameTo .alias long with
    | .error e => .error e
    | .ok a =>
      match probes.lookup a with
      | none => .error .keyError
      | some d =>
        match loadNuis long c d with
        | .error e => .error e
        | .ok n =>
          match probePars probes rest (PyDict.update pars n) with
          | .error e => .error e
          | .ok (pars', rest') => .ok (pars', (long, { c with nuis := n }) :: rest')

/-- `loadPhysicalParametersFromJSONConfig` (forecast_config.py L130-141). -/
def loadPars [Field K] [LinearOrder K] (j : Json K) (f : Forecast K) : Except Err (Coll K × Forecast K) :=
  match mapE named j.cosmo with
  | .error e => .error e
  | .ok items =>
    match probePars j.probes f.cfgs (PyDict.update [] (PyDict.ofItems items)) with
    | .error e => .error e
    | .ok (pars, cfgs) => .ok ({ Param.loadStem ⟨[], none, none, none, none, j.flat⟩ j.base with pars := pars },
        { f with cfgs := cfgs })

/-- `loadConfiguration` (forecast_config.py L95-102) with `load_phys_params=True`. -/
def load [Field K] [LinearOrder K] (isFile : Str → Bool) (j : Json K) (f : Forecast K) :
    Except Err (Coll K × Forecast K) :=
  match loadProbes isFile j f with
  | .error e => .error e
  | .ok f' => loadPars j f'

/-- `present_nuisance_parameters` (probe_config.py L51-52). -/
def presentNuis (c : PCfg K) : Dict Str (Par K) := c.nuis.filter (fun q => q.2.free)

/-- `getNuisanceParametersForProbe` (parameter.py L226-227). -/
def nuisFor (c : Coll K) (probe : Str) : Dict Str (Par K) :=
  c.pars.filter (fun q => decide (q.2.kind = .nuisance) && decide (q.2.probe = some probe))

/-! ### Multipoles -/

/-- The columns 0 and 1 of a text file (probe_config.py L110-111).  `np.loadtxt` drops a dimension of length one, and
the second index then raises; rows of different lengths (an exception of `np.loadtxt`) are not modelled. -/
def columns {A : Type} (rows : List (List A)) : Except Err (List A × List A) :=
  if rows.length < 2 then .error (.ell .indexError)
  else if rows.all (fun r => decide (2 ≤ r.length)) then
    .ok (rows.filterMap (fun r => r[0]?), rows.filterMap (fun r => r[1]?))
  else .error (.ell .indexError)

/-- `getProbeMultipoleBinning` (probe_config.py L106-120): rows of the external file if one is named, else limits,
spacing and number. -/
noncomputable def binning (ext : Option (List (List ℝ))) (lmin lmax : ℝ) (logSel : Bool) (nEll : Ells.NEll) :
    Except Err (List ℝ × List ℝ) :=
  match ext with
  | some rows => columns rows
  | none =>
    match Ells.multipoles lmin lmax (if logSel then "Logarithmic".toList else "Linear".toList) nEll with
    | .error e => .error (.ell e)
    | .ok (_, c, w) => .ok (c, w)

section
variable [LinearOrder K]

/-- `a[mask]`. For `forecast_config.py` L151-162 (see `commonEll`). -/
def masked {A : Type} : List A → List Bool → List A
  | a :: l, b :: m => if b then a :: masked l m else masked l m
  | _, _ => []

/-- `getMultipoleArraysForProbeComb` (forecast_config.py L151-162) for the two probes named by the key.  Centres and
widths of a probe have the same length. -/
def commonEll (p1 p2 : PCfg K) : Except Err (List K × List K) :=
  let common := Ells.intersect1d p1.centers p2.centers
  let mask := p1.centers.map (fun x => decide (x ∈ common))
  let d := masked p1.widths mask
  if common.length = 0 then .error .noCommon else .ok (common, d)

/-- The two grids looked up (forecast_config.py L153). -/
def commonFor (f : Forecast K) (a b : Str) : Except Err (List K × List K) :=
  match f.cfgs.lookup a, f.cfgs.lookup b with
  | some p, some q => commonEll p q
  | _, _ => .error .keyError

/-- `checkProbesMultipoles` (forecast_config.py L143-149). -/
def checkMultipoles (f : Forecast K) : List (Str × Str) → Option Err
  | [] => none
  | (a, b) :: rest =>
    match f.cfgs.lookup a, f.cfgs.lookup b with
    | some p, some q =>
      match Ells.interArrays [p.centers, q.centers] with
      | .error e => some (.ell e)
      | .ok l => if l.length = 0 then some .incompatible else checkMultipoles f rest
    | _, _ => some .keyError

/-- The multipoles of a spectrum after the constructor and `setUp` (c_ells.py L86-87, L227-232).  The constructor asks
for the common ones also for an auto-correlation; `setUp` then takes those of the probe. -/
def spectrumEll (f : Forecast K) (a b : Str) : Except Err (List K × List K) :=
  match commonFor f a b with
  | .error e => .error e
  | .ok _ =>
    if a ≠ b then commonFor f a b
    else
      match f.cfgs.lookup a with
      | none => .error .keyError
      | some p => .ok (p.centers, p.widths)

/-- The grids of all spectra, as `AngularCoefficientsCollector.setUp` makes them (c_ells.py L398-407): one item per
combination, under its key. -/
def allEll (f : Forecast K) : List (Str × Str) → Except Err (List (Str × (List K × List K)))
  | [] => .ok []
  | (a, b) :: rest =>
    match spectrumEll f a b with
    | .error e => .error e
    | .ok g =>
      match allEll f rest with
      | .error e => .error e
      | .ok l => .ok ((Keys.combKey a b, g) :: l)

end

end Seyfert.FLoad
