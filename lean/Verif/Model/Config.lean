import Verif.Model.Keys
import Verif.Model.Parameter
import Verif.Model.PyDict
import Verif.Model.PyNum

/-!
Forecast configurations: `seyfert/config/forecast_config.py`, `seyfert/config/probe_config.py`,
`seyfert/config/main_config.py` and `seyfert/file_io/json_io.py`.
-/

namespace Seyfert.Config

/-! ### Probe combinations and cross-correlation flags -/

/-- `itertools.combinations_with_replacement(l, 2)` (`forecast_config.py` L121). -/
def combosWR {A : Type} : List A → List (A × A)
  | [] => []
  | p :: ps => (p :: ps).map (fun q => (p, q)) ++ combosWR ps

/-- `getXCDerivativeFlag` (`main_config.py` L171-182) for a flag table. -/
def xcFlag (table : Dict Str Bool) (key : Str) : Except Keys.Err Bool :=
  match table.lookup key with
  | some b => .ok b
  | none =>
    match Keys.reverseCombKey key with
    | .error e => .error e
    | .ok r =>
      match table.lookup r with
      | some b => .ok b
      | none => .error .keyError

/-! ### Values in a JSON file -/

/-- The values of options and of the edited entries; numbers other than integers are not used there.
For `forecast_config.py` L206-224 (see `isBool`). -/
inductive Val
  | bool (b : Bool)
  | int (n : Int)
  | str (s : Str)
  | null
  deriving DecidableEq, Repr

/-! ### Equality -/

/-- `np.all(a == b)` for one-dimensional arrays: an array of length one is compared with every entry of the other
one; other different lengths compare unequal (an exception in recent versions of NumPy).
For `probe_config.py` L122-136 (see `probeEq`). -/
def arrEq {K : Type} [DecidableEq K] (a b : List K) : Bool :=
  if a.length = b.length then decide (a = b)
  else match a, b with
    | [x], l => l.all (fun y => decide (x = y))
    | l, [y] => l.all (fun x => decide (x = y))
    | _, _ => false

/-- `==` of two dictionaries, given the equality of values. For `probe_config.py` L122-136 (see `probeEq`). -/
def dictEq {κ υ : Type} [BEq κ] (eq : υ → υ → Bool) (a b : List (κ × υ)) : Bool :=
  decide (a.length = b.length) && a.all (fun q => (b.lookup q.1).elim false (fun w => eq q.2 w))

section
variable {K : Type} [DecidableEq K]

/-- `PhysicalParameter.__eq__` (`parameter.py` L133-137). -/
def parEq (p q : Param.Par K) : Bool :=
  decide (p.name = q.name) && decide (p.fiducial = q.fiducial) && decide (p.kind = q.kind) &&
    decide (p.current = q.current)

/-- What a probe configuration holds (`probe_config.py` L27-42). Paths are split into directory and name, and the
settings that differ between probes are an arbitrary value. -/
structure ProbeCfg (K S : Type) where
  name : Str
  centers : List K
  widths : List K
  densityDir : Str
  densityName : Str
  bias : Option (Str × Str)
  marg : Bool
  diffMethod : Option Str
  nuisance : List (Str × Param.Par K)
  settings : S

variable {S : Type} [DecidableEq S]

/-- `ProbeConfig.__eq__` (`probe_config.py` L122-136), for configurations of known probes whose density file has been loaded. -/
def probeEq (a b : ProbeCfg K S) : Bool :=
  decide (a.name = b.name) && arrEq a.centers b.centers && arrEq a.widths b.widths &&
    decide (a.densityName = b.densityName) && decide (a.marg = b.marg) &&
    dictEq parEq a.nuisance b.nuisance && decide (a.settings = b.settings) &&
    (match a.bias, b.bias with
      | some x, some y => decide (x.2 = y.2)
      | _, _ => true)

/-- What a forecast configuration compares or could compare (`forecast_config.py` L28-48). -/
structure ForecastCfg (K S : Type) where
  pars : List (Str × Param.Par K)
  disps : Option (List K)
  flat : Bool
  probes : List (Str × ProbeCfg K S)
  fsky : K

variable [Zero K]

/-- `ForecastConfig.__eq__` (`forecast_config.py` L167-174). The two sky fractions stand in the list of conditions one after the other, so
each counts as true unless it is zero; they are not compared. -/
def forecastEq (a b : ForecastCfg K S) : Bool :=
  dictEq parEq a.pars b.pars && decide (a.flat = b.flat) && dictEq probeEq a.probes b.probes &&
    decide (a.fsky ≠ 0) && decide (b.fsky ≠ 0) &&
    decide (combosWR (a.probes.map (·.1)) = combosWR (b.probes.map (·.1)))

end

/-! ### The editor -/

/-- The exceptions of the functions modelled here, by their kinds (`forecast_config.py` L164-224). -/
inductive Err
  | missing
  | unrecognized
  | optionValue
  | typeError
  | keyError
  | notImplemented
  deriving DecidableEq, Repr

/-- Name of an option (`forecast_config.py` L187-193). -/
def scenarioS : Str := "scenario".toList
/-- Name of an option (`forecast_config.py` L187-193). -/
def nSpBinsS : Str := "n_sp_bins".toList
/-- Name of an option (`forecast_config.py` L187-193). -/
def minusS : Str := "gcph_minus_gcsp".toList
/-- Name of an option (`forecast_config.py` L187-193). -/
def reducedS : Str := "shot_noise_sp_reduced".toList
/-- Name of an option (`forecast_config.py` L187-193). -/
def onlyS : Str := "gcph_only_bins_in_spectro_range".toList

/-- `accepted_opt_names` (`forecast_config.py` L187-193). -/
def acceptedNames : List Str := [scenarioS, nSpBinsS, minusS, reducedS, onlyS]

/-- `isinstance(value, bool)` (`forecast_config.py` L206-224). -/
def isBool : Option Val → Bool
  | some (.bool _) => true
  | _ => false

/-- `checkOpts` (`forecast_config.py` L206-224); `none` means that the options are accepted. -/
def checkOpts (opts : Dict Str Val) : Option Err :=
  if ¬ ∀ n ∈ acceptedNames, n ∈ opts.map (fun q => q.1) then some .missing
  else if ¬ ∀ n ∈ opts.map (fun q : Str × Val => q.1), n ∈ acceptedNames then some .unrecognized
  else if ¬ (opts.lookup scenarioS = some (.str "optimistic".toList) ∨
      opts.lookup scenarioS = some (.str "pessimistic".toList)) then some .optionValue
  else if ¬ (opts.lookup nSpBinsS = some (.int 4) ∨ opts.lookup nSpBinsS = some (.int 12) ∨
      opts.lookup nSpBinsS = some (.int 24) ∨ opts.lookup nSpBinsS = some (.int 40)) then some .optionValue
  else if isBool (opts.lookup minusS) = false then some .typeError
  else if isBool (opts.lookup reducedS) = false then some .typeError
  else if isBool (opts.lookup onlyS) = false then some .typeError
  else none

/-- Options that have been accepted. For `forecast_config.py` L274-284 (see `multipoleSets`). -/
structure Opts where
  pessimistic : Bool
  bins : Nat
  minus : Bool
  reduced : Bool
  only : Bool
  deriving DecidableEq, Repr

/-- The part of the configuration that the editor works on: the options noted in the file and the dictionaries of
the probes. For `forecast_config.py` L269-272 (see `updateData`). -/
structure Cfg where
  synth : Dict Str Val
  probes : Dict Str (Dict Str Val)
  deriving DecidableEq

/-- `self.config.probes[probe][key] = value`; `KeyError` if there is no such probe.
For `forecast_config.py` L164-224 (see `Err`). -/
def setIn (c : Cfg) (p k : Str) (v : Val) : Cfg × Option Err :=
  if p ∈ c.probes.map (·.1) then
    ({ c with probes := PyDict.modify c.probes p (fun d => PyDict.set d k v) }, none)
  else (c, some .keyError)

/-- Several assignments one after the other, up to the first exception. For `forecast_config.py` L269-272 (see `updateData`). -/
def setAll (c : Cfg) : List (Str × Str × Val) → Cfg × Option Err
  | [] => (c, none)
  | (p, k, v) :: l =>
    match setIn c p k v with
    | (c', none) => setAll c' l
    | (c', some e) => (c', some e)

/-- `updateMultipoles` (`forecast_config.py` L274-284). -/
def multipoleSets (o : Opts) : List (Str × Str × Val) :=
  (["GCph".toList, "GCsp".toList].flatMap fun p =>
    [(p, "l_min".toList, .int 10), (p, "l_max".toList, .int (if o.pessimistic then 750 else 3000)),
      (p, "log_l_number".toList, .int 100), (p, "ell_log_selection".toList, .bool true)]) ++
  [("WL".toList, "ell_external_filename".toList,
    .str (if o.pessimistic then "wl_pess_ells_10_750_log_nell_100_and_750_1500_lin.txt".toList
      else "wl_optm_ells_10_3000_log_nell_100_and_3000_5000_lin.txt".toList))]

/-- `updateGCphDensityAndBias` (`forecast_config.py` L286-297): the assignments, or the exception for two options that exclude each
other. -/
def gcphSets (o : Opts) : Except Err (List (Str × Str × Val)) :=
  if o.minus then
    if o.only then .error .notImplemented
    else .ok [("GCph".toList, "density_file".toList, .str "gcph_dndz_redbook_gcsp_subtracted.h5".toList)]
  else if o.only then
    .ok [("GCph".toList, "density_file".toList, .str "gcph_dndz_redbook_only_bins_in_spectro_range.h5".toList),
      ("GCph".toList, "bias_file".toList, .str "gcph_bias_piecewise_only_bins_in_spectro_range.h5".toList)]
  else
    .ok [("GCph".toList, "density_file".toList, .str "gcph_dndz_redbook.h5".toList),
      ("GCph".toList, "bias_file".toList, .str "gcph_bias_piecewise.h5".toList)]

/-- `updateGCspDensityAndBias` (`forecast_config.py` L299-301). -/
def gcspSets (o : Opts) : List (Str × Str × Val) :=
  [("GCsp".toList, "density_file".toList, .str ("gcsp_dndz_".toList ++ decStr o.bins ++ "_bins.h5".toList)),
    ("GCsp".toList, "bias_file".toList,
      .str ("gcsp_bias_piecewise_".toList ++ decStr o.bins ++ "_bins.h5".toList))]

/-- `updateData` (`forecast_config.py` L269-272) with the given options. -/
def updateData (o : Opts) (c : Cfg) : Cfg × Option Err :=
  match setAll c (multipoleSets o) with
  | (c1, some e) => (c1, some e)
  | (c1, none) =>
    match gcphSets o with
    | .error e => (c1, some e)
    | .ok l =>
      match setAll c1 l with
      | (c2, some e) => (c2, some e)
      | (c2, none) => setAll c2 (gcspSets o)

/-- The options as a dictionary, in the order in which `scripts/generate_fcfgs.py` (L11-17) gives them. -/
def optsDict (o : Opts) : Dict Str Val :=
  [(scenarioS, .str (if o.pessimistic then "pessimistic".toList else "optimistic".toList)),
    (nSpBinsS, .int o.bins), (reducedS, .bool o.reduced), (minusS, .bool o.minus), (onlyS, .bool o.only)]

/-- The constructor (`forecast_config.py` L195-205): the options are checked, then noted in the configuration. -/
def newEditor (opts : Dict Str Val) (base : Cfg) : Except Err Cfg :=
  match checkOpts opts with
  | some e => .error e
  | none => .ok { base with synth := PyDict.update base.synth opts }

/-- `f"{n}"`. For `json_io.py` L102-107 (see `idPart`). -/
def intStr (n : Int) : Str := if n < 0 then '-' :: decStr n.natAbs else decStr n.natAbs

/-- One part of `getConfigID` (`json_io.py` L102-107). -/
def idPart : Str × Val → Option Str
  | (k, .bool b) => if b then some k else none
  | (k, .int n) => some (k ++ "_".toList ++ intStr n)
  | (k, .str s) => some (k ++ "_".toList ++ s)
  | (k, .null) => some (k ++ "_None".toList)

/-- `getConfigID` (`json_io.py` L100-114). -/
def configID (synth : Dict Str Val) : Option Str :=
  if synth.filterMap idPart = [] then none else some (joinStr "__".toList (synth.filterMap idPart))

/-- `createFileName` without date (`forecast_config.py` L256-267). -/
def fileName (o : Opts) (order : Dict Str Val) : Str :=
  (if o.pessimistic then "pessimistic".toList else "optimistic".toList) ++ "_".toList ++ decStr o.bins ++
    "_sp_bins".toList ++
    (order.flatMap fun q => match q.2 with
      | .bool true => "_".toList ++ q.1
      | _ => []) ++ ".json".toList

/-! ### Input files of a probe -/

/-- `getProbeInitFile` (`probe_config.py` L54-69): `exist` says which files there are. The variable is never `None`
after the loop, so the exception (`probe_config.py` L66-67) cannot be raised. -/
def probeInitFile (short long : Str) (exist : Str → Bool) (filename : Str) : Str :=
  let dirs := [short ++ "/".toList ++ filename, long ++ "/".toList ++ filename, filename]
  (dirs.find? exist).getD filename

end Seyfert.Config
