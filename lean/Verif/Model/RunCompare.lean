import Verif.Model.Compare
import Verif.Model.Keys
import Verif.Model.Config

/-!
The program which compares two runs, from loading them to saving the comparison
(`bin/compare_runs`, `seyfert/utils/run_loader.py`).  Line numbers without a file refer to `run_loader.py`.

Formats of old files, the choice of the reader and the loss of the fiducial spectra are in `Compare`; here a file holds
what its reader gives, and `none` is a file which cannot be read.  Directory listings come in any order, which is a
parameter.  Grids of redshift (L128-129) and the array `cosmo_keys` (L133) are not used later and are left out.
-/

namespace Seyfert.RunCmp

open Compare (Table)

/-- The exceptions of the functions modelled here, by their kinds (`run_loader.py` L25-330). -/
inductive Err where
  | attributeError | invalidVersion | badName | notUnique | noDirectory | unreadable | keyError | shapes | labels
  | key (e : Keys.Err)
deriving DecidableEq

/-- An array of `numpy`: its shape and its entries. For `numeric/general.py` L31-36 (see `padA`). -/
structure Arr where
  shape : List Nat
  vals : List ℚ
deriving DecidableEq

/-- `pad` of two arrays (`numeric/general.py` L31-36). Different shapes are an error; `numpy` would accept some of them. -/
def padA (x y : Arr) : Except Err Arr :=
  if x.shape = y.shape then .ok ⟨x.shape, List.zipWith Numeric.padArr x.vals y.vals⟩ else .error .shapes

/-- `pad` of two tables (`numeric/general.py` L37-49). -/
def padT (x y : Table (Str × Str) ℚ) : Except Err (Table (Str × Str) ℚ) :=
  match Numeric.padTables x y with
  | none => .error .labels
  | some t => .ok t

/-- The kernel of a spectrum, its two weight functions and their densities. For `c_ells.py` L463-472 (see `Cl`). -/
structure Kern where
  n1 : Arr
  n2 : Arr
  w1 : Arr
  w2 : Arr
  k : Arr
deriving DecidableEq

/-- A spectrum: values, and the kernel if the file has it (`c_ells.py` L463-472). -/
structure Cl where
  c : Arr
  ker : Option Kern
deriving DecidableEq

/-- Background of a cosmology: `E_z` and `r_tilde_z`. Both are there: a file without them is taken for unreadable.
For L38-52 (see `Loader`). -/
abbrev Cosmo := Arr × Arr

/-- A subdirectory of `Angular`: its name, `cosmology.h5`, and all files in it. For L117-132 (see `angLoop`). -/
structure AngDir where
  name : Str
  cosmo : Option (Option Cosmo)
  files : List (Str × Option (Dict Str Cl))

/-- A subdirectory of `Derivative`: its name and the files in it with the entries that `read_dcl_file` reads
(`retro_comp.py` L132-145). -/
structure DerDir where
  name : Str
  files : List (Str × Option (Dict Str Arr))

/-- A Fisher matrix as it is stored by `loadFishers` (L148-157): name, relevant part, inverse. -/
structure Fish where
  name : Str
  mat : Table (Str × Str) ℚ
  inv : Table (Str × Str) ℚ
deriving DecidableEq

/-- A directory of a run. `hdf5 d` are the files `*.hdf5` in the subdirectory `d`, in the order of the listing (none when
there is no such directory), `errors d` the errors which `loadFromResultsDir` reads from the subdirectory `d`, `none` when
there is no such directory. `M` is the type of the content of `run_metadata.json`. For L77-84 (see `loadInfo`). -/
structure RunDir (M : Type) where
  name : Str
  info : Option (Option M)
  power : Option (List (Str × Option Arr))
  angular : Option (List AngDir)
  derivative : Option (List DerDir)
  hdf5 : Str → List (Except Err Fish)
  errors : Str → Option (Except Err (Dict Str (Table (Str × Str) ℚ)))

/-- What a `RunLoader` holds (L38-52). -/
structure Loader (M : Type) where
  info : Option M := none
  version : Option Str := none
  pmms : Dict Str Arr := []
  cosmos : Dict Str Cosmo := []
  cls : Dict Str (Dict Str Cl) := []
  dcls : Dict Str (Dict Str Arr) := []
  fishers : Dict Str Fish := []
  results : Option (Dict Str (Table (Str × Str) ℚ)) := none

variable {M : Type}

/-- The key of a job (L101, L120). -/
def jobKey (q : Str × Int) : Str := q.1 ++ '_' :: Config.intStr q.2

/-- `loadMetadata` (L77-84). -/
def loadInfo (r : RunDir M) (l : Loader M) : Except Err (Loader M) :=
  match r.info with
  | some none => .error .unreadable
  | some (some m) => match Compare.searchVersion r.name with
    | none => .error .attributeError
    | some v => .ok { l with info := some m, version := some v }
  | none => match Compare.searchVersion r.name with
    | none => .error .attributeError
    | some v => .ok { l with version := some v }

/-- The loop of `loadPowerSpectra` (L99-102). -/
def powerLoop (d : Dict Str Arr) : List (Str × Option Arr) → Except Err (Dict Str Arr)
  | [] => .ok d
  | (n, f) :: rest => match Names.parseJobDir n with
    | none => .error .badName
    | some q => match f with
      | none => .error .unreadable
      | some a => powerLoop (PyDict.set d (jobKey q) a) rest

/-- `loadPowerSpectra` (L95-104). A power spectrum is represented by one array. -/
def loadPower (r : RunDir M) (l : Loader M) : Except Err (Loader M) :=
  match r.power with
  | none => .ok { l with pmms := [] }
  | some ds => match powerLoop [] ds with
    | .error e => .error e
    | .ok d => .ok { l with pmms := d }

/-- The readers refuse a version which `packaging` does not know (`retro_comp.py` L111, L120). -/
def checkVersion (l : Loader M) : Except Err Unit :=
  match l.version with
  | none => .error .invalidVersion
  | some v => match Compare.parseVersion v with
    | none => .error .invalidVersion
    | some _ => .ok ()

/-- The cosmology of one job (L122-125). -/
def loadCosmo (l : Loader M) (key : Str) : Option (Option Cosmo) → Except Err (Loader M)
  | none => .ok l
  | some f => match checkVersion l with
    | .error e => .error e
    | .ok _ => match f with
      | none => .error .unreadable
      | some c => .ok { l with cosmos := PyDict.set l.cosmos key c }

/-- A file that is the only one of its pattern, and its content (`filesystem_utils.py` L140-146). -/
def unique {V : Type} (files : List (Str × Option V)) : Except Err (Option V) :=
  match files.filter (fun q => Compare.globMatch "cl".toList ".h5".toList q.1) with
  | [q] => .ok q.2
  | _ => .error .notUnique

/-- The spectra of one job (L126-130). -/
def loadCl (l : Loader M) (key : Str) (files : List (Str × Option (Dict Str Cl))) : Except Err (Loader M) :=
  match unique files with
  | .error e => .error e
  | .ok f => match checkVersion l with
    | .error e => .error e
    | .ok _ => match f with
      | none => .error .unreadable
      | some c => .ok { l with cls := PyDict.set l.cls key c }

/-- The loop of `loadCosmologiesAndCls` (L117-132). -/
def angLoop (pars : List Str) (l : Loader M) : List AngDir → Except Err (Loader M)
  | [] => .ok l
  | d :: rest => match Names.parseJobDir d.name with
    | none => .error .badName
    | some q =>
      if q.1 ∈ pars then match loadCosmo l (jobKey q) d.cosmo with
        | .error e => .error e
        | .ok l' => match loadCl l' (jobKey q) d.files with
          | .error e => .error e
          | .ok l'' => angLoop pars l'' rest
      else angLoop pars l rest

/-- `loadCosmologiesAndCls()` (L106-135). -/
def loadAngular (r : RunDir M) (l : Loader M) : Except Err (Loader M) :=
  match r.angular with
  | none => .error .noDirectory
  | some ds => match Compare.variationParams (ds.map (·.name)) with
    | none => .error .badName
    | some pars => angLoop pars l ds

/-- The inner loop of `loadClDerivatives` (L144-146): `c_ells` has no function `cl_key_long_to_short`. -/
def shortKeys (dcl : Dict Str Arr) : Except Err (Dict Str Arr) :=
  match dcl with
  | [] => .ok []
  | _ :: _ => .error .attributeError

/-- The loop of `loadClDerivatives` (L139-146). -/
def derLoop (d : Dict Str (Dict Str Arr)) : List DerDir → Except Err (Dict Str (Dict Str Arr))
  | [] => .ok d
  | x :: rest => match unique x.files with
    | .error e => .error e
    | .ok none => .error .unreadable
    | .ok (some dcl) => match shortKeys dcl with
      | .error e => .error e
      | .ok s => derLoop (PyDict.set d x.name s) rest

/-- `loadClDerivatives` (L137-146). -/
def loadDers (r : RunDir M) (l : Loader M) : Except Err (Loader M) :=
  match r.derivative with
  | none => .error .noDirectory
  | some ds => match derLoop l.dcls ds with
    | .error e => .error e
    | .ok d => .ok { l with dcls := d }

/-- The loop of `loadFishers` (L150-157). -/
def fishLoop (d : Dict Str Fish) : List (Except Err Fish) → Except Err (Dict Str Fish)
  | [] => .ok d
  | .error e :: _ => .error e
  | .ok f :: rest => fishLoop (PyDict.set d f.name f) rest

/-- `loadFishers` (L148-157). -/
def loadFishers (r : RunDir M) (l : Loader M) : Except Err (Loader M) :=
  match fishLoop l.fishers (r.hdf5 "fisher_matrices".toList) with
  | .error e => .error e
  | .ok d => .ok { l with fishers := d }

/-- `loadResults` (L159-167). -/
def loadResults (r : RunDir M) (l : Loader M) : Except Err (Loader M) :=
  match r.errors "results".toList with
  | none => .ok l
  | some (.error e) => .error e
  | some (.ok t) => .ok { l with results := some t }

/-- `loadRunData` (L62-75) of a new `RunLoader`. -/
def loadRun (r : RunDir M) : Except Err (Loader M) :=
  (loadInfo r {}).bind fun l => (loadPower r l).bind fun l => (loadAngular r l).bind fun l =>
    (loadDers r l).bind fun l => (loadFishers r l).bind fun l => loadResults r l

/-! ### The comparison -/

/-- `ComparisonMetrics.metrics` (L246-254), without the power spectra, which the program does not compare (L284-287). The six
arrays of a spectrum are in the order of L359-364. -/
structure Metrics where
  cosmos : Dict Str (Arr × Arr) := []
  cls : Dict Str (Dict Str (List Arr)) := []
  dcls : Dict Str (Dict Str Arr) := []
  fisher : Dict Str (Table (Str × Str) ℚ) := []
  inverse : Dict Str (Table (Str × Str) ℚ) := []
  errs : Dict Str (Table (Str × Str) ℚ) := []
deriving DecidableEq

/-- What a warning about different keys (L396-401) is about. -/
inductive Warn where
  | cosmos | cls | spectra (job : Str) | dcls | fisher | errs
deriving DecidableEq

/-- A subscript. For L307-313 (see `cosmoPad`). -/
def get {V : Type} (d : Dict Str V) (k : Str) : Except Err V :=
  match d.lookup k with
  | none => .error .keyError
  | some v => .ok v

/-- A dictionary with an entry for each key of a list. For L351-367 (see `clData`). -/
def each {V : Type} (f : Str → Except Err V) : List Str → Except Err (Dict Str V)
  | [] => .ok []
  | k :: rest => (f k).bind fun v => (each f rest).bind fun d => .ok ((k, v) :: d)

/-- The warning of `getComparisonKeys`. For L284-297 (see `evaluate`). -/
def warn (w : Warn) (b : Bool) : List Warn := if b then [w] else []

/-- The keys of two dictionaries (L389-403). -/
def common {V : Type} (a b : Dict Str V) : List Str × Bool := Compare.comparisonKeys (a.map (·.1)) (b.map (·.1))

/-- `evaluateCosmoMetrics` (L307-313), one key. -/
def cosmoPad (a b : Dict Str Cosmo) (k : Str) : Except Err (Arr × Arr) :=
  (get a k).bind fun x => (get b k).bind fun y => (padA x.1 y.1).bind fun e => (padA x.2 y.2).bind fun r => .ok (e, r)

/-- A key of spectra as a text (`c_ells.py` L361, L368). -/
def strOf : Keys.Raw → Except Err Str
  | .str s => .ok s
  | _ => .error (.key .exception)

/-- The exceptions of the keys (`c_ells.py` L361, L368) among those of the comparison. -/
def lift {V : Type} : Except Keys.Err V → Except Err V
  | .ok v => .ok v
  | .error e => .error (.key e)

/-- `ClKey(key).toShortKey().key`, `ClKey(key).toLongKey().key` (`c_ells.py` L361, L368). -/
def keyAs (kind : Keys.Kind) (k : Str) : Except Err Str :=
  (lift (Keys.ctor (.str k))).bind fun key => (lift (Keys.transformTo key (some kind))).bind fun q => strOf q.raw

/-- `short_keys` (`c_ells.py` L359-361). -/
def shorts : List Str → Except Err (List Str)
  | [] => .ok []
  | k :: rest => (keyAs .short k).bind fun s => (shorts rest).bind fun l => .ok (s :: l)

/-- The kernel of a spectrum (`c_ells.py` L111-118): without it `weight1` is an attribute of `None`. -/
def kernOf (c : Cl) : Except Err Kern :=
  match c.ker with
  | none => .error .attributeError
  | some k => .ok k

/-- The six metrics of two spectra (L356-365). -/
def clPad (x y : Cl) : Except Err (List Arr) :=
  (padA x.c y.c).bind fun c => (kernOf x).bind fun u => (kernOf y).bind fun v =>
    (padA u.n1 v.n1).bind fun n1 => (padA u.n2 v.n2).bind fun n2 => (padA u.w1 v.w1).bind fun w1 =>
      (padA u.w2 v.w2).bind fun w2 => (padA u.k v.k).bind fun k => .ok [c, n1, n2, w1, w2, k]

/-- `buildClDataMetrics` (L351-367). -/
def clData (a b : Dict Str Cl) : Except Err (Dict Str (List Arr) × Bool) :=
  (shorts (a.map (·.1))).bind fun s => (shorts (b.map (·.1))).bind fun t =>
    (each (fun k => (keyAs .long k).bind fun q => (get a q).bind fun x => (get b q).bind fun y => clPad x y)
      (Compare.comparisonKeys s.dedup t.dedup).1).bind fun d => .ok (d, (Compare.comparisonKeys s.dedup t.dedup).2)

/-- `evaluateClDataMetrics` (L315-320), one key. -/
def clsPad (a b : Dict Str (Dict Str Cl)) (k : Str) : Except Err (Dict Str (List Arr) × Bool) :=
  (get a k).bind fun x => (get b k).bind fun y => clData x y

/-- `evaluateClDerivativesMetrics` (L322-331), one key: the spectra which both have, without a warning. -/
def dclPad (a b : Dict Str (Dict Str Arr)) (k : Str) : Except Err (Dict Str Arr) :=
  (get a k).bind fun x => (get b k).bind fun y =>
    each (fun s => (get x s).bind fun u => (get y s).bind fun v => padA u v)
      (common x y).1

/-- `evaluateFisherMetrics` (L333-338), one key. -/
def fishPad (a b : Dict Str Fish) (k : Str) : Except Err (Table (Str × Str) ℚ × Table (Str × Str) ℚ) :=
  (get a k).bind fun x => (get b k).bind fun y => (padT x.mat y.mat).bind fun m => (padT x.inv y.inv).bind fun i => .ok (m, i)

/-- `marg_errs` (L58-60). -/
def margErrs (l : Loader M) : Except Err (Dict Str (Table (Str × Str) ℚ)) :=
  match l.results with
  | none => .error .attributeError
  | some d => .ok d

/-- `evaluateMargErrsMetrics` (L340-344), one key. -/
def errPad (a b : Dict Str (Table (Str × Str) ℚ)) (k : Str) : Except Err (Table (Str × Str) ℚ) :=
  (get a k).bind fun x => (get b k).bind fun y => padT x y

/-- `evaluate()` (L284-297): the metrics and the warnings about keys, in order. -/
def evaluate (a b : Loader M) : Except Err (Metrics × List Warn) :=
  (each (cosmoPad a.cosmos b.cosmos) (common a.cosmos b.cosmos).1).bind fun co =>
  (each (clsPad a.cls b.cls) (common a.cls b.cls).1).bind fun cl =>
  (each (dclPad a.dcls b.dcls) (common a.dcls b.dcls).1).bind fun dc =>
  (each (fishPad a.fishers b.fishers) (common a.fishers b.fishers).1).bind fun fi =>
  (margErrs a).bind fun ea => (margErrs b).bind fun eb =>
  (each (errPad ea eb) (common ea eb).1).bind fun er =>
    .ok (⟨co, cl.map (fun q => (q.1, q.2.1)), dc, fi.map (fun q => (q.1, q.2.1)), fi.map (fun q => (q.1, q.2.2)), er⟩,
      warn .cosmos (common a.cosmos b.cosmos).2 ++
      (warn .cls (common a.cls b.cls).2 ++ cl.flatMap (fun q => warn (.spectra q.1) q.2.2)) ++
      warn .dcls (common a.dcls b.dcls).2 ++ warn .fisher (common a.fishers b.fishers).2 ++
      warn .errs (common ea eb).2)

/-- The report of `testAllMetrics` (L346-349): for each kind, a line for each key. -/
structure Report where
  errs : Dict Str Bool
  fisher : Dict Str Bool
  inverse : Dict Str Bool
deriving DecidableEq

/-- `testAllMetrics` (L346-349). -/
def testAll (m : Metrics) : Report :=
  ⟨Compare.checkPads m.errs (1 / 1000000), Compare.checkPads m.fisher (1 / 100000),
    Compare.checkPads m.inverse (1 / 100000)⟩

/-! ### The program -/

/-- A directory with a saved comparison: `metadata.json` and `full_metrics.pickle` (L212-227, L374-377). -/
structure Saved (M : Type) where
  info : Option M × Option M
  metrics : Metrics

/-- `metadata` of a comparison: a dictionary with the keys `run1` and `run2` after loading the runs (L199-205), a list after
loading a saved comparison (L231-232). -/
inductive Info (M : Type) where
  | dict (run1 run2 : Option M)
  | list (l : List (Option M))
deriving DecidableEq

/-- `f"comp_{v1}_vs_{v2}_{now}"` (L214); the text of `None` is `None`. -/
def compDir (v1 v2 : Option Str) (now : Str) : Str :=
  "comp_".toList ++ v1.getD "None".toList ++ "_vs_".toList ++ v2.getD "None".toList ++ '_' :: now

/-- `saveComparisonData(outdir)` (L212-227): the saved comparisons below `outdir`. -/
def save (now : Str) (a b : Loader M) (m : Metrics) (disk : Dict Str (Saved M)) : Dict Str (Saved M) :=
  PyDict.set disk (compDir a.version b.version now) ⟨(a.info, b.info), m⟩

/-- `loadComparisonData(dir)` (L229-235). -/
def loadSaved (disk : Dict Str (Saved M)) (dir : Str) : Except Err (Info M × Metrics) :=
  match disk.lookup dir with
  | none => .error .unreadable
  | some s => .ok (.list [s.info.1, s.info.2], s.metrics)

/-- What the program logs. For L24-36 (see `main`). -/
structure Log where
  warnings : List Warn
  report : Report
deriving DecidableEq

/-- `main` of `bin/compare_runs` (L24-36). -/
def main (now : Str) (r1 r2 : RunDir M) (disk : Dict Str (Saved M)) : Except Err Log × Dict Str (Saved M) :=
  match loadRun r1 with
  | .error e => (.error e, disk)
  | .ok a => match loadRun r2 with
    | .error e => (.error e, disk)
    | .ok b => match evaluate a b with
      | .error e => (.error e, disk)
      | .ok (m, ws) => (.ok ⟨ws, testAll m⟩, save now a b m disk)

end Seyfert.RunCmp
