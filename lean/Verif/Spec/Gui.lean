import Verif.Model.Gui
import Verif.Spec.ForecastLoad

/-! Specification of what the configuration window shows: the numbers in its fields, and the forecast they describe. -/

namespace Seyfert.Gui

open Param (Par Args)
open Keys (Probe)

variable {K : Type}

/-- The numbers in a row of the table of cosmological parameters. -/
structure RowValues (K : Type) where
  fiducial : K
  free : Bool
  stem : K

/-- The numbers in the text fields of the window that are numbers. -/
structure Values (K : Type) where
  fSky : K
  rows : List (Row × RowValues K)
  aIA : K
  cIA : K
  etaIA : K
  betaIA : K

/-- The text is `true` or `false` in any case of the letters. -/
def IsFlag (s : Str) (b : Bool) : Prop := s.map Char.toLower = (if b then "true".toList else "false".toList)

/-- The texts of a row stand for the values. -/
def RowShows (num : Str → Option K) (r : Row) (v : RowValues K) : Prop :=
  num r.fiducial = some v.fiducial ∧ IsFlag r.free v.free ∧ num r.stem = some v.stem

/-- The texts in the window stand for the values. -/
def Shows (num : Str → Option K) (s : Screen K) (v : Values K) : Prop :=
  num s.fSky = some v.fSky ∧ v.rows.map (·.1) = s.cosmo ∧ (∀ p ∈ v.rows, RowShows num p.1 p.2) ∧
    num s.aIA = some v.aIA ∧ num s.cIA = some v.cIA ∧ num s.etaIA = some v.etaIA ∧ num s.betaIA = some v.betaIA

/-- The texts of the displacements stand for the numbers. -/
def Displacements (num : Str → Option K) (s : Screen K) (base : List K) : Prop := s.stem.map num = base.map some

/-- The cosmological parameter in a row. -/
def cosmoPar (r : Row) (v : RowValues K) : Par K :=
  { name := r.name, fiducial := v.fiducial, current := v.fiducial, kind := .cosmo, probe := none, free := v.free,
    numpyFlag := false, stem := v.stem, description := [], units := r.units, method := r.method }

/-- A parameter of the intrinsic alignment: it is filed under the probe `WL`. -/
def alignPar [One K] (name : Str) (x : K) (free : Bool) : Par K :=
  { name := name, fiducial := x, current := x, kind := .nuisance, probe := some "WL".toList, free := free,
    numpyFlag := false, stem := 1, description := [], units := "None".toList, method := "SteM".toList }

/-- The parameters of the intrinsic alignment: varied exactly if the box is ticked, except `cIA`. -/
def alignPars [One K] (s : Screen K) (v : Values K) : List (Str × Par K) :=
  [("aIA".toList, alignPar "aIA".toList v.aIA (decide (s.ia ≠ 0))), ("cIA".toList, alignPar "cIA".toList v.cIA false),
    ("etaIA".toList, alignPar "etaIA".toList v.etaIA (decide (s.ia ≠ 0))),
    ("betaIA".toList, alignPar "betaIA".toList v.betaIA (decide (s.ia ≠ 0)))]

/-- The multipoles of a tab: those of the file if a name is entered, else those of the limits. -/
def tabGrid (disk : Disk K) (t : Tab K) : Except FLoad.Err (List K × List K) :=
  if t.file ≠ [] then disk.ofFile t.file
  else disk.ofLimits t.lmin t.lmax (decide (t.logSel ≠ 0)) (if t.logSel ≠ 0 then some t.nLog else none)

/-- The parameters of a bias file, varied if the box is ticked, with the method chosen. -/
def biasOf [One K] (disk : Disk K) (p : Probe) (file : Str) (marg : Nat) (diff : Str) : List (Str × Par K) :=
  (disk.bias file).map (fun kv => (kv.1, FLoad.biasPar p (decide (marg ≠ 0)) (some diff) kv))

/-- The tabs that can be read back, with their probes. -/
def Screen.tabs (s : Screen K) : List (Probe × Tab K) := [(.lensing, s.wl), (.photo, s.ph), (.spectro, s.sp)]

/-- The ones ticked. -/
def Screen.ticked (s : Screen K) : List (Probe × Tab K) := s.tabs.filter (fun q => decide (q.2.present ≠ 0))

/-- All parameters on the screen: the table, and those of the tabs ticked. -/
def shown [One K] (disk : Disk K) (s : Screen K) (v : Values K) : List (Str × Par K) :=
  v.rows.map (fun p => (p.1.name, cosmoPar p.1 p.2)) ++ (if s.wl.present ≠ 0 then alignPars s v else []) ++
    (if s.ph.present ≠ 0 then biasOf disk .photo s.phBias s.phMarg s.phDiff else []) ++
    (if s.sp.present ≠ 0 then biasOf disk .spectro s.spBias s.spMarg s.spDiff else [])

end Seyfert.Gui
