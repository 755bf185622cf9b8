import Verif.Model.Session

/-!
Specification for the class `Seyfert`: what the angular spectra of a configuration are, and which histories of calls use
each run directory for one configuration.
-/

namespace Seyfert.Sess

open Work (Path inputDirName paramsName)

variable {C F P M G D B Q S : Type}

/-- A configuration: the contents of its files, the directory of its data, and whether its universe is flat. -/
structure Conf (C : Type) where
  forecast : C
  powerSpectrum : C
  angular : C
  derivative : C
  fisher : C
  data : Path
  flat : Bool

/-- The forecast configuration, the parameters and the settings of two tasks. -/
def Conf.f (lib : Lib C F P M G D B Q S) (c : Conf C) : Option F := lib.forecast c.forecast c.data
def Conf.p (lib : Lib C F P M G D B Q S) (c : Conf C) : Option P := (c.f lib).bind lib.params
def Conf.pmm (lib : Lib C F P M G D B Q S) (c : Conf C) : Option M := lib.config "PowerSpectrum".toList c.powerSpectrum
def Conf.cl (lib : Lib C F P M G D B Q S) (c : Conf C) : Option M := lib.config "Angular".toList c.angular

/-- The density of a probe, from its file and on the grid of the configuration. -/
def Conf.dens (lib : Lib C F P M G D B Q S) (file : Path → Option C) (c : Conf C) (n : Str) : Option D :=
  (c.f lib).bind fun f => (c.pmm lib).bind fun m => ((lib.probes f).lookup n).bind fun x => (file x).bind fun t =>
    lib.density t (lib.grid m)

/-- The angular spectra of a configuration, computed directly from its files. -/
def Conf.spectra (lib : Lib C F P M G D B Q S) (file : Path → Option C) (c : Conf C) : Option S :=
  (c.f lib).bind fun f => (c.p lib).bind fun p => (c.pmm lib).bind fun m => (c.cl lib).bind fun a =>
    (lib.cosmo p c.flat (lib.grid m)).bind fun b => (lib.spectrum p m).bind fun q =>
      lib.cls b q p (c.dens lib file) f a

/-- A path of the copies of the input files of a run directory. -/
def InCopies (run p : Path) : Prop := ∃ x, p = run ++ [inputDirName, x]

/-- The five configuration files which the arguments name, with the default for each. -/
def files (site : Site) (a : Args) : List Path :=
  [a.forecast.getD (site.cfg ++ ["basic_forecast_config.json".toList]),
   a.powerSpectrum.getD (site.cfg ++ ["power_spectrum_config.json".toList]),
   a.angular.getD (site.cfg ++ ["angular_config.json".toList]),
   a.derivative.getD (site.cfg ++ ["derivative_config.json".toList]),
   a.fisher.getD (site.cfg ++ ["fisher_config.json".toList])]

/-- The run directory is the one given, or the directory of tests under the present one in test mode. -/
def InDir (site : Site) (a : Args) (r : Path) : Prop :=
  (a.test = true ∧ r = site.cwd ++ ["test_seyfert_run".toList]) ∨ (a.test = false ∧ a.workdir = some r)

/-- The directory of the data is given as a path, or is the one of the package if none is given. -/
def DataIn (site : Site) (a : Args) (d : Path) : Prop :=
  a.dataDir = some (.path d) ∨ (a.dataDir = none ∧ d = site.data)

/-- The arguments name the run directory `r` and files with the contents of the configuration `c`; the files have
different names and are not themselves copies in one of the run directories `homes`. -/
structure Names (site : Site) (file : Path → Option C) (homes : Path → Prop) (r : Path) (c : Conf C) (a : Args) : Prop where
  inDir : InDir site a r
  dataIn : DataIn site a c.data
  forecast : file (a.forecast.getD (site.cfg ++ ["basic_forecast_config.json".toList])) = some c.forecast
  powerSpectrum : file (a.powerSpectrum.getD (site.cfg ++ ["power_spectrum_config.json".toList])) = some c.powerSpectrum
  angular : file (a.angular.getD (site.cfg ++ ["angular_config.json".toList])) = some c.angular
  derivative : file (a.derivative.getD (site.cfg ++ ["derivative_config.json".toList])) = some c.derivative
  fisher : file (a.fisher.getD (site.cfg ++ ["fisher_config.json".toList])) = some c.fisher
  apart : ((files site a).map Work.name).Nodup
  notParams : ∀ p ∈ files site a, Work.name p ≠ paramsName
  away : ∀ p ∈ files site a, ∀ r, homes r → ¬ InCopies r p

/-- A call which keeps to the plan `home`, `conf`: every object has its run directory, every run directory its
configuration, the flatness given is that of the configuration, and densities are not cut off. -/
def Keeps (site : Site) (file : Path → Option C) (home : Nat → Path) (conf : Path → Conf C) : Op → Prop
  | .new i (some a) => Names site file (fun r => ∃ i, r = home i) (home i) (conf (home i)) a
  | .new _ none => False
  | .setArgs i a => Names site file (fun r => ∃ i, r = home i) (home i) (conf (home i)) a
  | .cosmology i _ flat => flat = (conf (home i)).flat
  | .killDensities _ _ => False
  | _ => True

end Seyfert.Sess
