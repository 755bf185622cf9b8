import Verif.Model.TaskConfig

/-!
The configurations of the tasks, seen from outside: a setting is a place in the configuration file.
-/

namespace Seyfert.TaskCfg

/-- What is at a place in nested dictionaries. -/
def J.at : J → List Str → Option J
  | v, [] => some v
  | .obj d, k :: ks => match d.lookup k with
    | some w => w.at ks
    | none => none
  | _, _ :: _ => none

/-- The place of a setting in the file, as in the files which come with the program. -/
def Setting.place : Setting → List Str
  | .zMin => ["redshift_grid".toList, "z_min".toList]
  | .zMax => ["redshift_grid".toList, "z_max".toList]
  | .nRedshifts => ["redshift_grid".toList, "n_redshifts".toList]
  | .code => ["boltzmann_codes_settings".toList, "code".toList]
  | .classSettings => ["boltzmann_codes_settings".toList, "class".toList]
  | .cambIni => ["boltzmann_codes_settings".toList, "camb".toList, "ini_filename".toList]
  | .lensingMethod => ["cl_integration_settings".toList, "lensing_efficiency".toList]
  | .clMethod => ["cl_integration_settings".toList, "cl".toList]
  | .kx => ["limber_pmm_spline_settings".toList, "kx".toList]
  | .ky => ["limber_pmm_spline_settings".toList, "ky".toList]
  | .smoothing => ["limber_pmm_spline_settings".toList, "s".toList]
  | .clDir => ["angular_dir".toList]
  | .xcFactor => ["shot_noise_phsp_xc_factor".toList]
  | .formula => ["fisher_formula".toList]
  | .clDerivatives => ["cl_derivatives".toList]

/-- The setting which a setter is for. -/
def Setter.setting : Setter → Setting
  | .zMin => .zMin
  | .zMax => .zMax
  | .nRedshifts => .nRedshifts
  | .code => .code
  | .cambIni => .cambIni
  | .clDir => .clDir

/-- A file is written by a call. -/
def Op.writes (p : Path) : Op → Prop
  | .write _ q => q = p
  | .other q _ => q = p
  | _ => False

/-- The number which a value in the file stands for. -/
def J.IsNum : J → ℚ → Prop
  | .int n, a => a = n
  | .num x, a => a = x
  | _, _ => False

/-- The names of the tasks. -/
def taskNames : List Str := ["PowerSpectrum".toList, "Angular".toList, "Derivative".toList, "Fisher".toList]

/-- `l` is the grid of `n` points which divides the interval from `a` to `b` evenly. -/
def Even (a b : ℚ) (n : Nat) (l : List ℚ) : Prop :=
  l.length = n ∧ ∀ (i : Nat) (x : ℚ), l[i]? = some x → x * (n - 1) = a * (n - 1 - i) + b * i

end Seyfert.TaskCfg
