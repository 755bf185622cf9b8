import Verif.Model.Retro

/-! What the files of earlier versions hold, with the names written out. -/

namespace Seyfert.Retro
open H5 (Path File)
open Stored (Val)
open CosmoFile (Cosmo)

variable {A : Type}

def path (p : List String) : Path := p.map String.toList

/-- The file has something under a path. -/
def Has (f : File (Val A)) (p : Path) : Prop := f.has p = true

/-- The file has an array under a path. -/
def Holds (f : File (Val A)) (p : Path) (a : A) : Prop := f.data.lookup p = some (.num a)

/-- The file has this array under a path, or nothing at all. -/
def Maybe (f : File (Val A)) (p : Path) : Option A → Prop
  | none => ¬ Has f p
  | some a => Holds f p a

/-- The cosmology of a file of version 1.0.4 or before: Hubble function, distance, redshifts, wave numbers, linear and
nonlinear spectrum, and maybe growth and transfer function. -/
structure Is104 (f : File (Val A)) (e r z k l n : A) (g t : Option A) : Prop where
  hubble : Holds f (path ["cosmology", "dimensionless_hubble_parameter"]) e
  distance : Holds f (path ["cosmology", "dimensionless_comoving_distance"]) r
  grid : Holds f (path ["cosmology", "z_array"]) z
  waves : Holds f (path ["power_spectrum", "k_array"]) k
  linear : Holds f (path ["power_spectrum", "p_mm_values", "lin_p_mm_z_k"]) l
  nonlinear : Holds f (path ["power_spectrum", "p_mm_values", "nonlin_p_mm_z_k"]) n
  growth : Maybe f (path ["growth_factor_z"]) g
  transfer : Maybe f (path ["transfer_function"]) t

/-- The group of a parameter in a file of version 1.1.0. -/
def group110 (n : Str) : Path := path ["cosmology", "cosmological_parameters"] ++ [n]

/-- A parameter of a file of version 1.1.0. -/
structure Par110 (f : File (Val A)) (n : Str) (p : Param.Par A) : Prop where
  name : p.name = n
  kind : p.kind = .cosmo
  fiducial : f.attrs.lookup (group110 n, "fiducial".toList) = some (.num p.fiducial)
  current : f.attrs.lookup (group110 n, "current".toList) = some (.num p.current)
  free : f.attrs.lookup (group110 n, "is_present".toList) = some (.flag p.free)

/-- The probes with a class of weight functions. -/
def Known (p : Str) : Prop :=
  p ∈ ["Lensing", "Void", "GalaxyClustering", "PhotometricGalaxy", "SpectroscopicGalaxy"].map String.toList

/-- A spectrum of an old file under its key: the probes are those of the key, and every array is where it belongs. -/
structure OldAt (f : File (Val A)) (n : Str) (c : OldCl A) : Prop where
  key : n = c.p1 ++ '_' :: c.p2
  one : '_' ∉ c.p1 ∧ '_' ∉ c.p2
  known : Known c.p1 ∧ Known c.p2
  cls : Holds f (path ["cls"] ++ [n, "c_lij".toList]) c.c
  ells : Holds f (path ["cls"] ++ [n, "l_bin_centers".toList]) c.ells
  widths : Holds f (path ["cls"] ++ [n, "l_bin_widths".toList]) c.widths
  kernel : Holds f (path ["kernels"] ++ [n, "k_ijz".toList]) c.k
  weight1 : Holds f (path ["weight_functions"] ++ [c.p1]) c.w1
  weight2 : Holds f (path ["weight_functions"] ++ [c.p2]) c.w2
  dens1 : Holds f (path ["density_functions"] ++ [c.p1, "norm_density_i_z".toList]) c.n1
  dens2 : Holds f (path ["density_functions"] ++ [c.p2, "norm_density_i_z".toList]) c.n2
  noKernel : c.kp1 = none ∧ c.kp2 = none ∧ c.kgrid = none

/-- The derivatives of a file under a key: a data set of this name, or `dc_lij` in a group of this name. -/
def DerAt (f : File (Val A)) (n : Str) (a : A) : Prop :=
  Holds f [n] a ∨ ((∀ v, f.data.lookup [n] ≠ some v) ∧ Holds f [n, "dc_lij".toList] a)

end Seyfert.Retro
