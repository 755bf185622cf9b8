import Verif.Model.CosmoFile
import Verif.Model.Compare

/-!
Reading the files of earlier versions (`seyfert/file_io/retro_comp.py`; line numbers without a file refer to it), with
the writer of old files and what the objects read can be used for. The file is the one of `Model/H5.lean`, the
cosmology that of `Model/CosmoFile.lean`. Data sets which are read hold arrays: a text or a truth value counts as an error.
-/

namespace Seyfert.Retro
open H5 (Path File)
open Stored (Op Val View Err putO view runOps kids readDict)
open CosmoFile (Cosmo Power attNum attFlag)

/-- The names of groups, data sets and attributes in old files. For `seyfert/file_io/retro_comp.py` L15-24 (see `N`). -/
inductive Fld
  | cosmology | zArray | hubble | distance | power | kArray | values | lin | nonlin | growth | transfer
  | zGrid | hubbleArr | distArr | pars | fiducial | present | current
  | cls | dens | weights | kernels | cLij | ells | widths | kIjz | norm | kernel | probe1 | probe2 | dcLij
  deriving DecidableEq, Repr

/-- The texts of the names (`retro_comp.py`, the keys of the groups read and written there).
For `seyfert/file_io/retro_comp.py` L15-24 (see `oldOps`). -/
def N : Fld → Str
  | .cosmology => "cosmology".toList
  | .zArray => "z_array".toList
  | .hubble => "dimensionless_hubble_parameter".toList
  | .distance => "dimensionless_comoving_distance".toList
  | .power => "power_spectrum".toList
  | .kArray => "k_array".toList
  | .values => "p_mm_values".toList
  | .lin => "lin_p_mm_z_k".toList
  | .nonlin => "nonlin_p_mm_z_k".toList
  | .growth => "growth_factor_z".toList
  | .transfer => "transfer_function".toList
  | .zGrid => "z_grid".toList
  | .hubbleArr => "dimensionless_hubble_array".toList
  | .distArr => "dimensionless_comoving_distance_array".toList
  | .pars => "cosmological_parameters".toList
  | .fiducial => "fiducial".toList
  | .present => "is_present".toList
  | .current => "current".toList
  | .cls => "cls".toList
  | .dens => "density_functions".toList
  | .weights => "weight_functions".toList
  | .kernels => "kernels".toList
  | .cLij => "c_lij".toList
  | .ells => "l_bin_centers".toList
  | .widths => "l_bin_widths".toList
  | .kIjz => "k_ijz".toList
  | .norm => "norm_density_i_z".toList
  | .kernel => "kernel".toList
  | .probe1 => "probe1".toList
  | .probe2 => "probe2".toList
  | .dcLij => "dc_lij".toList

variable {A : Type}

/-! ### Cosmologies -/

/-- The calls of `write_old_cosmo_file` (L15-24); `h5py` refuses `None` as data. -/
def oldOps (c : Cosmo A) : List (Op (Val A)) :=
  putO [N .cosmology, N .zArray] c.grid :: match c.power with
  | none => [.fail .attributeError]
  | some p => [putO [N .power, N .kArray] p.k, putO [N .power, N .values, N .lin] p.lin,
      putO [N .power, N .values, N .nonlin] p.nonlin]

/-- `write_old_cosmo_file` (L15-24): mode `w` empties the file first. -/
def writeOld (c : Cosmo A) : Except Err Unit × File (Val A) := runOps File.empty (oldOps c)

/-- `read_v104_cosmo_file` (L27-57). The growth factor is read and not used. -/
def read104 (f : File (Val A)) : Except Err (Cosmo A) :=
  let v := view f []
  (v.num [N .cosmology, N .hubble]).bind fun e =>
  (v.num [N .cosmology, N .distance]).bind fun r =>
  (v.num [N .cosmology, N .zArray]).bind fun z =>
  (v.num [N .power, N .kArray]).bind fun k =>
  (v.num [N .power, N .values, N .lin]).bind fun l =>
  (v.num [N .power, N .values, N .nonlin]).bind fun n =>
  (v.opt [N .growth]).bind fun _ =>
  (v.opt [N .transfer]).bind fun t =>
    .ok { grid := some z, hubble := some e, distance := some r,
          power := some { z := some z, k := some k, lin := some l, nonlin := some n, transfer := t } }

/-- A parameter of `read_v110_cosmo_file` (L67-78), with the defaults of the constructor (`parameter.py` L28-30). The
flag is a truth value of `numpy`. -/
def par110 [One A] (v : View (Val A)) (n : Str) : Except Err (Param.Par A) :=
  (attNum (v.sub [n]) (N .fiducial)).bind fun x =>
  (attFlag (v.sub [n]) (N .present)).bind fun b =>
  (attNum (v.sub [n]) (N .current)).bind fun y =>
    .ok { name := n, fiducial := x, current := y, kind := .cosmo, probe := none, free := b, numpyFlag := true, stem := 1,
          description := [], units := "None".toList, method := "SteM".toList }

/-- `read_v110_cosmo_file` (L60-79). -/
def read110 [One A] (f : File (Val A)) : Except Err (Cosmo A) :=
  let v := view f [N .cosmology]
  (v.num [N .zGrid]).bind fun z =>
  (v.num [N .hubbleArr]).bind fun e =>
  (v.num [N .distArr]).bind fun r =>
    if v.has [N .pars] then
      (readDict (par110 (v.sub [N .pars])) (v.kids [N .pars])).bind fun ps =>
        .ok { grid := some z, hubble := some e, distance := some r, pars := some ps }
    else .error .keyError

/-- `read_cosmo_file` (L121-131). -/
def readCosmo [One A] (chk : Dict Str (Param.Par A) → Bool → Bool) (version : Str) (f : File (Val A))
    (withPower : Bool) : Except Err (Cosmo A) :=
  match Compare.cosmoReader version with
  | .error _ => .error .valueError
  | .ok .v104 => read104 f
  | .ok .v110 => read110 f
  | .ok .current => CosmoFile.loadCosmo chk f [] withPower

/-- `Cosmology.h` (`cosmology.py` L77-91), on which the Hubble parameter and the distances in units depend (L82-85, L171,
L183): the attribute `items` of `None`, or the key, may be missing. -/
def reducedHubble (c : Cosmo A) : Except Err A :=
  match c.pars with
  | none => .error .attributeError
  | some ps => match ps.lookup "h".toList with
    | none => .error .keyError
    | some p => .ok p.current

/-! ### Spectra -/

/-- A spectrum read from an old file (L88-110): its arrays, those of its kernel, weight functions and densities, and the
probes and the redshifts of the kernel, which are not set. -/
structure OldCl (A : Type) where
  p1 : Str
  p2 : Str
  c : A
  ells : A
  widths : A
  k : A
  w1 : A
  w2 : A
  n1 : A
  n2 : A
  kp1 : Option Str := none
  kp2 : Option Str := none
  kgrid : Option A := none
  deriving DecidableEq

/-- The classes of weight functions which can be made (`weight_functions.py` L128-292, L350-360). -/
def classes : List Str :=
  ["Lensing".toList, "Void".toList, "GalaxyClustering".toList, "PhotometricGalaxy".toList, "SpectroscopicGalaxy".toList]

/-- `weight_function_for_probe(probe)` (`weight_functions.py` L350-360). The names `WeightFunction` and `H5WeightFunction`
(of the probes `` and `H5`) are found and refused with another exception. -/
def weightFor (p : Str) : Except Err Unit :=
  if p ∈ classes then .ok ()
  else if p = [] ∨ p = "H5".toList then .error .typeError
  else .error .attributeError

/-- One spectrum of `read_v104_cls_file` (L90-109). -/
def oldCl (v : View (Val A)) (key : Str) : Except Err (OldCl A) :=
  match splitChar '_' key with
  | [p1, p2] =>
    (v.num [N .cls, key, N .cLij]).bind fun c =>
    (v.num [N .cls, key, N .ells]).bind fun l =>
    (v.num [N .cls, key, N .widths]).bind fun w =>
    (v.num [N .kernels, key, N .kIjz]).bind fun k =>
    (weightFor p1).bind fun _ =>
    (weightFor p2).bind fun _ =>
    (v.num [N .weights, p1]).bind fun w1 =>
    (v.num [N .weights, p2]).bind fun w2 =>
    (v.num [N .dens, p1, N .norm]).bind fun n1 =>
    (v.num [N .dens, p2, N .norm]).bind fun n2 =>
      .ok { p1 := p1, p2 := p2, c := c, ells := l, widths := w, k := k, w1 := w1, w2 := w2, n1 := n1, n2 := n2 }
  | _ => .error .valueError

/-- `read_v104_cls_file` (L82-110). -/
def readCls104 (f : File (Val A)) : Except Err (Dict Str (OldCl A)) :=
  let v := view f []
  if v.has [N .cls] && v.has [N .dens] && v.has [N .weights] && v.has [N .kernels] then
    readDict (oldCl v) (v.kids [N .cls])
  else .error .keyError

/-- `get_probes_combination_key` (`general_utils.py` L115-116), with the text of `None`. -/
def keyOf (p1 p2 : Option Str) : Str := p1.getD "None".toList ++ '_' :: p2.getD "None".toList

/-- `obs_key` of a spectrum with a kernel (`c_ells.py` L100-105, `kernel_functions.py` L48-50). -/
def obsKey (c : OldCl A) : Str := keyOf c.kp1 c.kp2

/-- Setting an attribute: `h5py` refuses `None`. For `c_ells.py` L270-272, L474-493 (see `saveOldCl`). -/
def attO (p : Path) (n : Str) : Option Str → Op (Val A)
  | none => .fail .typeError
  | some s => .att p n (.str s)

/-- `AngularCoefficient.saveToHDF5` of a spectrum which was read from an old file (`c_ells.py` L270-272, L474-493,
`kernel_functions.py` L103-107). The weight functions are saved after the kernel and are left out. -/
def saveOldCl (r : Path) (c : OldCl A) : List (Op (Val A)) :=
  let q := r ++ [Stored.key c.p1 c.p2]
  [.enter r, .put (q ++ [N .cLij]) (.num c.c), .put (q ++ [N .ells]) (.num c.ells), .put (q ++ [N .widths]) (.num c.widths),
   .enter (q ++ [N .kernel]), attO (q ++ [N .kernel]) (N .probe1) c.kp1, attO (q ++ [N .kernel]) (N .probe2) c.kp2,
   putO (q ++ [N .kernel, N .zGrid]) c.kgrid, .put (q ++ [N .kernel, N .kIjz]) (.num c.k)]

/-- `saveToHDF5` of the collection (`c_ells.py` L532-545), which has no redshifts and no weight functions of its own. -/
def saveOldColl (r : Path) (d : Dict Str (OldCl A)) : List (Op (Val A)) :=
  .enter r :: .group (r ++ [N .cls]) :: d.flatMap (fun p => saveOldCl (r ++ [N .cls]) p.2)

/-! ### Derivatives -/

/-- `read_dcl_file` (L134-145): a data set counts as the derivatives, a group has them in `dc_lij`. -/
def readDcl (f : File (Val A)) : Except Err (Dict Str A) :=
  readDict (fun n => if Stored.isData f [n] then (view f []).num [n] else (view f []).num [n, N .dcLij]) (kids f [])

end Seyfert.Retro
