import Verif.Model.PyStr
import Verif.Model.PyDict

/-!
Model of the comparison of objects which hold arrays: `compare_objects` (`seyfert/utils/general_utils.py` L138-160), which
is the `==` of redshift densities, biases, bias models and kernels, and the `==` of weight functions, power spectra,
spectra and their uncertainties.

Numbers have a decidable equality; NaN, which differs from itself, is left out. An array is given by its axes, the last
one first, and its elements.
-/

namespace Seyfert.Same

/-- An array of NumPy as far as `compare_objects` looks at it (`general_utils.py` L138-160). -/
structure Arr (E : Type) where
  /-- Lengths of the axes, the last axis first. -/
  axes : List Nat
  /-- The element at an index, the last coordinate first. -/
  elem : List Nat → E

variable {E : Type} [DecidableEq E]

/-- The indices of an array. For `general_utils.py` L148-151 (see `compare`). -/
def indices : List Nat → List (List Nat)
  | [] => [[]]
  | n :: s => (List.range n).flatMap fun i => (indices s).map (i :: ·)

/-- The axes of two arrays combined element by element (numpy): axes are aligned at the last one, and an axis of length one
is stretched. `none` if the arrays do not fit. For `general_utils.py` L148-151 (see `allEq`). -/
def stretch : List Nat → List Nat → Option (List Nat)
  | [], t => some t
  | s, [] => some s
  | a :: s, b :: t => if a = b then (stretch s t).map (a :: ·)
    else if a = 1 then (stretch s t).map (b :: ·)
    else if b = 1 then (stretch s t).map (a :: ·)
    else none

/-- The index in an array with the given axes for an index in a stretched one. For `general_utils.py` L148-151 (see `allEq`). -/
def pick : List Nat → List Nat → List Nat
  | n :: s, i :: is => (if n = 1 then 0 else i) :: pick s is
  | _, _ => []

/-- `np.all(a == b)`. `clash` is what comes of arrays which do not fit: false in older versions of numpy, an exception
(`none`) from version 1.25 on. For `general_utils.py` L148-151 (see `compare`). -/
def allEq (clash : Option Bool) (a b : Arr E) : Option Bool :=
  match stretch a.axes b.axes with
  | none => clash
  | some s => some ((indices s).all fun i => decide (a.elem (pick a.axes i) = b.elem (pick b.axes i)))

/-- The value of an attribute. For `general_utils.py` L148-151 (see `compare`). -/
inductive Val (E : Type) where
  | none
  | num (x : E)
  | text (s : Str)
  | flag (b : Bool)
  | dict (d : List (Str × E))
  | arr (a : Arr E)

/-- `==` of dictionaries. For `general_utils.py` L148-151 (see `compare`). -/
def dictEq (d e : List (Str × E)) : Bool :=
  decide (d.length = e.length) && d.all fun p => decide (e.lookup p.1 = some p.2)

/-- The comparison of two attributes (`general_utils.py` L148-151): `np.all(v == w)` if one of them is an array, `v == w`
otherwise. An array is compared with something which is no number element by element, which is false for every
element. -/
def compare (clash : Option Bool) : Val E → Val E → Option Bool
  | .arr a, .arr b => allEq clash a b
  | .arr a, .num x => allEq clash a ⟨[], fun _ => x⟩
  | .num x, .arr b => allEq clash ⟨[], fun _ => x⟩ b
  | .arr a, _ => some (indices a.axes).isEmpty
  | _, .arr b => some (indices b.axes).isEmpty
  | .none, .none => some true
  | .num x, .num y => some (decide (x = y))
  | .text s, .text t => some (decide (s = t))
  | .flag b, .flag c => some (decide (b = c))
  | .dict d, .dict e => some (dictEq d e)
  | _, _ => some false

/-- The comparisons of all attributes of the first object which are not excluded (L140-152), in order; an attribute which
the second object does not have raises. -/
def conditions (clash : Option Bool) (excluded : List Str) (b : List (Str × Val E)) :
    List (Str × Val E) → Option (List Bool)
  | [] => some []
  | (k, v) :: l =>
    if k ∈ excluded then conditions clash excluded b l
    else match b.lookup k with
      | none => none
      | some w => match compare clash v w with
        | none => none
        | some c => match conditions clash excluded b l with
          | none => none
          | some cs => some (c :: cs)

/-- `compare_objects` (L138-160); `none` is an exception. -/
def compareObjects (clash : Option Bool) (excluded : List Str) (a b : List (Str × Val E)) : Option Bool :=
  (conditions clash excluded b a).map fun cs => cs.all id

/-- The attributes which are printed as different (L155-159): the names of all attributes, the excluded ones too, beside
the comparisons of those not excluded. -/
def reported (clash : Option Bool) (excluded : List Str) (a b : List (Str × Val E)) : Option (List Str) :=
  (conditions clash excluded b a).map fun cs =>
    (((a.map (·.1)).zip cs).filter fun p => !p.2).map (·.1)

/-- The `==` of classes which list the attributes to compare: `WeightFunction` (`weight_functions.py` L123-124),
`PowerSpectrum` (`power_spectrum.py` L113-120), `AngularCoefficient` (`c_ells.py` L285-290), `DeltaCl`
(`fisher/delta_cl.py` L76-82). `WeightFunction` does not go on after the first difference, which makes a difference only
for exceptions; this is left out. -/
def compareListed (clash : Option Bool) (names : List Str) (a b : List (Str × Val E)) : Option Bool :=
  match names with
  | [] => some true
  | k :: ks => match a.lookup k, b.lookup k with
    | some v, some w => match compare clash v w with
      | none => none
      | some c => (compareListed clash ks a b).map (c && ·)
    | _, _ => none

/-- `==` of two collections of spectra (`c_ells.py` L426-427): the spectra of the first one are compared with those of the
second one under the same name, which raises if there is none. -/
def compareCollected (clash : Option Bool) (names : List Str) :
    List (Str × List (Str × Val E)) → List (Str × List (Str × Val E)) → Option Bool
  | [], _ => some true
  | (k, v) :: a, b => match b.lookup k with
    | none => none
    | some w => match compareListed clash names v w with
      | none => none
      | some c => (compareCollected clash names a b).map (c && ·)

/-- The attributes compared by weight functions (`weight_functions.py` L123-124). -/
def weightNames : List Str := ["z_grid".toList, "w_bin_z".toList]
/-- The attributes compared by power spectra (`power_spectrum.py` L113). -/
def powerNames : List Str :=
  ["z_grid".toList, "k_grid".toList, "lin_p_mm_z_k".toList, "nonlin_p_mm_z_k".toList, "transfer_function".toList]
/-- The attributes compared by spectra (`c_ells.py` L285). -/
def spectraNames : List Str := ["c_lij".toList, "l_bin_centers".toList, "l_bin_widths".toList]
/-- The attributes compared by uncertainties (`delta_cl.py` L76). -/
def deltaNames : List Str := ["delta_c_lij".toList, "noise_lij".toList, "l_bin_centers".toList, "l_bin_widths".toList]

/-- The attributes excluded by `RedshiftDensity` (`redshift_density.py` L49-51) and `Bias` (`bias.py` L58). -/
def densityExcluded : List Str :=
  ["dN_dz_dOmega_spline".toList, "input_file".toList, "ready_to_evaluate".toList, "bin_norm_factors".toList,
   "n_iz_splines".toList, "good_fraction_params".toList, "catastrophic_fraction_params".toList]
/-- The attribute a bias excludes (`bias.py` L58). -/
def biasExcluded : List Str := ["model".toList]

/-- The attributes of a redshift density in the order of `RedshiftDensity.__init__` (`redshift_density.py` L30-51). The set
of excluded names, which is an attribute too and the same for all of them, is left out. -/
structure Density (E : Type) where
  probe : Val E
  zGrid : Val E
  normDensity : Val E
  inputDomain : Val E
  binNorms : Val E
  perBin : Val E
  edges : Val E
  response : Val E
  good : Val E
  catastrophic : Val E
  fromInput : Val E
  inputDensity : Val E
  spline : Val E
  splines : Val E
  inputBins : Val E
  inputFile : Val E
  fsky : Val E
  ready : Val E

/-- The dictionary `__dict__` of a redshift density (`redshift_density.py` L30-51). -/
def Density.attributes (d : Density E) : List (Str × Val E) :=
  [("probe".toList, d.probe), ("z_grid".toList, d.zGrid), ("norm_density_iz".toList, d.normDensity),
   ("input_z_domain".toList, d.inputDomain), ("bin_norm_factors".toList, d.binNorms), ("dN_dOmega_bins".toList, d.perBin),
   ("z_bin_edges".toList, d.edges), ("instrument_response".toList, d.response),
   ("good_fraction_params".toList, d.good), ("catastrophic_fraction_params".toList, d.catastrophic),
   ("has_niz_from_input".toList, d.fromInput), ("input_dN_dz_dOmega".toList, d.inputDensity),
   ("dN_dz_dOmega_spline".toList, d.spline), ("n_iz_splines".toList, d.splines), ("input_n_iz".toList, d.inputBins),
   ("input_file".toList, d.inputFile), ("catalog_f_sky".toList, d.fsky), ("ready_to_evaluate".toList, d.ready)]

/-- `RedshiftDensity.__eq__` (L201-202). -/
def Density.equal (clash : Option Bool) (a b : Density E) : Option Bool :=
  compareObjects clash densityExcluded a.attributes b.attributes

end Seyfert.Same
