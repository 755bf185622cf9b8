import Verif.Model.Config
import Mathlib.Algebra.Field.Basic

/-!
Kernels (`seyfert/cosmology/kernel_functions.py`) and angular spectra (`seyfert/cosmology/c_ells.py`).

Arrays are functions of their indices; the shapes are given beside them.
-/

namespace Seyfert.Kernel

variable {K : Type} [Field K]

/-- The state of a weight function that matters here: its values, if it has been evaluated, and what an evaluation on
a grid gives. For `kernel_functions.py` L14-45 (see `Kern`). -/
structure Weight (G K : Type) where
  probe : Str
  nBins : Nat
  w : Option (Nat → Nat → K)
  eval : G → Nat → Nat → K

/-- The cosmology on a grid: `H(z)`, `r(z)`, the speed of light. For `kernel_functions.py` L66-67 (see `product`). -/
structure Cosmo (K : Type) where
  H : Nat → K
  r : Nat → K
  c : K

/-- `KernelFunction` (`kernel_functions.py` L14-45). -/
structure Kern (G K : Type) where
  weight1 : Weight G K
  weight2 : Weight G K
  k : Option (Nat → Nat → Nat → K)
  grid : Option G

/-- `np.expand_dims(w1, 1) * np.expand_dims(w2, 0) * c / (H * r**2)` (`kernel_functions.py` L66-67). -/
def product (co : Cosmo K) (w1 w2 : Nat → Nat → K) : Nat → Nat → Nat → K :=
  fun i j z => w1 i z * w2 j z * co.c / (co.H z * co.r z ^ 2)

/-- A weight function evaluated unless it already is. For `kernel_functions.py` L56-69 (see `evaluate`). -/
def Weight.ensure {G : Type} (v : Weight G K) (g : G) : Weight G K :=
  match v.w with
  | some _ => v
  | none => { v with w := some (v.eval g) }

/-- The values of a weight function; zeros before evaluation, which does not happen below.
For `kernel_functions.py` L56-69 (see `evaluate`). -/
def Weight.values {G : Type} (v : Weight G K) : Nat → Nat → K := v.w.getD (fun _ _ => 0)

/-- `evaluateOverRedshiftGrid` (`kernel_functions.py` L56-69). When the two probes are the same, it makes no difference whether the two weight functions are one object. -/
def evaluate {G : Type} (co : Cosmo K) (ker : Kern G K) (g : G) (overwrite : Bool) : Kern G K :=
  if overwrite = true ∨ ker.k = none then
    let v1 := ker.weight1.ensure g
    let v2 := if v1.probe = ker.weight2.probe then { ker.weight2 with w := v1.w } else ker.weight2.ensure g
    { weight1 := v1, weight2 := v2, k := some (product co v1.values v2.values), grid := some g }
  else ker

/-! ### Angular spectra -/

/-- `c_lij[:, i, j] = v`. For `c_ells.py` L180-189 (see `autoStep`). -/
def setIJ (c : Nat → Nat → Nat → K) (i j : Nat) (v : Nat → K) : Nat → Nat → Nat → K :=
  fun l i' j' => if i' = i ∧ j' = j then v l else c l i' j'

/-- `getLimberRedshiftIntegrand` and `computeClIntegral` (`c_ells.py` L161-162, L196-222): `integ` is the integration
rule on the redshift grid, any function of the integrand. -/
def integral (integ : (Nat → K) → K) (limber : Nat → Nat → K) (k : Nat → Nat → Nat → K) (i j l : Nat) : K :=
  integ (fun z => limber l z * k i j z)

/-- One turn of the loop over pairs of bins of an auto-correlation (`c_ells.py` L180-189). -/
def autoStep (integ : (Nat → K) → K) (limber : Nat → Nat → K) (k : Nat → Nat → Nat → K) (offDiag : Bool)
    (c : Nat → Nat → Nat → K) (p : Nat × Nat) : Nat → Nat → Nat → K :=
  if p.1 ≠ p.2 ∧ offDiag = false then c
  else
    let c' := setIJ c p.1 p.2 (fun l => integral integ limber k p.1 p.2 l)
    setIJ c' p.2 p.1 (fun l => c' l p.1 p.2)

/-- `evaluateAngularCorrelation` (`c_ells.py` L164-194) for one probe with itself; `offDiag` is true for all probes but the
spectroscopic galaxies, for which it is a setting (`c_ells.py` L174-178). -/
def autoCl (integ : (Nat → K) → K) (limber : Nat → Nat → K) (k : Nat → Nat → Nat → K) (offDiag : Bool) (n : Nat) :
    Nat → Nat → Nat → K :=
  (Config.combosWR (List.range n)).foldl (autoStep integ limber k offDiag) (fun _ _ _ => 0)

/-- The same for two different probes (`c_ells.py` L190-194). -/
def crossCl (integ : (Nat → K) → K) (limber : Nat → Nat → K) (k : Nat → Nat → Nat → K) (n m : Nat) :
    Nat → Nat → Nat → K :=
  ((List.range n).flatMap fun i => (List.range m).map fun j => (i, j)).foldl
    (fun c p => setIJ c p.1 p.2 (fun l => integral integ limber k p.1 p.2 l)) (fun _ _ _ => 0)

/-- Which rule `computeClIntegral` uses (`c_ells.py` L200-222), and which it refuses. -/
inductive Rule
  | newtonCotes (order : Str)
  | simpson
  | romberg
  | quad
  deriving DecidableEq, Repr

/-- The exceptions of the functions modelled here, by their kinds (`c_ells.py` L190-230). -/
inductive Err
  | unknownMethod
  | badSamples
  | overflow
  deriving DecidableEq, Repr

/-- The text after the last underscore of the method. For `c_ells.py` L208-212 (see `chooseRule`). -/
def afterUnderscore (s : Str) : Str := ((splitChar '_' s).getLast?).getD []

/-- The choice of the rule for a grid of `n` points; for Romberg's rule the number of intervals must be a power of two
(`c_ells.py` L208-212). `int(log2(0))` raises another exception. -/
def chooseRule (method : Str) (n : Nat) : Except Err Rule :=
  if (stripPrefix "newton-cotes".toList method).isSome then .ok (.newtonCotes (afterUnderscore method))
  else if method = "simpson".toList then .ok .simpson
  else if method = "romberg".toList then
    if n ≤ 1 then .error .overflow
    else if 2 ^ Nat.log2 (n - 1) = n - 1 then .ok .romberg
    else .error .badSamples
  else if method = "quad".toList then .ok .quad
  else .error .unknownMethod

end Seyfert.Kernel
