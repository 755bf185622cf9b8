import Mathlib.Data.List.Sort
import Mathlib.Algebra.Field.Basic
import Mathlib.Algebra.BigOperators.Group.List.Basic
import Verif.Model.PyNum
import Verif.Model.Names

/-!
Redshift bins (`seyfert/cosmology/redshift_density.py`) and the bias models defined per bin (`seyfert/cosmology/bias.py`).
-/

namespace Seyfert.Redshift

/-- The exceptions of the functions modelled here, by their kinds (`bias.py` L197, L225; `redshift_density.py`
L271-284). -/
inductive Err
  | wrongOrder
  | biasError
  | noDigits
  | indexError
  | assertion
  deriving DecidableEq, Repr

section
variable {K : Type} [LinearOrder K]

/-- `get_bins_overlap` (`redshift_density.py` L256-269). -/
def overlap (l₁ r₁ l₂ r₂ : K) : Except Err (Option (K × K)) :=
  if r₁ ≤ l₁ then .error .wrongOrder
  else if r₂ ≤ l₂ then .error .wrongOrder
  else if r₁ ≤ l₂ ∨ r₂ ≤ l₁ then .ok none
  else .ok (some (max l₂ l₁, min r₂ r₁))

/-- The bins of a list of edges: `edges[i], edges[i + 1]` for `i` in `range(n_bins)`.
For `bias.py` L222-236 (see `conditions`). -/
def bins : List K → List (K × K)
  | a :: b :: l => (a, b) :: bins (b :: l)
  | _ => []

variable {F : Type} [Field F]

/-- One entry of the noise matrix (`redshift_density.py` L279-284): `m a b` is the integral of the density of spectroscopic galaxies from `a`
to `b`. -/
def noiseEntry (m : K → K → F) (b₁ b₂ : K × K) (n₁ n₂ : F) : Except Err F :=
  match overlap b₁.1 b₁.2 b₂.1 b₂.2 with
  | .error e => .error e
  | .ok none => .ok 0
  | .ok (some o) => .ok (m o.1 o.2 / (n₁ * n₂))

/-- `compute_photoXspectro_shotnoise_ij` (`redshift_density.py` L271-284) for densities of the right probes: rows are photometric bins with
their numbers of galaxies, columns spectroscopic ones. -/
def noiseMatrix (m : K → K → F) (ph sp : List ((K × K) × F)) : Except Err (List (List F)) :=
  ph.mapM fun p => sp.mapM fun s => noiseEntry m p.1 s.1 p.2 s.2

end

/-! ### Bias per bin -/

/-- `digit_regex.search(s)` and `int` (`bias.py` L214-218): the first run of digits; only the digits `0` to `9` are
considered. `none` is the `AttributeError` for a name without digits. -/
def biasIndex : Str → Option Nat
  | [] => none
  | c :: s => if isDigit c then some (decVal (Names.spanChars isDigit (c :: s)).1) else biasIndex s

section
variable {K V : Type} [LinearOrder K]

/-- `getSortedBiasValues` (`bias.py` L212-220): the parameters sorted by index; Python's sort is stable. -/
def sortedValues (pars : List (Str × V)) : Except Err (List V) :=
  if pars.all (fun q => (biasIndex q.1).isSome) then
    .ok ((pars.insertionSort (fun p q => (biasIndex p.1).getD 0 ≤ (biasIndex q.1).getD 0)).map (·.2))
  else .error .noDigits

/-- `np.piecewise` at one point with constant values: the last condition that holds decides.
For `bias.py` L205-210 (see `piecewise`). -/
def lastTrue (dflt : V) (l : List (Bool × V)) : V := l.foldl (fun acc q => if q.1 then q.2 else acc) dflt

/-- `getConditionAndValuesLists` (`bias.py` L222-236) at one redshift, for at least one bin; `b0` and `b1` are the first and last
values. -/
def conditions (edges : List K) (b : List V) (b0 b1 : V) (e0 e1 : K) (z : K) : List (Bool × V) :=
  (decide (z < e0), b0) :: (((bins edges).zip b).map fun q => (decide (q.1.1 ≤ z ∧ z ≤ q.1.2), q.2)) ++
    [(decide (e1 < z), b1)]

/-- `PiecewiseBias.computeBias` (`bias.py` L205-210): `n_bins` equal rows. With no bins the first value is missing. -/
def piecewise (zero : V) (edges : List K) (pars : List (Str × V)) (grid : List K) : Except Err (List (List V)) :=
  match sortedValues pars with
  | .error e => .error e
  | .ok b =>
    if b.length = edges.length - 1 then
      match b.head?, b.getLast?, edges.head?, edges.getLast? with
      | some b0, some b1, some e0, some e1 =>
        .ok (List.replicate b.length (grid.map fun z => lastTrue zero (conditions edges b b0 b1 e0 e1 z)))
      | _, _, _, _ => .error .indexError
    else .error .biasError

/-- `ConstantBias.computeBias` (`bias.py` L194-198): the values in the order of the dictionary. -/
def constant (edges : List K) (pars : List (Str × V)) (grid : List K) : Except Err (List (List V)) :=
  if pars.length = edges.length - 1 then .ok (pars.map fun q => List.replicate grid.length q.2)
  else .error .biasError

end

end Seyfert.Redshift
