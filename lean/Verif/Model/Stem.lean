import Mathlib.Algebra.Order.Field.Basic
import Mathlib.Algebra.Order.AbsoluteValue.Basic
import Mathlib.Data.List.Basic
import Verif.Model.PyNum

/-!
Model of the finite-difference and analytic derivatives, `seyfert/derivatives/differentiator.py`.
Numbers are an ordered field; NaN, infinities and rounding are not modelled.
-/

namespace Seyfert.Stem

variable {K : Type} [Field K] [LinearOrder K] [IsStrictOrderedRing K]

/-- The exceptions of the functions modelled here, by their kinds (`differentiator.py` L51-214). -/
inductive Err where
  | valueError | typeError | assertionError | notImplemented | differentiation | indexError
  deriving DecidableEq, Repr

/-! ### Straight line fit -/

/-- Sum in the formula of the least squares line (`differentiator.py` L96, L125: `np.polyfit`). -/
def sumX (p : List (K × K)) : K := (p.map (fun q => q.1)).sum
/-- As `sumX` (`differentiator.py` L96, L125). -/
def sumY (p : List (K × K)) : K := (p.map (fun q => q.2)).sum
/-- As `sumX` (`differentiator.py` L96, L125). -/
def sumXX (p : List (K × K)) : K := (p.map (fun q => q.1 * q.1)).sum
/-- As `sumX` (`differentiator.py` L96, L125). -/
def sumXY (p : List (K × K)) : K := (p.map (fun q => q.1 * q.2)).sum

/-- Slope and intercept of `np.polyfit(x, y, 1)` (L96, L125), by the closed formula of the least squares
line; `fit_least_squares` proves that it is the minimiser.  NumPy gives another answer (of minimal
norm) when all `x` are equal, which is not modelled.  The arrays `x` and `y` are kept as one list of
points. -/
def slope (p : List (K × K)) : K :=
  ((p.length : K) * sumXY p - sumX p * sumY p) / ((p.length : K) * sumXX p - sumX p * sumX p)

/-- The constant of `np.polyfit(x, y, 1)` (`differentiator.py` L96, L125). -/
def intercept (p : List (K × K)) : K := (sumY p - slope p * sumX p) / (p.length : K)

/-- `x[1:-1]`, `y[1:-1]` (L104-105, L136-137). -/
def trim {A : Type} (l : List A) : List A := l.tail.dropLast

theorem trim_length {A : Type} (l : List A) : (trim l).length = l.length - 2 := by
  simp only [trim, List.length_dropLast, List.length_tail]; omega

/-! ### Scalar version -/

/-- `np.abs((y - y_fit) / y) < 0.01` (L101-102) at a point: a division by zero gives infinity or NaN, and
the comparison is then false. -/
def closeTo (s i : K) (q : K × K) : Bool :=
  decide (q.2 ≠ 0) && decide (|(q.2 - (i + s * q.1)) / q.2| < 1 / 100)

/-- The loop of `STEM_derivative` (L95-105). -/
def loop (p : List (K × K)) : K :=
  if p.all (closeTo (slope p) (intercept p)) || decide (p.length ≤ 3) then slope p else loop (trim p)
termination_by p.length
decreasing_by
  rename_i h
  simp only [Bool.or_eq_true, decide_eq_true_eq, not_or, not_le] at h
  rw [trim_length]; omega

/-- `np.min(y) == np.max(y)` (L90, L119). -/
def isConst (y : List K) : Bool := y.all (fun a => decide (some a = y.head?))

/-- `STEM_derivative` (L88-107). -/
def stem (x y : List K) : Except Err K :=
  if y = [] then .error .valueError
  else if isConst y then .ok 0
  else if x.length ≠ y.length then .error .typeError
  else .ok (loop (x.zip y))

/-! ### Vectorised version -/

/-- One column of the arrays of `vectorizedSteM`: the remaining points, the stored slope and intercept, and
`not_linear_mask`. For `seyfert/derivatives/differentiator.py` L125-137 (see `colStep`). -/
structure Col (K : Type) where
  pts : List (K × K)
  s : K
  i : K
  notLin : Bool

/-- `err > 0.01` (L129-133) at a point: the absolute difference over the signed value, zero where the value
is zero. -/
def errBig (s i : K) (q : K × K) : Bool :=
  decide ((if q.2 ≠ 0 then |(q.1 * s + i) - q.2| / q.2 else 0) > 1 / 100)

/-- One pass of the loop on one column (L125-137). -/
def colStep (c : Col K) : Col K :=
  let s := if c.notLin then slope c.pts else c.s
  let i := if c.notLin then intercept c.pts else c.i
  { pts := trim c.pts, s := s, i := i, notLin := c.pts.any (errBig s i) }

/-- The loop (L124-140); `n` is the number of remaining points. -/
def vloop (n : Nat) (cols : List (Col K)) : List K :=
  if (cols.map colStep).all (fun c => !c.notLin) || decide (n - 2 ≤ 3) then
    (cols.map colStep).map (fun c => c.s)
  else vloop (n - 2) (cols.map colStep)
termination_by n
decreasing_by
  rename_i h
  simp only [Bool.or_eq_true, decide_eq_true_eq, not_or, not_le] at h
  omega

/-- `vectorizedSteM` (L109-144).  The array of spectra is the list of its columns (one for each multipole
and pair of bins), which is what the two `reshape` calls amount to. -/
def vectorized (x : List K) (ys : List (List K)) : Except Err (List K) :=
  if ∃ y ∈ ys, x.length ≠ y.length then .error .assertionError
  else if ys.flatten = [] then .error .valueError
  else if isConst ys.flatten then .ok (ys.map (fun _ => 0))
  else .ok (vloop x.length (ys.map (fun y => ⟨x.zip y, 0, 0, true⟩)))

/-! ### Analytic derivative -/

/-- The models of the bias which the analytic derivative tells apart (`differentiator.py` L163-214). -/
inductive BiasModel where
  | constant | piecewise | other
  deriving DecidableEq, Repr

/-- What the analytic derivative uses of a parameter and of the spectrum: the two probes, the bias model of
the parameter's probe, the number of bins on each axis. For `seyfert/cosmology/parameter.py` L102-103 (see `galaxyBias`). -/
structure Setting where
  name : Str
  nuisance : Bool
  probe : Str
  p1 : Str
  p2 : Str
  model : BiasModel
  deriving DecidableEq

/-- `is_galaxy_bias_parameter` (`seyfert/cosmology/parameter.py` L102-103). -/
def galaxyBias (st : Setting) : Bool := st.nuisance && (stripPrefix "bg".toList st.name).isSome

/-- `int(self.param.name[-1])` (L186) for an ASCII name. -/
def lastDigit (name : Str) : Except Err Nat :=
  match name.getLast? with
  | none => .error .indexError
  | some c => if isDigit c then .ok (digitVal c) else .error .valueError

/-- `(delta / bk) * c_lij` (L190-195). -/
def deltaTerm (cond : Bool) (bk c : K) : K := ((if cond then 1 else 0) / bk) * c

/-- `dc_lij` for the constant bias (L183, L188-195). -/
def constantEntry (st : Setting) (k : Nat) (bk : K) (c : Nat → Nat → Nat → K) (l i j : Nat) : K :=
  (if st.probe = st.p1 then deltaTerm (decide (i = k)) bk (c l i j) else 0) +
  (if st.probe = st.p2 then deltaTerm (decide (j = k)) bk (c l i j) else 0)

/-- `dc_lij` for the piecewise bias (L196-210).  `integral k l i j` is the Simpson integral of the Limber
integrand over the grid points of bin `k`. -/
def piecewiseEntry (st : Setting) (k : Nat) (bk : K) (integral : Nat → Nat → Nat → Nat → K)
    (l i j : Nat) : K :=
  (if st.probe = st.p1 then (1 / bk) * integral k l i j else 0) +
  (if st.probe = st.p2 then (1 / bk) * integral k l i j else 0)

/-- `AnalyticClDifferentiator.doComputeDerivative` (L173-214). -/
def analytic (st : Setting) (bk : K) (c : Nat → Nat → Nat → K)
    (integral : Nat → Nat → Nat → Nat → K) : Except Err (Nat → Nat → Nat → K) :=
  if galaxyBias st = false then .error .notImplemented
  else if st.probe ≠ st.p1 ∧ st.probe ≠ st.p2 then .error .differentiation
  else match st.model with
    | .other => .error .notImplemented
    | .constant =>
      match lastDigit st.name with
      | .error e => .error e
      | .ok k => .ok (constantEntry st k bk c)
    | .piecewise =>
      match lastDigit st.name with
      | .error e => .error e
      | .ok k => .ok (piecewiseEntry st k bk integral)

/-- `ClDifferentiator.computeDerivative` (L31-40). -/
def computeDerivative (st : Setting) (bk : K) (c : Nat → Nat → Nat → K)
    (integral : Nat → Nat → Nat → Nat → K) : Except Err (Nat → Nat → Nat → K) :=
  if st.nuisance = true ∧ st.probe ≠ st.p1 ∧ st.probe ≠ st.p2 then .ok (fun _ _ _ => 0)
  else analytic st bk c integral

end Seyfert.Stem
