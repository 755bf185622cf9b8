import Verif.Model.Numeric
import Mathlib.Algebra.Polynomial.Derivative
import Mathlib.Algebra.Polynomial.Eval.Degree
import Mathlib.MeasureTheory.Integral.IntervalIntegral.FundThmCalculus
import Mathlib.Analysis.Calculus.Deriv.Polynomial
import Mathlib.Topology.Algebra.Polynomial
import Mathlib.Tactic.LinearCombination
import Mathlib.Tactic.IntervalCases
import Mathlib.Tactic.Positivity
import Mathlib.Tactic.FieldSimp

/-!
C34: composite Newton–Cotes integration.
-/

set_option linter.unusedSectionVars false

namespace Seyfert.Numeric

open Finset Polynomial

section
variable {K : Type} [Field K] [CharZero K]

/-- The degree up to which the rule with `o` intervals is exact: `o`, and one more if `o` is even. -/
def exactDegree (o : Nat) : Nat := if o % 2 = 0 then o + 1 else o

theorem deriv_eval_range (P : K[X]) {m : Nat} (hP : P.natDegree ≤ m) (x : K) :
    (derivative P).eval x = ∑ i ∈ range (m + 1), P.coeff i * ((i : K) * x ^ (i - 1)) := by
  rw [derivative_eval, P.sum_over_range' (by simp) (m + 1) (by omega)]
  exact sum_congr rfl (fun i _ => by ring)

/-- A formula that holds for powers holds for polynomials. -/
theorem lift_powers (P : K[X]) {m : Nat} (hP : P.natDegree ≤ m) (A B : K) (s : Finset ℕ) (c t : ℕ → K)
    (hmon : ∀ i ≤ m, B ^ i - A ^ i = ∑ j ∈ s, c j * ((i : K) * t j ^ (i - 1))) :
    P.eval B - P.eval A = ∑ j ∈ s, c j * (derivative P).eval (t j) := by
  have h1 : ∑ j ∈ s, c j * (derivative P).eval (t j)
      = ∑ i ∈ range (m + 1), P.coeff i * ∑ j ∈ s, c j * ((i : K) * t j ^ (i - 1)) := by
    simp only [deriv_eval_range P hP, mul_sum]
    rw [sum_comm]
    exact sum_congr rfl (fun i _ => sum_congr rfl (fun j _ => by ring))
  rw [h1, eval_eq_sum_range' (show P.natDegree < m + 1 by omega), eval_eq_sum_range' (show P.natDegree < m + 1 by omega),
    ← sum_sub_distrib]
  refine sum_congr rfl (fun i hi => ?_)
  rw [← hmon i (by have := mem_range.mp hi; omega)]
  ring

theorem powers1 (a h : K) : ∀ i : ℕ, i ≤ 2 → (a + 1 * h) ^ i - a ^ i
    = ∑ j ∈ range 2, (h * ncWeight 1 j) * ((i : K) * (a + j * h) ^ (i - 1)) := by
  intro i hi
  interval_cases i <;> simp [sum_range_succ, ncWeight] <;> ring

theorem powers2 (a h : K) : ∀ i : ℕ, i ≤ 4 → (a + 2 * h) ^ i - a ^ i
    = ∑ j ∈ range 3, (h * ncWeight 2 j) * ((i : K) * (a + j * h) ^ (i - 1)) := by
  intro i hi
  interval_cases i <;> simp [sum_range_succ, ncWeight] <;> ring

theorem powers3 (a h : K) : ∀ i : ℕ, i ≤ 4 → (a + 3 * h) ^ i - a ^ i
    = ∑ j ∈ range 4, (h * ncWeight 3 j) * ((i : K) * (a + j * h) ^ (i - 1)) := by
  intro i hi
  interval_cases i <;> simp [sum_range_succ, ncWeight] <;> ring

theorem powers4 (a h : K) : ∀ i : ℕ, i ≤ 6 → (a + 4 * h) ^ i - a ^ i
    = ∑ j ∈ range 5, (h * ncWeight 4 j) * ((i : K) * (a + j * h) ^ (i - 1)) := by
  intro i hi
  interval_cases i <;> simp [sum_range_succ, ncWeight] <;> ring

theorem powers5 (a h : K) : ∀ i : ℕ, i ≤ 6 → (a + 5 * h) ^ i - a ^ i
    = ∑ j ∈ range 6, (h * ncWeight 5 j) * ((i : K) * (a + j * h) ^ (i - 1)) := by
  intro i hi
  interval_cases i <;> simp [sum_range_succ, ncWeight] <;> ring

theorem powers6 (a h : K) : ∀ i : ℕ, i ≤ 8 → (a + 6 * h) ^ i - a ^ i
    = ∑ j ∈ range 7, (h * ncWeight 6 j) * ((i : K) * (a + j * h) ^ (i - 1)) := by
  intro i hi
  interval_cases i <;> simp [sum_range_succ, ncWeight] <;> ring

theorem powers {o : Nat} (h1 : 1 ≤ o) (h6 : o ≤ 6) (a h : K) : ∀ i : ℕ, i ≤ exactDegree o + 1 →
    (a + o * h) ^ i - a ^ i = ∑ j ∈ range (o + 1), (h * ncWeight o j) * ((i : K) * (a + j * h) ^ (i - 1)) := by
  interval_cases o
  · exact_mod_cast powers1 a h
  · exact_mod_cast powers2 a h
  · exact_mod_cast powers3 a h
  · exact_mod_cast powers4 a h
  · exact_mod_cast powers5 a h
  · exact_mod_cast powers6 a h

/-- One panel is exact. -/
theorem panel {o : Nat} (h1 : 1 ≤ o) (h6 : o ≤ 6) (P : K[X]) (hP : P.natDegree ≤ exactDegree o + 1) (a h : K) :
    h * ∑ j ∈ range (o + 1), ncWeight o j * (derivative P).eval (a + j * h)
      = P.eval (a + o * h) - P.eval a := by
  rw [lift_powers P hP a (a + o * h) (range (o + 1)) (fun j => h * ncWeight o j) (fun j => a + j * h)
    (powers h1 h6 a h), mul_sum]
  exact sum_congr rfl (fun j _ => by ring)

theorem doIntegrate_exact {o n : Nat} (h1 : 1 ≤ o) (h6 : o ≤ 6) (hn : 2 ≤ n) (P : K[X])
    (hP : P.natDegree ≤ exactDegree o + 1)
    (hend : (n - 1) % o = 0 ∨ P.natDegree ≤ exactDegree ((n - 1) % o) + 1) (x0 h : K) :
    doIntegrate o n h (fun i => (derivative P).eval (x0 + i * h))
      = P.eval (x0 + (n - 1 : Nat) * h) - P.eval x0 := by
  have hdiv := Nat.div_add_mod (n - 1) o
  have hlt := Nat.mod_lt (n - 1) (show 0 < o by omega)
  generalize (n - 1) / o = nb at hdiv
  unfold doIntegrate
  have hmain : ∑ delta ∈ range (o + 1),
      h * ∑ k ∈ range nb, ncWeight o delta * (derivative P).eval (x0 + ((o * k + delta : Nat) : K) * h)
      = P.eval (x0 + (o * nb : Nat) * h) - P.eval x0 := by
    have : ∀ k, h * ∑ j ∈ range (o + 1), ncWeight o j * (derivative P).eval (x0 + ((o * k + j : Nat) : K) * h)
        = P.eval (x0 + (o * (k + 1) : Nat) * h) - P.eval (x0 + (o * k : Nat) * h) := by
      intro k
      have := panel h1 h6 P hP (x0 + (o * k : Nat) * h) h
      rw [show x0 + ((o * (k + 1) : Nat) : K) * h = x0 + (o * k : Nat) * h + o * h by push_cast; ring, ← this]
      congr 1
      refine sum_congr rfl (fun j _ => ?_)
      congr 2
      push_cast
      ring
    rw [← mul_sum, sum_comm, mul_sum, sum_congr rfl (fun k _ => this k),
      sum_range_sub (fun k => P.eval (x0 + ((o * k : Nat) : K) * h))]
    simp
  have hnb : (n - 1) / o = nb := by
    have : o * ((n - 1) / o) = o * nb := by have := Nat.div_add_mod (n - 1) o; omega
    exact Nat.eq_of_mul_eq_mul_left (by omega) this
  rw [hnb, hmain]
  by_cases h0 : (n - 1) % o = 0
  · rw [if_neg (by simpa using h0)]
    rw [h0, Nat.add_zero] at hdiv
    rw [hdiv, add_zero]
  · rw [if_pos h0]
    have hP' := hend.resolve_left h0
    have hp := panel (o := (n - 1) % o) (by omega) (by omega) P hP' (x0 + (o * nb : Nat) * h) h
    have hs : n - ((n - 1) % o + 1) = o * nb := by omega
    rw [hs]
    have : ∀ j : Nat, x0 + ((o * nb + j : Nat) : K) * h = x0 + (o * nb : Nat) * h + j * h := by
      intro j; push_cast; ring
    simp only [this]
    rw [hp]
    have he : x0 + ((n - 1 : Nat) : K) * h = x0 + (o * nb : Nat) * h + ((n - 1) % o : Nat) * h := by
      rw [← hdiv, Nat.mul_add_mod, Nat.mod_mod]
      push_cast
      ring
    rw [he]
    ring

/-- The uniform grid. -/
def grid (x0 h : K) (n : Nat) : List K := (List.range n).map (fun i : Nat => x0 + (i : K) * h)

theorem grid_getD (x0 h : K) {n i : Nat} (hi : i < n) : (grid x0 h n).getD i 0 = x0 + (i : K) * h := by
  simp [grid, hi]

theorem doIntegrate_congr {o n : Nat} (ho : 0 < o) (hn : 0 < n) (dx : K) {y z : Nat → K} (h : ∀ i < n, y i = z i) :
    doIntegrate o n dx y = doIntegrate o n dx z := by
  have hdiv := Nat.div_add_mod (n - 1) o
  have hlt := Nat.mod_lt (n - 1) ho
  unfold doIntegrate
  congr 1
  · refine sum_congr rfl (fun d hd => ?_)
    congr 1
    refine sum_congr rfl (fun k hk => ?_)
    rw [h]
    have h1 := mem_range.mp hd
    have h2 := mem_range.mp hk
    have h3 : o * (k + 1) ≤ o * ((n - 1) / o) := Nat.mul_le_mul_left o h2
    rw [Nat.mul_add, Nat.mul_one] at h3
    omega
  · split
    · congr 1
      refine sum_congr rfl (fun j hj => ?_)
      rw [h]
      have h1 := mem_range.mp hj
      have h2 := Nat.mod_le (n - 1) o
      omega
    · rfl

/-- The samples of a polynomial on a uniform grid. -/
def samples (p : K[X]) (x0 h : K) (n : Nat) : List K := (grid x0 h n).map (fun x => p.eval x)

theorem samples_getD (p : K[X]) (x0 h : K) {n i : Nat} (hi : i < n) :
    (samples p x0 h n).getD i 0 = p.eval (x0 + (i : K) * h) := by
  simp [samples, grid, hi]

theorem computeIntegral_ok {x y : List K} {o : Nat} (h1 : 1 ≤ o) (h6 : o ≤ 6) (hl : y.length = x.length)
    (hn : 2 ≤ x.length) : computeIntegral x y o
      = .ok (doIntegrate o x.length (x.getD 1 0 - x.getD 0 0) (fun i => y.getD i 0)) := by
  unfold computeIntegral
  rw [if_neg (by omega), if_neg (by omega), if_neg (by simpa using hl), if_neg (by omega)]
  rfl

/-- C34 (partial). On a uniform grid of at least two points, the integral of a polynomial `p` is the difference of an
antiderivative at the ends, if the degree of `p` is at most that for which the chosen rule is exact and, when the
number of intervals is not a multiple of the order, also at most that of the rule used for the remaining intervals.
Missing: polynomials up to the chosen order when intervals remain, see `remainder_inexact`. -/
theorem integral_exact_partial {o n : Nat} (h1 : 1 ≤ o) (h6 : o ≤ 6) (hn : 2 ≤ n) (p P : K[X])
    (hPp : derivative P = p) (hp : p.natDegree ≤ exactDegree o)
    (hend : (n - 1) % o = 0 ∨ p.natDegree ≤ exactDegree ((n - 1) % o)) (x0 h : K) :
    computeIntegral (grid x0 h n) (samples p x0 h n) o
      = .ok (P.eval (x0 + (n - 1 : Nat) * h) - P.eval x0) := by
  subst hPp
  have hdeg : P.natDegree ≤ (derivative P).natDegree + 1 := by
    by_cases h0 : 0 < P.natDegree
    · have := degree_derivative (p := P) (by omega)
      rw [natDegree_eq_of_degree_eq_some this]
      omega
    · omega
  have hlg : (grid x0 h n).length = n := by simp [grid]
  rw [computeIntegral_ok h1 h6 (by simp [samples]) (by rw [hlg]; exact hn), hlg,
    grid_getD x0 h (by omega), grid_getD x0 h (by omega),
    show x0 + ((1 : Nat) : K) * h - (x0 + ((0 : Nat) : K) * h) = h by push_cast; ring]
  congr 1
  rw [doIntegrate_congr (by omega) (by omega) h (fun i hi => samples_getD (derivative P) x0 h hi)]
  exact doIntegrate_exact h1 h6 hn P (by omega) (hend.imp id (fun h => by omega)) x0 h

/-- C34. Constants are integrated exactly for every order and number of samples: the result is the constant times
the length of the interval. -/
theorem integral_constant {o n : Nat} (h1 : 1 ≤ o) (h6 : o ≤ 6) (hn : 2 ≤ n) (c x0 h : K) :
    computeIntegral (grid x0 h n) (List.replicate n c) o = .ok (c * ((n - 1 : Nat) * h)) := by
  have hs : List.replicate n c = samples (C c) x0 h n := by
    simp [samples, grid, Function.comp_def]
  rw [hs, integral_exact_partial h1 h6 hn (C c) (C c * X) (by simp) (by simp) (by simp)]
  congr 1
  simp
  ring

/-- C34. The integral is linear in the samples. -/
theorem integral_linear {x y z : List K} {o : Nat} (h1 : 1 ≤ o) (h6 : o ≤ 6) (hy : y.length = x.length)
    (hz : z.length = x.length) (hn : 2 ≤ x.length) (a b : K) :
    ∃ Iy Iz, computeIntegral x y o = .ok Iy ∧ computeIntegral x z o = .ok Iz ∧
      computeIntegral x (List.zipWith (fun u v => a * u + b * v) y z) o = .ok (a * Iy + b * Iz) := by
  refine ⟨_, _, computeIntegral_ok h1 h6 hy hn, computeIntegral_ok h1 h6 hz hn, ?_⟩
  rw [computeIntegral_ok h1 h6 (by simp [hy, hz]) hn]
  congr 1
  rw [doIntegrate_congr (by omega) (by omega) _ (z := fun i => a * y.getD i 0 + b * z.getD i 0) (by
    intro i hi
    simp [hy, hz, hi])]
  unfold doIntegrate
  have hs : ∀ (s : Finset Nat) (w f g : Nat → K), ∑ k ∈ s, w k * (a * f k + b * g k)
      = a * ∑ k ∈ s, w k * f k + b * ∑ k ∈ s, w k * g k := by
    intro s w f g
    rw [mul_sum, mul_sum, ← sum_add_distrib]
    exact sum_congr rfl (fun k _ => by ring)
  have hd : ∀ d, (x.getD 1 0 - x.getD 0 0) * ∑ k ∈ range ((x.length - 1) / o), ncWeight o d *
        (a * y.getD (o * k + d) 0 + b * z.getD (o * k + d) 0)
      = a * ((x.getD 1 0 - x.getD 0 0) * ∑ k ∈ range ((x.length - 1) / o), ncWeight o d * y.getD (o * k + d) 0)
        + b * ((x.getD 1 0 - x.getD 0 0) * ∑ k ∈ range ((x.length - 1) / o), ncWeight o d * z.getD (o * k + d) 0) := by
    intro d
    rw [hs]
    ring
  rw [sum_congr rfl (fun d _ => hd d), sum_add_distrib]
  split
  · rw [hs]
    simp only [← mul_sum]
    ring
  · simp only [← mul_sum]
    ring

/-- C34. The arguments that are refused: exactly the orders outside one to six, samples and abscissae of different
lengths, and less than two points. -/
theorem integral_refused (x y : List K) (order : Int) :
    (∃ I, computeIntegral x y order = .ok I) ↔
      (1 ≤ order ∧ order ≤ 6) ∧ y.length = x.length ∧ 2 ≤ x.length := by
  unfold computeIntegral
  split
  · simp; omega
  split
  · simp; omega
  split
  · rename_i h
    simp [h]
  split
  · simp; omega
  · simp; omega

/-- C34 is false as stated: with order three and four intervals, the last interval is done by the trapezoidal rule,
and the integral of `x²` from 0 to 4 comes out as 43/2 instead of 64/3. -/
theorem remainder_inexact : computeIntegral (grid (0 : ℚ) 1 5) [0, 1, 4, 9, 16] 3 = .ok (43 / 2) ∧
    (43 / 2 : ℚ) ≠ 64 / 3 := by
  constructor
  · decide +kernel
  · norm_num

/-- Only the first spacing is used: on a grid that is not uniform not even constants are integrated exactly. -/
theorem nonuniform_inexact : computeIntegral ([0, 1, 3] : List ℚ) [1, 1, 1] 2 = .ok 2 := by decide +kernel

end

/-- C34 (partial), over the real numbers: the result is the integral. -/
theorem integral_real_partial {o n : Nat} (h1 : 1 ≤ o) (h6 : o ≤ 6) (hn : 2 ≤ n) (p : ℝ[X])
    (hp : p.natDegree ≤ exactDegree o)
    (hend : (n - 1) % o = 0 ∨ p.natDegree ≤ exactDegree ((n - 1) % o)) (x0 h : ℝ) :
    computeIntegral (grid x0 h n) (samples p x0 h n) o
      = .ok (∫ x in x0..(x0 + (n - 1 : Nat) * h), p.eval x) := by
  obtain ⟨P, hP⟩ : ∃ P : ℝ[X], derivative P = p := by
    refine ⟨∑ i ∈ range (p.natDegree + 1), C (p.coeff i / (i + 1)) * X ^ (i + 1), ?_⟩
    rw [derivative_sum]
    conv_rhs => rw [p.as_sum_range_C_mul_X_pow]
    refine sum_congr rfl (fun i _ => ?_)
    rw [derivative_C_mul_X_pow]
    congr 2
    have : ((i : ℝ) + 1) ≠ 0 := by positivity
    push_cast
    field_simp
  rw [integral_exact_partial h1 h6 hn p P hP hp hend]
  congr 1
  rw [intervalIntegral.integral_eq_sub_of_hasDerivAt (f := fun x => P.eval x) (f' := fun x => p.eval x)]
  · intro x _
    rw [← hP]
    exact P.hasDerivAt x
  · exact (p.continuous).intervalIntegrable _ _

section
variable {K : Type} [Field K] [LinearOrder K] [IsStrictOrderedRing K]

theorem weight_pos {o : Nat} (h1 : 1 ≤ o) (h6 : o ≤ 6) {j : Nat} (hj : j ≤ o) : (0 : K) < ncWeight o j := by
  interval_cases o <;> interval_cases j <;> simp [ncWeight]

/-- C34. On an increasing grid the integral of nonnegative samples is nonnegative. -/
theorem integral_nonneg {x y : List K} {o : Nat} (h1 : 1 ≤ o) (h6 : o ≤ 6) (hy : y.length = x.length)
    (hn : 2 ≤ x.length) (hx : x.getD 0 0 ≤ x.getD 1 0) (hpos : ∀ v ∈ y, 0 ≤ v) :
    ∃ I, computeIntegral x y o = .ok I ∧ 0 ≤ I := by
  refine ⟨_, computeIntegral_ok h1 h6 hy hn, ?_⟩
  have hdx : 0 ≤ x.getD 1 0 - x.getD 0 0 := sub_nonneg.mpr hx
  have hv : ∀ i, 0 ≤ y.getD i 0 := by
    intro i
    rw [List.getD_eq_getElem?_getD]
    cases h : y[i]? with
    | none => simp
    | some v => exact hpos v (List.mem_of_getElem? h)
  have hlt := Nat.mod_lt (x.length - 1) (show 0 < o by omega)
  unfold doIntegrate
  apply add_nonneg
  · apply sum_nonneg
    intro d hd
    apply mul_nonneg hdx
    apply sum_nonneg
    intro k _
    exact mul_nonneg (weight_pos h1 h6 (by have := mem_range.mp hd; omega)).le (hv _)
  · split
    · rename_i h0
      apply mul_nonneg hdx
      apply sum_nonneg
      intro j hj
      exact mul_nonneg (weight_pos (by omega) (by omega) (by have := mem_range.mp hj; omega)).le (hv _)
    · exact le_refl _

end

/-! ### Cases meeting the hypotheses -/

example : (7 - 1) % 3 = 0 ∧ (X ^ 3 : ℚ[X]).natDegree ≤ exactDegree 3 ∧
    derivative (C (1 / 4 : ℚ) * X ^ 4 : ℚ[X]) = X ^ 3 := by
  refine ⟨rfl, by simp [exactDegree], ?_⟩
  rw [derivative_C_mul_X_pow]
  norm_num

example : computeIntegral (grid (0 : ℚ) 1 7) ([0, 1, 8, 27, 64, 125, 216]) 3 = .ok 324 := by decide +kernel

example : computeIntegral (grid (0 : ℚ) 1 6) [0, 1, 2, 3, 4, 5] 4 = .ok (25 / 2) := by decide +kernel

end Seyfert.Numeric
