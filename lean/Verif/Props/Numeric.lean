import Verif.Model.Numeric
import Verif.Props.Integration
import Verif.Lemmas.PyDict
import Mathlib.RingTheory.Binomial
import Mathlib.Analysis.Calculus.Deriv.MeanValue
import Mathlib.Analysis.Calculus.MeanValue
import Mathlib.Analysis.Calculus.Deriv.Pow
import Mathlib.Analysis.Calculus.Deriv.Add
import Mathlib.Analysis.Calculus.Deriv.Mul
import Mathlib.Tactic.Linarith

/-!
C35: smooth step and filters.  C36: five-point stencil.  C37: percentage differences.
-/

set_option linter.unusedSectionVars false

namespace Seyfert.Numeric

open Finset Polynomial

/-! ### Smooth step -/

theorem choose_identity {N n : Nat} (h : n ≤ N) :
    (N + 1 + n) * ((N + n).choose n * (2 * N + 1).choose (N - n))
      = (N + 1) * (2 * N + 1).choose N * N.choose n := by
  have e1 : (N + n).choose n * n.factorial * N.factorial = (N + n).factorial := by
    have := Nat.choose_mul_factorial_mul_factorial (show n ≤ N + n by omega)
    rwa [show N + n - n = N by omega] at this
  have e2 : (2 * N + 1).choose (N - n) * (N - n).factorial * ((N + n + 1) * (N + n).factorial)
      = (2 * N + 1).factorial := by
    have := Nat.choose_mul_factorial_mul_factorial (show N - n ≤ 2 * N + 1 by omega)
    rwa [show 2 * N + 1 - (N - n) = N + n + 1 by omega, Nat.factorial_succ] at this
  have e3 := Nat.choose_mul_factorial_mul_factorial h
  have e4 : (2 * N + 1).choose N * N.factorial * ((N + 1) * N.factorial) = (2 * N + 1).factorial := by
    have := Nat.choose_mul_factorial_mul_factorial (show N ≤ 2 * N + 1 by omega)
    rwa [show 2 * N + 1 - N = N + 1 by omega, Nat.factorial_succ] at this
  have hpos : 0 < n.factorial * N.factorial * (N - n).factorial * (N + n).factorial := by positivity
  apply Nat.eq_of_mul_eq_mul_right hpos
  calc (N + 1 + n) * ((N + n).choose n * (2 * N + 1).choose (N - n)) *
        (n.factorial * N.factorial * (N - n).factorial * (N + n).factorial)
      = ((N + n).choose n * n.factorial * N.factorial) *
        ((2 * N + 1).choose (N - n) * (N - n).factorial * ((N + n + 1) * (N + n).factorial)) := by ring
    _ = (N + n).factorial * (2 * N + 1).factorial := by rw [e1, e2]
    _ = (N + n).factorial * ((2 * N + 1).choose N * N.factorial * ((N + 1) * N.factorial)) := by rw [e4]
    _ = (N + n).factorial * ((2 * N + 1).choose N * (N.choose n * n.factorial * (N - n).factorial) *
          ((N + 1) * N.factorial)) := by rw [e3]
    _ = _ := by ring

theorem choose_alternating (N : Nat) :
    ∑ n ∈ range (N + 1), ((N + n).choose n : ℤ) * ((2 * N + 1).choose (N - n) : ℤ) * (-1) ^ n = 1 := by
  have h := Ring.add_choose_eq (R := ℤ) (r := -((N : ℤ) + 1)) (s := ((2 * N + 1 : Nat) : ℤ)) N
    (Commute.all _ _)
  rw [show -((N : ℤ) + 1) + ((2 * N + 1 : Nat) : ℤ) = (N : ℤ) by push_cast; ring, Ring.choose_natCast,
    Nat.choose_self, Finset.Nat.sum_antidiagonal_eq_sum_range_succ
      (fun i j => Ring.choose (-((N : ℤ) + 1)) i * Ring.choose ((2 * N + 1 : Nat) : ℤ) j)] at h
  rw [Nat.cast_one] at h
  refine Eq.trans ?_ h.symm
  refine sum_congr rfl (fun n _ => ?_)
  rw [Ring.choose_neg, show (N : ℤ) + 1 + n - 1 = ((N + n : Nat) : ℤ) by push_cast; ring, Ring.choose_natCast,
    Ring.choose_natCast]
  simp [Units.smul_def, Int.negOnePow]
  ring

theorem smoothPoly_one (N : Nat) : smoothPoly N (1 : ℝ) = 1 := by
  unfold smoothPoly
  have := congrArg (Int.cast : ℤ → ℝ) (choose_alternating N)
  push_cast at this
  rw [one_pow, mul_one]
  exact this

theorem smoothPoly_zero (N : Nat) : smoothPoly N (0 : ℝ) = 0 := by
  unfold smoothPoly
  simp

/-- The derivative is a positive multiple of `(t (1 - t)) ^ N`. -/
theorem smoothPoly_deriv (N : Nat) (t : ℝ) :
    HasDerivAt (smoothPoly N) (((N + 1) * (2 * N + 1).choose N : ℝ) * (t ^ N * (1 - t) ^ N)) t := by
  have hf : smoothPoly (K := ℝ) N = fun t => ∑ n ∈ range (N + 1),
      (((N + n).choose n : ℝ) * ((2 * N + 1).choose (N - n) : ℝ) * (-1) ^ n) * t ^ (N + 1 + n) := by
    funext t
    unfold smoothPoly
    rw [sum_mul]
    refine sum_congr rfl (fun n _ => ?_)
    rw [neg_pow]
    ring
  rw [hf]
  have hd : HasDerivAt (fun t : ℝ => ∑ n ∈ range (N + 1),
      (((N + n).choose n : ℝ) * ((2 * N + 1).choose (N - n) : ℝ) * (-1) ^ n) * t ^ (N + 1 + n))
      (∑ n ∈ range (N + 1), (((N + n).choose n : ℝ) * ((2 * N + 1).choose (N - n) : ℝ) * (-1) ^ n) *
        (((N + 1 + n : Nat) : ℝ) * t ^ (N + 1 + n - 1))) t := by
    apply HasDerivAt.fun_sum
    intro n _
    exact (hasDerivAt_pow (N + 1 + n) t).const_mul _
  refine hd.congr_deriv ?_
  rw [show (1 - t) ^ N = (-t + 1) ^ N by ring, add_pow, mul_sum, mul_sum]
  refine sum_congr rfl (fun n hn => ?_)
  have hid := congrArg (Nat.cast : ℕ → ℝ) (choose_identity (show n ≤ N by have := mem_range.mp hn; omega))
  push_cast at hid
  rw [show N + 1 + n - 1 = N + n by omega, neg_pow t, one_pow, pow_add]
  push_cast
  linear_combination ((-1) ^ n * t ^ N * t ^ n) * hid

theorem smoothPoly_strictMono (N : Nat) : StrictMonoOn (smoothPoly (K := ℝ) N) (Set.Icc 0 1) := by
  apply strictMonoOn_of_deriv_pos (convex_Icc 0 1)
  · exact fun t _ => (smoothPoly_deriv N t).continuousAt.continuousWithinAt
  · intro t ht
    rw [interior_Icc] at ht
    rw [(smoothPoly_deriv N t).deriv]
    have h1 : (0 : ℝ) < ((2 * N + 1).choose N : ℝ) := by
      exact_mod_cast Nat.choose_pos (by omega)
    have h2 := ht.1
    have h3 : 0 < 1 - t := by linarith [ht.2]
    positivity

theorem smoothPoly_symm (N : Nat) (t : ℝ) : smoothPoly N (1 - t) = 1 - smoothPoly N t := by
  have hd : ∀ t : ℝ, HasDerivAt (fun t => smoothPoly N t + smoothPoly N (1 - t)) 0 t := by
    intro t
    have h2 : HasDerivAt (fun t : ℝ => 1 - t) (-1) t := by
      simpa using (hasDerivAt_id t).const_sub 1
    have h3 := (smoothPoly_deriv N t).add ((smoothPoly_deriv N (1 - t)).comp t h2)
    refine h3.congr_deriv ?_
    rw [show 1 - (1 - t) = t by ring]
    ring
  have hc := is_const_of_deriv_eq_zero (fun t => (hd t).differentiableAt) (fun t => (hd t).deriv) t 0
  simp only [sub_zero] at hc
  rw [smoothPoly_zero, smoothPoly_one] at hc
  linarith

theorem clip_mem (t : ℝ) : clip01 t ∈ Set.Icc (0 : ℝ) 1 :=
  ⟨le_min (le_max_right _ _) zero_le_one, min_le_right _ _⟩

theorem clip_of_mem {t : ℝ} (h : t ∈ Set.Icc (0 : ℝ) 1) : clip01 t = t := by
  unfold clip01
  rw [max_eq_left h.1, min_eq_left h.2]

theorem clip_symm (t : ℝ) : clip01 (1 - t) = 1 - clip01 t := by
  unfold clip01
  rcases le_total t 0 with h | h
  · rw [max_eq_right h, max_eq_left (by linarith), min_eq_right (by linarith), min_eq_left (by linarith)]
    ring
  · rw [max_eq_left h]
    rcases le_total t 1 with h1 | h1
    · rw [max_eq_left (by linarith), min_eq_left (by linarith), min_eq_left h1]
    · rw [max_eq_right (by linarith), min_eq_left (by linarith), min_eq_right h1]
      ring

theorem clip_mono : Monotone (clip01 (K := ℝ)) := fun _ _ h => min_le_min_right _ (max_le_max_right _ h)

section
variable {xmin xmax : ℝ} (hx : xmin < xmax) (N : Nat)

include hx

/-- C35. Zero below the lower edge and one above the upper edge. -/
theorem smoothstep_outside (x : ℝ) :
    (x ≤ xmin → smoothstep x xmin xmax N = 0) ∧ (xmax ≤ x → smoothstep x xmin xmax N = 1) := by
  have hp : 0 < xmax - xmin := by linarith
  constructor
  · intro h
    have : (x - xmin) / (xmax - xmin) ≤ 0 := div_nonpos_of_nonpos_of_nonneg (by linarith) hp.le
    unfold smoothstep clip01
    rw [max_eq_right this, min_eq_left zero_le_one, smoothPoly_zero]
  · intro h
    have : 1 ≤ (x - xmin) / (xmax - xmin) := (one_le_div hp).mpr (by linarith)
    unfold smoothstep clip01
    rw [max_eq_left (by linarith), min_eq_right this, smoothPoly_one]

/-- C35. Always between zero and one. -/
theorem smoothstep_mem (x : ℝ) : 0 ≤ smoothstep x xmin xmax N ∧ smoothstep x xmin xmax N ≤ 1 := by
  have hm := clip_mem ((x - xmin) / (xmax - xmin))
  have hmono := (smoothPoly_strictMono N).monotoneOn
  constructor
  · have := hmono (Set.left_mem_Icc.mpr zero_le_one) hm hm.1
    rwa [smoothPoly_zero] at this
  · have := hmono hm (Set.right_mem_Icc.mpr zero_le_one) hm.2
    rwa [smoothPoly_one] at this

/-- C35. Never decreasing, and strictly increasing between the edges. -/
theorem smoothstep_increasing : Monotone (fun x => smoothstep x xmin xmax N) ∧
    StrictMonoOn (fun x => smoothstep x xmin xmax N) (Set.Icc xmin xmax) := by
  have hp : 0 < xmax - xmin := by linarith
  constructor
  · intro a b h
    exact (smoothPoly_strictMono N).monotoneOn (clip_mem _) (clip_mem _)
      (clip_mono (div_le_div_of_nonneg_right (by linarith) hp.le))
  · intro a ha b hb h
    have hmem : ∀ t ∈ Set.Icc xmin xmax, (t - xmin) / (xmax - xmin) ∈ Set.Icc (0 : ℝ) 1 := fun t ht =>
      ⟨div_nonneg (by linarith [ht.1]) hp.le, (div_le_one hp).mpr (by linarith [ht.2])⟩
    show smoothPoly N _ < smoothPoly N _
    rw [clip_of_mem (hmem a ha), clip_of_mem (hmem b hb)]
    exact smoothPoly_strictMono N (hmem a ha) (hmem b hb) (div_lt_div_of_pos_right (by linarith) hp)

/-- C35. Symmetric about the centre. -/
theorem smoothstep_symm (x : ℝ) :
    smoothstep (xmin + xmax - x) xmin xmax N = 1 - smoothstep x xmin xmax N := by
  have hp : xmax - xmin ≠ 0 := by linarith
  unfold smoothstep
  rw [show (xmin + xmax - x - xmin) / (xmax - xmin) = 1 - (x - xmin) / (xmax - xmin) by
    field_simp; ring, clip_symm, smoothPoly_symm]

end

/-- C35. The top-hat filter is one up to nine tenths of the radius, zero from eleven tenths on, between zero and one
and never increasing. -/
theorem topHat_spec {R : ℝ} (hR : 0 < R) :
    (∀ x, 0 ≤ topHat x R ∧ topHat x R ≤ 1) ∧ (∀ x ≤ 9 / 10 * R, topHat x R = 1) ∧
    (∀ x, 11 / 10 * R ≤ x → topHat x R = 0) ∧ Antitone (fun x => topHat x R) ∧ topHat R R = 1 / 2 := by
  have hx : 9 / 10 * R < 11 / 10 * R := by linarith
  unfold topHat
  refine ⟨fun x => ?_, fun x h => ?_, fun x h => ?_, fun a b h => ?_, ?_⟩
  · have := smoothstep_mem hx 3 x
    constructor <;> linarith [this.1, this.2]
  · rw [(smoothstep_outside hx 3 x).1 h, sub_zero]
  · rw [(smoothstep_outside hx 3 x).2 h, sub_self]
  · exact sub_le_sub_left ((smoothstep_increasing hx 3).1 h) 1
  · have := smoothstep_symm hx 3 R
    rw [show 9 / 10 * R + 11 / 10 * R - R = R by ring] at this
    linarith

/-- C35. The cut applied to spectra with voids is one below the cut, zero above and between zero and one: a
nonnegative spectrum stays nonnegative and does not grow. -/
theorem voidCut_spec {kcut width : ℝ} (hw : 0 < width) (k : ℝ) :
    (0 ≤ voidCut k kcut width ∧ voidCut k kcut width ≤ 1) ∧
    (k ≤ kcut - width → voidCut k kcut width = 1) ∧ (kcut + width ≤ k → voidCut k kcut width = 0) ∧
    ∀ P, 0 ≤ P → 0 ≤ P * voidCut k kcut width ∧ P * voidCut k kcut width ≤ P := by
  have hx : kcut - width < kcut + width := by linarith
  have hm := smoothstep_mem hx 3 k
  unfold voidCut
  refine ⟨⟨by linarith [hm.2], by linarith [hm.1]⟩, fun h => ?_, fun h => ?_, fun P hP => ⟨?_, ?_⟩⟩
  · rw [(smoothstep_outside hx 3 k).1 h, sub_zero]
  · rw [(smoothstep_outside hx 3 k).2 h, sub_self]
  · exact mul_nonneg hP (by linarith [hm.2])
  · exact mul_le_of_le_one_right hP (by linarith [hm.1])

example : (0 : ℝ) < 1 ∧ smoothstep (1 / 2 : ℝ) 0 1 3 = 1 / 2 := by
  refine ⟨one_pos, ?_⟩
  have := smoothstep_symm (zero_lt_one (α := ℝ)) 3 (1 / 2)
  rw [show (0 : ℝ) + 1 - 1 / 2 = 1 / 2 by norm_num] at this
  linarith

/-! ### Five-point stencil -/

section
variable {K : Type} [Field K] [CharZero K]

/-- C36. Exact for polynomials of degree at most four. -/
theorem stencil_exact (p : K[X]) (hp : p.natDegree ≤ 4) (x : K) {h : K} (hh : h ≠ 0) :
    stencil (fun t => p.eval t) x h = (derivative p).eval x := by
  have e : ∀ t, p.eval t = ∑ i ∈ range 5, p.coeff i * t ^ i := fun t => eval_eq_sum_range' (by omega) t
  rw [deriv_eval_range p hp]
  unfold stencil
  simp only [e]
  rw [div_eq_iff (by simpa using hh)]
  simp only [sum_range_succ, range_zero, sum_empty]
  push_cast
  ring

/-- C36. For the fifth power the error is four times the fourth power of the step: degree four is the best. -/
theorem stencil_fifth (x : K) {h : K} (hh : h ≠ 0) :
    stencil (fun t => t ^ 5) x h = 5 * x ^ 4 - 4 * h ^ 4 := by
  unfold stencil
  rw [div_eq_iff (by simpa using hh)]
  ring

/-- C36. Linear in the function, and the same for a step of the opposite sign. -/
theorem stencil_linear (f g : K → K) (a b x h : K) :
    stencil (fun t => a * f t + b * g t) x h = a * stencil f x h + b * stencil g x h ∧
    stencil f x (-h) = stencil f x h := by
  constructor
  · unfold stencil
    ring
  · unfold stencil
    rw [show (12 : K) * -h = -(12 * h) by ring, div_neg, ← neg_div]
    congr 1
    rw [show x + 2 * -h = x - 2 * h by ring, show x + 1 * -h = x - 1 * h by ring,
      show x - 1 * -h = x + 1 * h by ring, show x - 2 * -h = x + 2 * h by ring]
    ring

end

example : stencil (fun t : ℚ => t ^ 4) 2 (1 / 10) = 32 := by unfold stencil; norm_num

/-! ### Percentage differences -/

section
variable {K : Type} [Field K] [LinearOrder K] [IsStrictOrderedRing K]

/-- C37. For arrays: symmetric, never negative, and zero exactly if the entries are equal or opposite. -/
theorem padArr_spec (x y : K) :
    padArr x y = padArr y x ∧ 0 ≤ padArr x y ∧ (padArr x y = 0 ↔ x = y ∨ x + y = 0) := by
  unfold padArr
  refine ⟨?_, ?_, ?_⟩
  · rw [add_comm y x, abs_sub_comm]
  · split
    · positivity
    · exact le_refl _
  · by_cases h : x + y = 0
    · simp [h]
    · simp [h, sub_eq_zero]

/-- C37. For arrays: if a comparison passes, then every pair of entries differs by less than the threshold, in
percent of the mean, unless the entries are opposite. -/
theorem padArr_detects (l : List (K × K)) (threshold : K)
    (h : padsOk (l.map (fun q => padArr q.1 q.2)) threshold = true) :
    ∀ q ∈ l, q.1 + q.2 ≠ 0 → |q.1 - q.2| < threshold / 100 * (|q.1 + q.2| / 2) := by
  intro q hq hne
  have h1 := List.all_eq_true.mp h (padArr q.1 q.2) (List.mem_map_of_mem hq)
  rw [decide_eq_true_eq] at h1
  unfold padArr at h1
  rw [if_pos hne, div_lt_iff₀ (abs_pos.mpr hne)] at h1
  linarith

/-- C37. For tables: symmetric, and zero exactly if the entries are equal. -/
theorem padTab_spec (x y : K) : padTab x y = padTab y x ∧ (padTab x y = 0 ↔ x = y) := by
  unfold padTab
  refine ⟨by rw [add_comm y x, abs_sub_comm], ?_⟩
  by_cases h : x + y = 0
  · simp [h, sub_eq_zero]
  · simp [h, sub_eq_zero]

/-- C37. For tables: the difference in percent of the mean, when the sum is not zero. -/
theorem padTab_value {x y : K} (h : x + y ≠ 0) : padTab x y * ((x + y) / 2) = 100 * |x - y| := by
  unfold padTab
  rw [if_pos h]
  have : (x + y) / 2 ≠ 0 := by
    intro h0
    rw [div_eq_zero_iff] at h0
    rcases h0 with h0 | h0
    · exact h h0
    · norm_num at h0
  field_simp

/-- C37 (partial). For tables: not negative if the sum of the entries is not negative.
Missing: entries with a negative sum, see `padTab_negative`. -/
theorem padTab_nonneg_partial (x y : K) (h : 0 ≤ x + y) : 0 ≤ padTab x y := by
  unfold padTab
  apply mul_nonneg (by norm_num)
  apply div_nonneg (abs_nonneg _)
  split
  · linarith
  · exact zero_le_one

/-- C37 is false for tables: different entries with a negative sum have a negative difference, so they pass every
test with a nonnegative threshold, however large the difference is. -/
theorem padTab_negative {x y : K} (h : x + y < 0) (hne : x ≠ y) :
    padTab x y < 0 ∧ ∀ threshold, 0 ≤ threshold → padsOk [padTab x y] threshold = true := by
  have : padTab x y < 0 := by
    unfold padTab
    rw [if_pos h.ne]
    apply mul_neg_of_pos_of_neg (by norm_num)
    apply div_neg_of_pos_of_neg (abs_pos.mpr (sub_ne_zero.mpr hne))
    linarith
  refine ⟨this, fun t ht => ?_⟩
  simp [padsOk, lt_of_lt_of_le this ht]

/-- C37 is false for arrays: opposite entries are not told apart. -/
theorem padArr_opposite (x : K) : padArr x (-x) = 0 := by
  unfold padArr
  simp

/-- C37. Tables are compared label by label, whatever the order of the rows and columns, and are refused exactly if
they do not have the same labels. -/
theorem padTables_spec {L : Type} [DecidableEq L] (x y : List (L × K))
    (hy : (y.map (·.1)).Nodup) :
    (padTables x y = none ↔ ¬ ∀ l, l ∈ x.map (·.1) ↔ l ∈ y.map (·.1)) ∧
    ∀ r, padTables x y = some r → ∀ l a b, (l, a) ∈ x → (l, b) ∈ y → (l, padTab a b) ∈ r := by
  unfold padTables
  constructor
  · split
    · rename_i h
      simp only [reduceCtorEq, false_iff, not_not]
      exact fun l => ⟨h.1 l, h.2 l⟩
    · rename_i h
      simp only [true_iff]
      exact fun h2 => h ⟨fun l => (h2 l).mp, fun l => (h2 l).mpr⟩
  · intro r hr l a b ha hb
    split at hr
    · cases hr
      refine List.mem_map.mpr ⟨(l, a), ha, ?_⟩
      have : y.lookup l = some b := PyDict.lookup_of_mem y hy hb
      simp [this]
    · cases hr

end

example : padTab (-1 : ℚ) (-1000) < 0 := by decide +kernel

example : padTables [("a", (1 : ℚ)), ("b", 3)] [("b", 5), ("a", 1)] = some [("a", 0), ("b", 50)] := by
  decide +kernel

end Seyfert.Numeric
