import Verif.Model.Stem
import Mathlib.Tactic.Ring
import Mathlib.Tactic.Linarith
import Mathlib.Tactic.FieldSimp
import Mathlib.Tactic.LinearCombination
import Mathlib.Algebra.BigOperators.Group.List.Basic
import Mathlib.Algebra.Order.BigOperators.Group.List

set_option linter.unusedSectionVars false

namespace Seyfert.Stem

variable {K : Type} [Field K] [LinearOrder K] [IsStrictOrderedRing K]

/-- Sum of squared deviations of the points from the line `a + b x`. -/
def cost (p : List (K × K)) (a b : K) : K := (p.map (fun q => (q.2 - (a + b * q.1)) ^ 2)).sum

/-- Sum of squared values. -/
def sumYY (p : List (K × K)) : K := (p.map (fun q => q.2 * q.2)).sum

theorem cost_expand (p : List (K × K)) (a b : K) :
    cost p a b = sumYY p - 2 * a * sumY p - 2 * b * sumXY p + (p.length : K) * a ^ 2
      + 2 * a * b * sumX p + b ^ 2 * sumXX p := by
  induction p with
  | nil => simp [cost, sumYY, sumY, sumXY, sumX, sumXX]
  | cons q p ih =>
    simp only [cost, sumYY, sumY, sumXY, sumX, sumXX, List.map_cons, List.sum_cons,
      List.length_cons, Nat.cast_add, Nat.cast_one] at ih ⊢
    rw [ih]; ring

theorem det_eq (p : List (K × K)) (m : K) (hm : (p.length : K) * m = sumX p) :
    (p.length : K) * sumXX p - sumX p * sumX p
      = (p.length : K) * (p.map (fun q => (q.1 - m) ^ 2)).sum := by
  have key : (p.map (fun q => (q.1 - m) ^ 2)).sum = sumXX p - 2 * m * sumX p + (p.length : K) * m ^ 2 := by
    clear hm
    induction p with
    | nil => simp [sumXX, sumX]
    | cons q p ih =>
      simp only [sumX, sumXX, List.map_cons, List.sum_cons, List.length_cons, Nat.cast_add,
        Nat.cast_one] at ih ⊢
      rw [ih]; ring
  rw [key, ← hm]; ring

theorem sum_sq_pos {A : Type} (f : A → K) (l : List A) {a : A} (ha : a ∈ l) (hf : f a ≠ 0) :
    0 < (l.map (fun q => f q ^ 2)).sum := by
  have h1 : f a ^ 2 ≤ (l.map (fun q => f q ^ 2)).sum := by
    apply List.single_le_sum
    · intro x hx
      obtain ⟨q, _, rfl⟩ := List.mem_map.mp hx
      exact sq_nonneg _
    · exact List.mem_map.mpr ⟨a, ha, rfl⟩
  exact lt_of_lt_of_le (by positivity) h1

/-- Two points with different abscissae. -/
def Spread (p : List (K × K)) : Prop := ∃ q ∈ p, ∃ r ∈ p, q.1 ≠ r.1

theorem length_pos' {p : List (K × K)} (h : Spread p) : (0 : K) < (p.length : K) := by
  obtain ⟨q, hq, _⟩ := h
  exact_mod_cast List.length_pos_of_mem hq

theorem det_pos {p : List (K × K)} (h : Spread p) :
    0 < (p.length : K) * sumXX p - sumX p * sumX p := by
  have hn := length_pos' h
  obtain ⟨q, hq, r, hr, hne⟩ := h
  rw [det_eq p (sumX p / (p.length : K)) (by field_simp)]
  refine mul_pos hn ?_
  by_cases hqm : q.1 = sumX p / (p.length : K)
  · exact sum_sq_pos (fun q : K × K => q.1 - sumX p / (p.length : K)) p hr
      (fun e => hne (by rw [hqm]; exact (sub_eq_zero.mp e).symm))
  · exact sum_sq_pos (fun q : K × K => q.1 - sumX p / (p.length : K)) p hq
      (fun e => hqm (sub_eq_zero.mp e))

theorem normal_eqs {p : List (K × K)} (h : Spread p) :
    (p.length : K) * intercept p + slope p * sumX p = sumY p ∧
    intercept p * sumX p + slope p * sumXX p = sumXY p := by
  have hn := ne_of_gt (length_pos' h)
  have hd := ne_of_gt (det_pos h)
  have e1 : (p.length : K) * intercept p + slope p * sumX p = sumY p := by
    unfold intercept; field_simp; ring
  refine ⟨e1, ?_⟩
  have e2 : slope p * ((p.length : K) * sumXX p - sumX p * sumX p)
      = (p.length : K) * sumXY p - sumX p * sumY p := by
    unfold slope; exact div_mul_cancel₀ _ hd
  apply mul_left_cancel₀ hn
  linear_combination (sumX p) * e1 + e2

/-- The line is the unique minimiser of the sum of squares. -/
theorem cost_min {p : List (K × K)} (h : Spread p) (a b : K) :
    cost p a b = cost p (intercept p) (slope p)
      + (p.map (fun q => ((a - intercept p) + (b - slope p) * q.1) ^ 2)).sum := by
  obtain ⟨e1, e2⟩ := normal_eqs h
  have key : ∀ u v : K, (p.map (fun q => (u + v * q.1) ^ 2)).sum
      = (p.length : K) * u ^ 2 + 2 * u * v * sumX p + v ^ 2 * sumXX p := by
    intro u v
    clear e1 e2 h
    induction p with
    | nil => simp [sumXX, sumX]
    | cons q p ih =>
      simp only [sumX, sumXX, List.map_cons, List.sum_cons, List.length_cons, Nat.cast_add,
        Nat.cast_one] at ih ⊢
      rw [ih]; ring
  rw [cost_expand, cost_expand, key]
  linear_combination (2 * (a - intercept p)) * e1 + (2 * (b - slope p)) * e2

/-- The points all lie on the line `a + b x`. -/
def OnLine (p : List (K × K)) (a b : K) : Prop := ∀ q ∈ p, q.2 = a + b * q.1

theorem onLine_sums {p : List (K × K)} {a b : K} (h : OnLine p a b) :
    sumY p = (p.length : K) * a + b * sumX p ∧ sumXY p = a * sumX p + b * sumXX p := by
  induction p with
  | nil => simp [sumY, sumXY, sumX, sumXX]
  | cons q p ih =>
    obtain ⟨i1, i2⟩ := ih (fun r hr => h r (List.mem_cons_of_mem _ hr))
    have hq := h q List.mem_cons_self
    simp only [sumY, sumX, sumXX, sumXY, List.map_cons, List.sum_cons, List.length_cons,
      Nat.cast_add, Nat.cast_one] at i1 i2 ⊢
    rw [i1, i2, hq]
    constructor <;> ring

theorem fit_onLine {p : List (K × K)} (hs : Spread p) {a b : K} (h : OnLine p a b) :
    slope p = b ∧ intercept p = a := by
  obtain ⟨e1, e2⟩ := onLine_sums h
  have hd := ne_of_gt (det_pos hs)
  have hn := ne_of_gt (length_pos' hs)
  have hb : slope p = b := by
    unfold slope
    rw [div_eq_iff hd, e1, e2]; ring
  refine ⟨hb, ?_⟩
  unfold intercept
  rw [div_eq_iff hn, hb, e1]; ring

theorem mem_trim {A : Type} {l : List A} {a : A} (h : a ∈ trim l) : a ∈ l :=
  List.mem_of_mem_tail ((List.dropLast_sublist _).subset h)

theorem OnLine.trim {p : List (K × K)} {a b : K} (h : OnLine p a b) : OnLine (trim p) a b :=
  fun q hq => h q (mem_trim hq)

theorem spread_of_nodup {p : List (K × K)} (h : (p.map (·.1)).Nodup) (hl : 2 ≤ p.length) : Spread p := by
  match p, h, hl with
  | q :: r :: l, h, _ =>
    refine ⟨q, by simp, r, by simp, ?_⟩
    intro e
    simp [e] at h

theorem nodup_trim {p : List (K × K)} (h : (p.map (·.1)).Nodup) : ((trim p).map (·.1)).Nodup :=
  h.sublist (((List.dropLast_sublist _).trans (List.tail_sublist _)).map _)

/-- Multiplying the values by a number. -/
def scale (c : K) (p : List (K × K)) : List (K × K) := p.map (fun q => (q.1, c * q.2))

theorem scale_sums (c : K) (p : List (K × K)) : sumX (scale c p) = sumX p ∧ sumXX (scale c p) = sumXX p ∧
    sumY (scale c p) = c * sumY p ∧ sumXY (scale c p) = c * sumXY p := by
  induction p with
  | nil => simp [scale, sumX, sumXX, sumY, sumXY]
  | cons q p ih =>
    obtain ⟨h1, h2, h3, h4⟩ := ih
    simp only [scale, sumX, sumXX, sumY, sumXY, List.map_cons, List.sum_cons] at h1 h2 h3 h4 ⊢
    rw [h1, h2, h3, h4]
    refine ⟨rfl, rfl, by ring, by ring⟩

theorem length_scale (c : K) (p : List (K × K)) : (scale c p).length = p.length := by simp [scale]

theorem slope_scale (c : K) (p : List (K × K)) : slope (scale c p) = c * slope p := by
  obtain ⟨h1, h2, h3, h4⟩ := scale_sums c p
  unfold slope
  rw [length_scale, h1, h2, h3, h4, ← mul_div_assoc]
  congr 1; ring

theorem intercept_scale (c : K) (p : List (K × K)) : intercept (scale c p) = c * intercept p := by
  obtain ⟨h1, _, h3, _⟩ := scale_sums c p
  unfold intercept
  rw [length_scale, h1, h3, slope_scale, ← mul_div_assoc]
  congr 1; ring

theorem trim_map {A B : Type} (f : A → B) (l : List A) : trim (l.map f) = (trim l).map f := by
  unfold trim
  rw [← List.map_tail, List.map_dropLast]

theorem trim_scale (c : K) (p : List (K × K)) : trim (scale c p) = scale c (trim p) := trim_map _ _

/-- The window after `j` rounds of discarding. -/
def window {A : Type} (l : List A) (j : Nat) : List A := (l.drop j).take (l.length - 2 * j)

theorem trim_eq_window {A : Type} (l : List A) : trim l = window l 1 := by
  unfold trim window
  rw [List.dropLast_eq_take, List.drop_one, List.length_tail]
  congr 1

theorem window_zero {A : Type} (l : List A) : window l 0 = l := by simp [window]

theorem window_trim {A : Type} (l : List A) (j : Nat) : window (trim l) j = window l (j + 1) := by
  rw [trim_eq_window]
  unfold window
  rw [List.drop_take, List.drop_drop, List.take_take, List.length_take, List.length_drop]
  congr 1
  · omega
  · congr 1; omega

theorem window_length {A : Type} (l : List A) (j : Nat) : (window l j).length = l.length - 2 * j := by
  simp [window]; omega

end Seyfert.Stem
