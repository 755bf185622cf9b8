import Verif.Lemmas.Stem
import Mathlib.Data.Rat.Defs
import Mathlib.Algebra.Order.Ring.Rat
import Mathlib.Tactic.NormNum

/-!
C24, C25: finite-difference (SteM) derivative.
-/

set_option linter.unusedSectionVars false

namespace Seyfert.Stem

variable {K : Type} [Field K] [LinearOrder K] [IsStrictOrderedRing K]

/-- Every point is nearer to the fitted line than one percent of its value. -/
def Near (p : List (K × K)) : Prop :=
  ∀ q ∈ p, |q.2 - (intercept p + slope p * q.1)| < |q.2| / 100

/-- C24. The fitted line is the line with the least sum of squares, and the only one. -/
theorem fit_least_squares {p : List (K × K)} (h : Spread p) (a b : K) :
    cost p (intercept p) (slope p) ≤ cost p a b ∧
    (cost p a b = cost p (intercept p) (slope p) → a = intercept p ∧ b = slope p) := by
  have e := cost_min h a b
  have hn : 0 ≤ (p.map (fun q => ((a - intercept p) + (b - slope p) * q.1) ^ 2)).sum := by
    apply List.sum_nonneg
    intro x hx
    obtain ⟨q, _, rfl⟩ := List.mem_map.mp hx
    exact sq_nonneg _
  refine ⟨by linarith, fun he => ?_⟩
  have h0 : (p.map (fun q => ((a - intercept p) + (b - slope p) * q.1) ^ 2)).sum = 0 := by linarith
  have hz : ∀ q ∈ p, (a - intercept p) + (b - slope p) * q.1 = 0 := by
    intro q hq
    by_contra hne
    have := sum_sq_pos (fun q : K × K => (a - intercept p) + (b - slope p) * q.1) p hq hne
    linarith
  obtain ⟨q, hq, r, hr, hqr⟩ := h
  have h1 := hz q hq
  have h2 := hz r hr
  have hb : b - slope p = 0 := by
    have : (b - slope p) * (q.1 - r.1) = 0 := by linear_combination h1 - h2
    rcases mul_eq_zero.mp this with h | h
    · exact h
    · exact absurd (sub_eq_zero.mp h) hqr
  rw [hb] at h1
  exact ⟨by linarith, sub_eq_zero.mp hb⟩

theorem closeTo_iff (s i : K) (q : K × K) :
    closeTo s i q = true ↔ |q.2 - (i + s * q.1)| < |q.2| / 100 := by
  unfold closeTo
  rw [Bool.and_eq_true, decide_eq_true_eq, decide_eq_true_eq]
  by_cases h : q.2 = 0
  · simp [h, abs_nonneg]
  · have hp : 0 < |q.2| := abs_pos.mpr h
    simp only [ne_eq, h, not_false_eq_true, true_and]
    rw [abs_div, div_lt_iff₀ hp]
    constructor <;> intro e <;> linarith

theorem all_close_iff (p : List (K × K)) :
    p.all (closeTo (slope p) (intercept p)) = true ↔ Near p := by
  simp only [List.all_eq_true, closeTo_iff, Near]

theorem loop_eq (p : List (K × K)) : loop p =
    if p.all (closeTo (slope p) (intercept p)) || decide (p.length ≤ 3) then slope p
    else loop (trim p) := by
  conv_lhs => rw [loop]

/-- C24. The scalar derivative terminates and is the slope of the line fitted to a window from which the
same number `j` of points was discarded at both ends.  The window is the first one whose points are all near
the line, or that has at most three points; at least two points are left. -/
theorem loop_spec (p : List (K × K)) : ∃ j, loop p = slope (window p j) ∧
    (∀ i < j, ¬ Near (window p i) ∧ 3 < (window p i).length) ∧
    (Near (window p j) ∨ (window p j).length ≤ 3) ∧ (j = 0 ∨ 2 ≤ (window p j).length) := by
  induction hn : p.length using Nat.strong_induction_on generalizing p with
  | _ n ih =>
    subst hn
    rw [loop]
    by_cases hc : (p.all (closeTo (slope p) (intercept p)) || decide (p.length ≤ 3)) = true
    · rw [if_pos hc]
      refine ⟨0, by rw [window_zero], by simp, ?_, Or.inl rfl⟩
      rw [window_zero]
      rw [Bool.or_eq_true, all_close_iff, decide_eq_true_eq] at hc
      exact hc
    · rw [if_neg hc]
      rw [Bool.or_eq_true, all_close_iff, decide_eq_true_eq, not_or, not_le] at hc
      obtain ⟨j, h1, h2, h3, h4⟩ := ih (trim p).length (by rw [trim_length]; omega) (trim p) rfl
      rw [window_trim] at h1 h3 h4
      refine ⟨j + 1, h1, ?_, h3, Or.inr ?_⟩
      · intro i hi
        cases i with
        | zero => rw [window_zero]; exact hc
        | succ i =>
          have := h2 i (by omega)
          rw [window_trim] at this
          exact this
      · rcases h4 with rfl | h4
        · rw [window_length]; omega
        · exact h4

/-- C24. The scalar version: refused exactly for no data, or for data that is not constant and whose length
differs from that of the grid; zero for constant data. -/
theorem stem_total (x y : List K) :
    (y = [] → stem x y = .error .valueError) ∧
    (y ≠ [] → (∀ a ∈ y, ∀ b ∈ y, a = b) → stem x y = .ok 0) ∧
    ((∃ a ∈ y, ∃ b ∈ y, a ≠ b) → x.length ≠ y.length → stem x y = .error .typeError) ∧
    ((∃ a ∈ y, ∃ b ∈ y, a ≠ b) → x.length = y.length → stem x y = .ok (loop (x.zip y))) := by
  have hconst : ∀ z, isConst (z :: y.tail) = true ↔ ∀ a ∈ z :: y.tail, a = z := by
    intro z; simp [isConst]
  unfold stem
  cases y with
  | nil => simp
  | cons z y =>
    have hc := hconst z
    simp only [List.tail_cons] at hc
    rw [if_neg (by simp)]
    refine ⟨by simp, fun _ h => ?_, fun h hl => ?_, fun h hl => ?_⟩
    · rw [if_pos (hc.mpr (fun a ha => h a ha z List.mem_cons_self))]
    · obtain ⟨a, ha, b, hb, hab⟩ := h
      rw [if_neg (fun e => hab ((hc.mp e a ha).trans (hc.mp e b hb).symm)), if_pos hl]
    · obtain ⟨a, ha, b, hb, hab⟩ := h
      rw [if_neg (fun e => hab ((hc.mp e a ha).trans (hc.mp e b hb).symm)), if_neg (by simpa using hl)]

theorem loop_onLine {p : List (K × K)} (hx : (p.map (·.1)).Nodup) (hl : 2 ≤ p.length) {a b : K}
    (h : OnLine p a b) : loop p = b := by
  obtain ⟨j, h1, _, _, h4⟩ := loop_spec p
  have hsub : List.Sublist (window p j) p := (List.take_sublist _ _).trans (List.drop_sublist _ _)
  have hlen : 2 ≤ (window p j).length := by
    rcases h4 with rfl | h4
    · rw [window_zero]; exact hl
    · exact h4
  rw [h1]
  exact (fit_onLine (spread_of_nodup (hx.sublist (hsub.map _)) hlen)
    (fun q hq => h q (hsub.subset hq))).1

/-- C24. On a straight line the scalar derivative is the slope. -/
theorem stem_line (x : List K) (hx : x.Nodup) (hl : 2 ≤ x.length) (a b : K) :
    stem x (x.map (fun t => a + b * t)) = .ok b := by
  obtain ⟨_, t2, _, t4⟩ := stem_total x (x.map (fun t => a + b * t))
  have hzip : x.zip (x.map (fun t => a + b * t)) = x.map (fun t => (t, a + b * t)) := by
    rw [← List.map_prod_left_eq_zip]
  by_cases hb : b = 0
  · subst hb
    apply t2
    · intro e
      have : x = [] := List.map_eq_nil_iff.mp e
      rw [this] at hl; simp at hl
    · intro u hu v hv
      obtain ⟨_, _, rfl⟩ := List.mem_map.mp hu
      obtain ⟨_, _, rfl⟩ := List.mem_map.mp hv
      ring
  · rw [t4]
    · congr 1
      refine loop_onLine (a := a) ?_ ?_ ?_
      · rw [hzip, List.map_map]; simpa [Function.comp_def] using hx
      · rw [hzip]; simpa using hl
      · intro q hq
        rw [hzip] at hq
        obtain ⟨t, _, rfl⟩ := List.mem_map.mp hq
        rfl
    · match x, hx, hl with
      | u :: v :: l, hx, _ =>
        refine ⟨a + b * u, by simp, a + b * v, by simp, ?_⟩
        intro e
        have : u = v := mul_left_cancel₀ hb (add_left_cancel e)
        simp [this] at hx
    · simp

/-- C24, partial. If all points are near the fitted line, no point is discarded. Missing for exact lines: a value that is
exactly zero is not near the line (the code divides by it), so a line through zero may lose points; its slope is still
exact (`stem_line`). -/
theorem loop_no_discard_partial {p : List (K × K)} (h : Near p) : loop p = slope p := by
  rw [loop, if_pos]
  rw [Bool.or_eq_true, all_close_iff]
  exact Or.inl h

/-! ### Vectorised version -/

/-- The vectorised procedure on a single column. -/
def colLoop (p : List (K × K)) : K :=
  if !(p.any (errBig (slope p) (intercept p))) || decide (p.length - 2 ≤ 3) then slope p
  else colLoop (trim p)
termination_by p.length
decreasing_by
  rename_i h
  simp only [Bool.or_eq_true, decide_eq_true_eq, not_or, not_le] at h
  rw [trim_length]; omega

theorem colLoop_eq (p : List (K × K)) : colLoop p =
    if !(p.any (errBig (slope p) (intercept p))) || decide (p.length - 2 ≤ 3) then slope p
    else colLoop (trim p) := by
  conv_lhs => rw [colLoop]

theorem vloop_eq (n : Nat) (cols : List (Col K)) (hlen : ∀ c ∈ cols, c.pts.length = n)
    (hinv : ∀ c ∈ cols, c.notLin = false → c.pts.any (errBig c.s c.i) = false) :
    vloop n cols = cols.map (fun c => if c.notLin then colLoop c.pts else c.s) := by
  induction n using Nat.strong_induction_on generalizing cols with
  | _ n ih =>
    rw [vloop]
    by_cases hc : ((cols.map colStep).all (fun c => !c.notLin) || decide (n - 2 ≤ 3)) = true
    · rw [if_pos hc, List.map_map]
      apply List.map_congr_left
      intro c hcm
      simp only [Function.comp, colStep]
      by_cases hl : c.notLin = true
      · rw [if_pos hl, if_pos hl, colLoop, if_pos]
        rw [Bool.or_eq_true, decide_eq_true_eq] at hc ⊢
        rcases hc with hc | hc
        · left
          have := List.all_eq_true.mp hc (colStep c) (List.mem_map_of_mem hcm)
          simpa [colStep, hl] using this
        · right; rw [hlen c hcm]; exact hc
      · rw [if_neg hl, if_neg hl]
    · rw [if_neg hc]
      rw [Bool.or_eq_true, decide_eq_true_eq, not_or, not_le] at hc
      rw [ih (n - 2) (by omega)]
      · rw [List.map_map]
        apply List.map_congr_left
        intro c hcm
        simp only [Function.comp]
        cases hl : c.notLin with
        | true =>
          simp only [if_true]
          rw [colLoop_eq c.pts]
          cases ha : c.pts.any (errBig (slope c.pts) (intercept c.pts)) with
          | true =>
            have hlen' := hlen c hcm
            have hnot : ¬ c.pts.length - 2 ≤ 3 := by omega
            simp [colStep, hl, ha, hnot]
          | false =>
            simp [colStep, hl, ha]
        | false =>
          have ha := hinv c hcm hl
          simp [colStep, hl, ha]
      · intro c hcm
        obtain ⟨d, hd, rfl⟩ := List.mem_map.mp hcm
        show (trim d.pts).length = n - 2
        rw [trim_length, hlen d hd]
      · intro c hcm hl
        obtain ⟨d, hd, rfl⟩ := List.mem_map.mp hcm
        rw [List.any_eq_false]
        intro q hq
        have hl' : d.pts.any (errBig (colStep d).s (colStep d).i) = false := hl
        exact List.any_eq_false.mp hl' q (mem_trim hq)

theorem const_sums {p : List (K × K)} {a : K} (h : ∀ q ∈ p, q.2 = a) :
    slope p = 0 ∧ (p ≠ [] → intercept p = a) := by
  have hl : OnLine p a 0 := fun q hq => by rw [h q hq]; ring
  obtain ⟨e1, e2⟩ := onLine_sums hl
  have hs : slope p = 0 := by
    unfold slope
    rw [e1, e2, show (p.length : K) * (a * sumX p + 0 * sumXX p) - sumX p * ((p.length : K) * a + 0 * sumX p)
      = 0 by ring, zero_div]
  refine ⟨hs, fun hne => ?_⟩
  have hn : (p.length : K) ≠ 0 := by
    have := List.length_pos_of_ne_nil hne
    exact_mod_cast this.ne'
  unfold intercept
  rw [hs, e1, div_eq_iff hn]; ring

theorem colLoop_const {p : List (K × K)} {a : K} (hne : p ≠ []) (h : ∀ q ∈ p, q.2 = a) :
    colLoop p = 0 := by
  obtain ⟨h1, h2⟩ := const_sums h
  rw [colLoop, if_pos, h1]
  rw [Bool.or_eq_true, Bool.not_eq_true']
  left
  rw [List.any_eq_false]
  intro q hq
  simp only [errBig, h1, h2 hne, h q hq, decide_eq_true_eq, not_lt]
  have : |q.1 * 0 + a - a| = 0 := by rw [abs_eq_zero]; ring
  rw [this]
  split <;> norm_num

/-- C24. The vectorised derivative acts on every column on its own: the result for a column is that of the
procedure on this column alone. Refused exactly if a column has the wrong length or there is no data. -/
theorem vectorized_elementwise (x : List K) (ys : List (List K)) :
    ((∃ y ∈ ys, x.length ≠ y.length) → vectorized x ys = .error .assertionError) ∧
    ((∀ y ∈ ys, x.length = y.length) → (x = [] ∨ ys = []) → vectorized x ys = .error .valueError) ∧
    ((∀ y ∈ ys, x.length = y.length) → x ≠ [] → ys ≠ [] →
      vectorized x ys = .ok (ys.map (fun y => colLoop (x.zip y)))) := by
  unfold vectorized
  refine ⟨fun h => if_pos h, fun h h0 => ?_, fun h hx hy => ?_⟩
  · rw [if_neg (by rintro ⟨y, hy, e⟩; exact e (h y hy)), if_pos]
    rw [List.flatten_eq_nil_iff]
    intro y hy
    rcases h0 with rfl | rfl
    · exact List.length_eq_zero_iff.mp (h y hy).symm
    · simp at hy
  · rw [if_neg (by rintro ⟨y, hy, e⟩; exact e (h y hy)), if_neg]
    · split
      · next hc =>
        congr 1
        apply List.map_congr_left
        intro y hym
        obtain ⟨z, hz⟩ : ∃ z, ys.flatten.head? = some z := by
          cases hf : ys.flatten with
          | nil => exact absurd hf (by
              intro e
              rw [List.flatten_eq_nil_iff] at e
              have := e y hym
              have hl := h y hym
              rw [this] at hl
              exact hx (List.length_eq_zero_iff.mp hl))
          | cons z l => exact ⟨z, rfl⟩
        refine (colLoop_const (a := z) ?_ ?_).symm
        · intro e
          have := congrArg List.length e
          rw [List.length_zip, ← h y hym, Nat.min_self, List.length_nil] at this
          exact hx (List.length_eq_zero_iff.mp this)
        · rintro ⟨u, v⟩ hq
          have hv := (List.of_mem_zip hq).2
          have := List.all_eq_true.mp hc v (List.mem_flatten.mpr ⟨y, hym, hv⟩)
          rw [hz] at this
          simpa using this
      · next hc =>
        congr 1
        rw [vloop_eq]
        · rw [List.map_map]; rfl
        · intro c hcm
          obtain ⟨y, hy', rfl⟩ := List.mem_map.mp hcm
          simp [← h y hy']
        · intro c hcm hf
          obtain ⟨y, hy', rfl⟩ := List.mem_map.mp hcm
          cases hf
    · rw [List.flatten_eq_nil_iff]
      intro e
      obtain ⟨y, hym⟩ := List.exists_mem_of_ne_nil ys hy
      have hl := h y hym
      rw [e y hym] at hl
      exact hx (List.length_eq_zero_iff.mp hl)

/-- Every point is either negative or zero or not further from the fitted line than one percent of
its value. -/
def NearV (p : List (K × K)) : Prop :=
  ∀ q ∈ p, q.2 ≤ 0 ∨ |q.2 - (intercept p + slope p * q.1)| ≤ q.2 / 100

theorem errBig_iff (s i : K) (q : K × K) :
    errBig s i q = false ↔ q.2 ≤ 0 ∨ |q.2 - (i + s * q.1)| ≤ q.2 / 100 := by
  unfold errBig
  rw [decide_eq_false_iff_not, gt_iff_lt, not_lt]
  have hsymm : |q.1 * s + i - q.2| = |q.2 - (i + s * q.1)| := by
    rw [abs_sub_comm]; congr 1; ring
  rcases lt_trichotomy q.2 0 with h | h | h
  · rw [if_pos h.ne]
    have : |q.1 * s + i - q.2| / q.2 ≤ 0 := div_nonpos_of_nonneg_of_nonpos (abs_nonneg _) h.le
    exact ⟨fun _ => Or.inl h.le, fun _ => le_trans this (by norm_num)⟩
  · rw [if_neg (by simpa using h)]
    exact ⟨fun _ => Or.inl h.le, fun _ => by norm_num⟩
  · rw [if_pos h.ne', hsymm, div_le_iff₀ h]
    constructor
    · intro e; right; linarith
    · rintro (e | e)
      · exact absurd e (not_le.mpr h)
      · linarith

theorem no_errBig_iff (p : List (K × K)) :
    (!(p.any (errBig (slope p) (intercept p)))) = true ↔ NearV p := by
  rw [Bool.not_eq_true', List.any_eq_false]
  simp only [Bool.not_eq_true, errBig_iff, NearV]

/-- C24. The vectorised derivative of a column is the slope of the line fitted to a window from which the
same number `j` of points was discarded at both ends: the first window that is near its line in the
sense of `NearV`, or from which no two more points may be discarded. More than three points are left if
any were discarded. -/
theorem colLoop_spec (p : List (K × K)) : ∃ j, colLoop p = slope (window p j) ∧
    (∀ i < j, ¬ NearV (window p i) ∧ 5 < (window p i).length) ∧
    (NearV (window p j) ∨ (window p j).length ≤ 5) ∧ (j = 0 ∨ 3 < (window p j).length) := by
  induction hn : p.length using Nat.strong_induction_on generalizing p with
  | _ n ih =>
    subst hn
    rw [colLoop]
    by_cases hc : (!(p.any (errBig (slope p) (intercept p))) || decide (p.length - 2 ≤ 3)) = true
    · rw [if_pos hc]
      refine ⟨0, by rw [window_zero], by simp, ?_, Or.inl rfl⟩
      rw [window_zero]
      rw [Bool.or_eq_true, no_errBig_iff, decide_eq_true_eq] at hc
      exact hc.imp id (fun h => by omega)
    · rw [if_neg hc]
      rw [Bool.or_eq_true, no_errBig_iff, decide_eq_true_eq, not_or, not_le] at hc
      obtain ⟨j, h1, h2, h3, h4⟩ := ih (trim p).length (by rw [trim_length]; omega) (trim p) rfl
      rw [window_trim] at h1 h3 h4
      refine ⟨j + 1, h1, ?_, h3, Or.inr ?_⟩
      · intro i hi
        cases i with
        | zero => rw [window_zero]; exact ⟨hc.1, by omega⟩
        | succ i =>
          have := h2 i (by omega)
          rw [window_trim] at this
          exact this
      · rcases h4 with rfl | h4
        · rw [window_length]; omega
        · exact h4

/-- C24. On straight lines, one for each column, the vectorised derivative is the list of the slopes, and no
point is discarded. -/
theorem vectorized_lines (x : List K) (hx : ∃ s ∈ x, ∃ t ∈ x, s ≠ t) (ab : List (K × K)) (hab : ab ≠ []) :
    vectorized x (ab.map (fun c => x.map (fun t => c.1 + c.2 * t))) = .ok (ab.map (fun c => c.2)) := by
  obtain ⟨_, _, h3⟩ := vectorized_elementwise x (ab.map (fun c => x.map (fun t => c.1 + c.2 * t)))
  rw [h3 (by intro y hy; obtain ⟨c, _, rfl⟩ := List.mem_map.mp hy; simp)
    (by rintro rfl; obtain ⟨s, hs, _⟩ := hx; simp at hs)
    (by intro e; exact hab (List.map_eq_nil_iff.mp e)), List.map_map]
  congr 1
  apply List.map_congr_left
  rintro ⟨a, b⟩ _
  have hzip : x.zip (x.map (fun t => a + b * t)) = x.map (fun t => (t, a + b * t)) := by
    rw [← List.map_prod_left_eq_zip]
  simp only [Function.comp, hzip]
  have hsp : Spread (x.map (fun t => (t, a + b * t))) := by
    obtain ⟨s, hs, t, ht, hst⟩ := hx
    exact ⟨_, List.mem_map_of_mem hs, _, List.mem_map_of_mem ht, hst⟩
  obtain ⟨hb, ha⟩ := fit_onLine (a := a) (b := b) hsp (by
    intro q hq
    obtain ⟨t, _, rfl⟩ := List.mem_map.mp hq
    rfl)
  rw [colLoop, if_pos, hb]
  rw [Bool.or_eq_true, no_errBig_iff]
  left
  intro q hq
  obtain ⟨t, _, rfl⟩ := List.mem_map.mp hq
  rw [ha, hb]
  simp only [sub_self, abs_zero]
  rcases le_or_gt (a + b * t) 0 with h | h
  · exact Or.inl h
  · right; linarith

/-! ### Signs and units -/

theorem near_scale {c : K} (hc : c ≠ 0) (p : List (K × K)) : Near (scale c p) ↔ Near p := by
  unfold Near
  rw [slope_scale, intercept_scale]
  have hp : 0 < |c| := abs_pos.mpr hc
  simp only [scale, List.mem_map, forall_exists_index, and_imp, forall_apply_eq_imp_iff₂]
  refine forall₂_congr (fun q _ => ?_)
  rw [show c * q.2 - (c * intercept p + c * slope p * q.1) = c * (q.2 - (intercept p + slope p * q.1))
    by ring, abs_mul, abs_mul, mul_div_assoc, mul_lt_mul_iff_right₀ hp]

/-- C25 (scalar version). Multiplying the data by any number other than zero multiplies the derivative by
it; in particular the derivative of the negated data is the negated derivative. -/
theorem loop_scale {c : K} (hc : c ≠ 0) (p : List (K × K)) : loop (scale c p) = c * loop p := by
  induction hn : p.length using Nat.strong_induction_on generalizing p with
  | _ n ih =>
    subst hn
    rw [loop_eq (scale c p), loop_eq p]
    by_cases h : (p.all (closeTo (slope p) (intercept p)) || decide (p.length ≤ 3)) = true
    · rw [if_pos h, if_pos, slope_scale]
      rw [Bool.or_eq_true, all_close_iff, decide_eq_true_eq] at h ⊢
      rw [near_scale hc, length_scale]; exact h
    · rw [if_neg h, if_neg]
      · rw [Bool.or_eq_true, decide_eq_true_eq, not_or, not_le] at h
        rw [trim_scale, ih (trim p).length (by rw [trim_length]; omega) (trim p) rfl]
      · rw [Bool.or_eq_true, all_close_iff, decide_eq_true_eq] at h ⊢
        rw [near_scale hc, length_scale]; exact h

theorem zip_scale (c : K) (x y : List K) : x.zip (y.map (fun t => c * t)) = scale c (x.zip y) := by
  unfold scale
  rw [List.zip_map_right]
  rfl

theorem stem_scale {c : K} (hc : c ≠ 0) (x y : List K) :
    stem x (y.map (fun t => c * t)) = (stem x y).map (fun s => c * s) := by
  obtain ⟨a1, a2, a3, a4⟩ := stem_total x y
  obtain ⟨b1, b2, b3, b4⟩ := stem_total x (y.map (fun t => c * t))
  by_cases hy : y = []
  · rw [b1 (by simp [hy]), a1 hy]; rfl
  · by_cases hcon : ∀ a ∈ y, ∀ b ∈ y, a = b
    · rw [a2 hy hcon, b2 (by simpa using hy)]
      · simp [Except.map]
      · intro u hu v hv
        obtain ⟨a, ha, rfl⟩ := List.mem_map.mp hu
        obtain ⟨b, hb, rfl⟩ := List.mem_map.mp hv
        rw [hcon a ha b hb]
    · push Not at hcon
      obtain ⟨a, ha, b, hb, hab⟩ := hcon
      have h' : ∃ u ∈ y.map (fun t => c * t), ∃ v ∈ y.map (fun t => c * t), u ≠ v :=
        ⟨_, List.mem_map_of_mem ha, _, List.mem_map_of_mem hb, fun e => hab (mul_left_cancel₀ hc e)⟩
      by_cases hl : x.length = y.length
      · rw [a4 ⟨a, ha, b, hb, hab⟩ hl, b4 h' (by simpa using hl), zip_scale, loop_scale hc]; rfl
      · rw [a3 ⟨a, ha, b, hb, hab⟩ hl, b3 h' (by simpa using hl)]; rfl

theorem nearV_scale {c : K} (hc : 0 < c) (p : List (K × K)) : NearV (scale c p) ↔ NearV p := by
  unfold NearV
  rw [slope_scale, intercept_scale]
  simp only [scale, List.mem_map, forall_exists_index, and_imp, forall_apply_eq_imp_iff₂]
  refine forall₂_congr (fun q _ => ?_)
  rw [show c * q.2 - (c * intercept p + c * slope p * q.1) = c * (q.2 - (intercept p + slope p * q.1))
    by ring, abs_mul, abs_of_pos hc, mul_div_assoc, mul_le_mul_iff_right₀ hc]
  apply or_congr_left
  exact ⟨fun h => by by_contra hq; push Not at hq; nlinarith [mul_pos hc hq],
    fun h => mul_nonpos_of_nonneg_of_nonpos hc.le h⟩

/-- C25 (partial). The vectorised version, used by the pipeline: multiplying the data by a positive number
multiplies the derivative by it. Missing: negative numbers, see `vectorized_sign_dependent`. -/
theorem colLoop_scale_partial {c : K} (hc : 0 < c) (p : List (K × K)) :
    colLoop (scale c p) = c * colLoop p := by
  induction hn : p.length using Nat.strong_induction_on generalizing p with
  | _ n ih =>
    subst hn
    rw [colLoop_eq (scale c p), colLoop_eq p]
    by_cases h : (!(p.any (errBig (slope p) (intercept p))) || decide (p.length - 2 ≤ 3)) = true
    · rw [if_pos h, if_pos, slope_scale]
      rw [Bool.or_eq_true, no_errBig_iff, decide_eq_true_eq] at h ⊢
      rw [nearV_scale hc, length_scale]; exact h
    · rw [if_neg h, if_neg]
      · rw [Bool.or_eq_true, decide_eq_true_eq, not_or, not_le] at h
        rw [trim_scale, ih (trim p).length (by rw [trim_length]; omega) (trim p) rfl]
      · rw [Bool.or_eq_true, no_errBig_iff, decide_eq_true_eq] at h ⊢
        rw [nearV_scale hc, length_scale]; exact h

/-- C25. For data that is nowhere positive the vectorised version never discards a point, however far from
a line the data is. -/
theorem negative_never_trimmed {p : List (K × K)} (h : ∀ q ∈ p, q.2 ≤ 0) : colLoop p = slope p := by
  rw [colLoop, if_pos]
  rw [Bool.or_eq_true, no_errBig_iff]
  exact Or.inl (fun q hq => Or.inl (h q hq))

/-- A curved data set with seven points. -/
def curved : List (ℚ × ℚ) := [(-3, 1), (-2, 1), (-1, 1), (0, 2), (1, 3), (2, 6), (3, 100)]

/-- C25 is false for the vectorised version. -/
theorem vectorized_sign_dependent : colLoop (scale (-1) curved) ≠ -1 * colLoop curved := by
  rw [negative_never_trimmed (by decide +kernel), colLoop, if_neg (by decide +kernel), colLoop,
    if_pos (by decide +kernel)]
  decide +kernel

/-- The two versions differ: the scalar one may go down to three points, the other stops at five. -/
theorem versions_differ : loop (trim curved) ≠ colLoop (trim curved) := by
  rw [loop, if_neg (by decide +kernel), loop, if_pos (by decide +kernel), colLoop,
    if_pos (by decide +kernel)]
  decide +kernel

example : stem [1, 2, 3, (4 : ℚ)] ([1, 2, 3, 4].map (fun t => 5 + 7 * t)) = .ok 7 :=
  stem_line _ (by decide +kernel) (by decide) 5 7

example : vectorized [1, 2, (3 : ℚ)] ([(1, 2), (0, -3)].map (fun c => [1, 2, 3].map (fun t => c.1 + c.2 * t)))
    = .ok [2, -3] := vectorized_lines _ ⟨1, by simp, 2, by simp, by norm_num⟩ _ (by simp)

example : Spread curved := ⟨(-3, 1), by simp [curved], (0, 2), by simp [curved], by norm_num⟩

end Seyfert.Stem
