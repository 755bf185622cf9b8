import Verif.Model.Bias
import Verif.Props.Weights
import Verif.Props.Numeric
import Verif.Props.Redshift
import Mathlib.Analysis.SpecialFunctions.Log.Basic

/-!
C104, C105, C106: models of the bias and the variance of the filtered matter density.
-/

noncomputable section

namespace Seyfert.Bias

open Weights (simps Tame)
open Filter Topology

/-! ### Simpson's rule on equally spaced points -/

theorem linspace_eq (a b : ℝ) (n : Nat) : linspace a b n = fun k : Nat => a + k * ((b - a) / (n - 1 : ℕ)) := rfl

theorem step_pos {a b : ℝ} (h : a < b) {n : Nat} (hn : 2 ≤ n) : 0 < (b - a) / (n - 1 : ℕ) := by
  have : (0 : ℝ) < (n - 1 : ℕ) := by exact_mod_cast (by omega : 0 < n - 1)
  exact div_pos (by linarith) this

theorem linspace_tame {a b : ℝ} (h : a < b) {n : Nat} (hn : 2 ≤ n) : Tame (linspace a b n) n :=
  Weights.uniform_tame a _ (step_pos h hn) n

theorem linspace_ends {a b : ℝ} {n : Nat} (hn : 2 ≤ n) : linspace a b n 0 = a ∧ linspace a b n (n - 1) = b := by
  have : ((n - 1 : ℕ) : ℝ) ≠ 0 := by exact_mod_cast (by omega : n - 1 ≠ 0)
  unfold linspace
  refine ⟨by simp, ?_⟩
  field_simp
  ring

theorem simps_const {x : Nat → ℝ} {n : Nat} (hx : Tame x n) (hn : 2 ≤ n) (c : ℝ) :
    simps x (fun _ => c) n = c * (x (n - 1) - x 0) := by
  rcases Nat.even_or_odd n with ⟨m, hm⟩ | ⟨m, hm⟩
  · obtain ⟨m, rfl⟩ : ∃ q, m = q + 1 := ⟨m - 1, by omega⟩
    have e : n = 2 * m + 2 := by omega
    subst e
    have := Weights.simps_exact_even x c 0 m (fun k hk => hx.increasing k (by omega))
    simp only [zero_mul, add_zero] at this
    rw [this]
    simp
    ring
  · subst hm
    have := Weights.simps_exact x c 0 0 m (fun k hk => hx.increasing k (by omega))
    simp only [zero_mul, add_zero] at this
    rw [this]
    simp
    ring

theorem tame_first_last {x : Nat → ℝ} {n : Nat} (hx : Tame x n) (hn : 2 ≤ n) : x 0 < x (n - 1) := by
  have : ∀ k, k + 1 < n → x 0 < x (k + 1) := by
    intro k
    induction k with
    | zero => exact fun h => hx.increasing 0 h
    | succ k ih => exact fun h => (ih (by omega)).trans (hx.increasing (k + 1) h)
  have := this (n - 2) (by omega)
  rwa [show n - 2 + 1 = n - 1 by omega] at this

theorem simps_pos {x y : Nat → ℝ} {n : Nat} (hx : Tame x n) (hn : 2 ≤ n) (hy : ∀ k, k < n → 0 < y k) : 0 < simps x y n := by
  obtain ⟨i, hi, hmin⟩ := Finset.exists_min_image (Finset.range n) y ⟨0, Finset.mem_range.mpr (by omega)⟩
  have h0 : 0 ≤ simps x (fun k => 1 * y k + (-1) * y i) n :=
    Weights.simps_nonneg x _ n hn hx fun k hk => by have := hmin k (Finset.mem_range.mpr hk); linarith
  rw [Weights.simps_add x y (fun _ => y i) 1 (-1) n, simps_const hx hn] at h0
  have := mul_pos (hy i (Finset.mem_range.mp hi)) (sub_pos.mpr (tame_first_last hx hn))
  linarith

theorem simps_mono {x y y' : Nat → ℝ} {n : Nat} (hx : Tame x n) (hn : 2 ≤ n) (hy : ∀ k, k < n → y k ≤ y' k) :
    simps x y n ≤ simps x y' n := by
  have h0 : 0 ≤ simps x (fun k => 1 * y' k + (-1) * y k) n :=
    Weights.simps_nonneg x _ n hn hx fun k hk => by have := hy k hk; linarith
  rw [Weights.simps_add] at h0
  linarith

/-! ### C104: choice of the model, galaxies -/

/-- Which model a name gives, and with which cosmology. -/
theorem init_ok {C : Type} (name : Str) (co fi : Option C) (k : Kind) (c : Option C) :
    initModel name co fi = .ok (k, c) ↔
      (name = "piecewise".toList ∧ k = .piecewise ∧ c = none) ∨ (name = "constant".toList ∧ k = .constant ∧ c = none) ∨
      (name = "euclid_flagship_photo".toList ∧ k = .flagship ∧ c = none) ∨
      (name = "vdn_void".toList ∧ k = .vdn ∧ c = co ∧ co ≠ none) ∨
      (name = "fiducial_growth_void".toList ∧ k = .growth ∧ c = fi ∧ fi ≠ none) := by
  have gen : ∀ a b d e f : Str, a ≠ b → a ≠ d → a ≠ e → a ≠ f → b ≠ d → b ≠ e → b ≠ f → d ≠ e → d ≠ f → e ≠ f →
      ((if name = a then (.ok (.piecewise, none) : Except Err (Kind × Option C)) else if name = b then .ok (.constant, none)
        else if name = d then .ok (.flagship, none) else if name = e then
          match co with | none => .error .biasError | some c => .ok (.vdn, some c)
        else if name = f then match fi with | none => .error .biasError | some c => .ok (.growth, some c)
        else .error .keyError) = .ok (k, c) ↔
      (name = a ∧ k = .piecewise ∧ c = none) ∨ (name = b ∧ k = .constant ∧ c = none) ∨
      (name = d ∧ k = .flagship ∧ c = none) ∨ (name = e ∧ k = .vdn ∧ c = co ∧ co ≠ none) ∨
      (name = f ∧ k = .growth ∧ c = fi ∧ fi ≠ none)) := by
    intro a b d e f h1 h2 h3 h4 h5 h6 h7 h8 h9 h10
    by_cases ha : name = a
    · subst ha; simp [h1, h2, h3, h4, eq_comm]
    by_cases hb : name = b
    · subst hb; simp [ha, h5, h6, h7, eq_comm]
    by_cases hd : name = d
    · subst hd; simp [ha, hb, h8, h9, eq_comm]
    by_cases he : name = e
    · subst he
      cases co <;> simp [ha, hb, hd, h10, eq_comm]
    by_cases hf : name = f
    · subst hf
      cases fi <;> simp [ha, hb, hd, he, eq_comm]
    · simp [ha, hb, hd, he, hf]
  exact gen _ _ _ _ _ (by decide) (by decide) (by decide) (by decide) (by decide) (by decide) (by decide) (by decide)
    (by decide) (by decide)

/-- A name that is not one of the five is refused, and each model for voids without its cosmology. -/
theorem init_error {C : Type} (name : Str) (co fi : Option C) (e : Err) (h : initModel name co fi = .error e) :
    (e = .keyError ∧ name ∉ ["piecewise".toList, "constant".toList, "euclid_flagship_photo".toList, "vdn_void".toList,
      "fiducial_growth_void".toList]) ∨
    (e = .biasError ∧ name = "vdn_void".toList ∧ co = none) ∨
    (e = .biasError ∧ name = "fiducial_growth_void".toList ∧ fi = none) := by
  revert h
  have gen : ∀ a b d g f : Str,
      ((if name = a then (.ok (.piecewise, none) : Except Err (Kind × Option C)) else if name = b then .ok (.constant, none)
        else if name = d then .ok (.flagship, none) else if name = g then
          match co with | none => .error .biasError | some c => .ok (.vdn, some c)
        else if name = f then match fi with | none => .error .biasError | some c => .ok (.growth, some c)
        else .error .keyError) = .error e →
      (e = .keyError ∧ name ∉ [a, b, d, g, f]) ∨ (e = .biasError ∧ name = g ∧ co = none) ∨
      (e = .biasError ∧ name = f ∧ fi = none)) := by
    intro a b d g f h
    split at h
    · cases h
    split at h
    · cases h
    split at h
    · cases h
    split at h
    · cases co <;> cases h
      exact .inr (.inl ⟨rfl, ‹_›, rfl⟩)
    split at h
    · cases fi <;> cases h
      exact .inr (.inr ⟨rfl, ‹_›, rfl⟩)
    · cases h
      refine .inl ⟨rfl, ?_⟩
      simp [*]
  exact gen _ _ _ _ _

example : initModel "vdn_void".toList (some 3) (some 5) = .ok (.vdn, some 3) ∧
    initModel "fiducial_growth_void".toList (some 3) none = .error .biasError ∧
    initModel "linear".toList (some 3) (some 5) = .error .keyError := by decide +kernel

/-- The bias of the flagship galaxies lies between its two values far away, takes the mean in the middle and is
symmetric about it. -/
theorem flagship_range {A B C D : ℝ} (hB : 0 < B) (z : ℝ) :
    A < flagship A B C D z ∧ flagship A B C D z < A + B ∧ flagship A B C D D = A + B / 2 ∧
    ∀ t, flagship A B C D (D + t) + flagship A B C D (D - t) = 2 * A + B := by
  have hp : ∀ u, 0 < Real.exp u := Real.exp_pos
  refine ⟨?_, ?_, ?_, fun t => ?_⟩
  · have := div_pos hB (show 0 < 1 + Real.exp (-C * (z - D)) by linarith [hp (-C * (z - D))])
    unfold flagship; linarith
  · have := div_lt_self hB (show 1 < 1 + Real.exp (-C * (z - D)) by linarith [hp (-C * (z - D))])
    unfold flagship; linarith
  · unfold flagship
    rw [sub_self, mul_zero, Real.exp_zero]
    norm_num
  · unfold flagship
    have e : Real.exp (-C * (D - t - D)) = (Real.exp (-C * (D + t - D)))⁻¹ := by
      rw [← Real.exp_neg]; congr 1; ring
    rw [e]
    have h1 := hp (-C * (D + t - D))
    generalize Real.exp (-C * (D + t - D)) = w at h1
    have h2 : 1 + w ≠ 0 := by linarith
    have h3 : w ≠ 0 := h1.ne'
    field_simp
    ring

/-- It grows with the redshift. -/
theorem flagship_increasing {A B C D : ℝ} (hB : 0 < B) (hC : 0 < C) : StrictMono (flagship A B C D) := by
  intro z z' h
  unfold flagship
  have h1 : Real.exp (-C * (z' - D)) < Real.exp (-C * (z - D)) := by
    apply Real.exp_lt_exp.mpr
    nlinarith
  have := div_lt_div_of_pos_left hB (show 0 < 1 + Real.exp (-C * (z' - D)) by linarith [Real.exp_pos (-C * (z' - D))])
    (show 1 + Real.exp (-C * (z' - D)) < 1 + Real.exp (-C * (z - D)) by linarith)
  linarith

/-- The two values far away. -/
theorem flagship_limits {A B C D : ℝ} (hC : 0 < C) :
    Tendsto (flagship A B C D) atTop (𝓝 (A + B)) ∧ Tendsto (flagship A B C D) atBot (𝓝 A) := by
  constructor
  · have h1 : Tendsto (fun z : ℝ => -C * (z - D)) atTop atBot := by
      refine Tendsto.const_mul_atTop_of_neg (by linarith) ?_
      exact tendsto_atTop_add_const_right _ (-D) tendsto_id
    have h2 : Tendsto (fun z => A + B / (1 + Real.exp (-C * (z - D)))) atTop (𝓝 (A + B / (1 + 0))) := by
      refine tendsto_const_nhds.add (tendsto_const_nhds.div (tendsto_const_nhds.add ?_) (by norm_num))
      exact Real.tendsto_exp_atBot.comp h1
    rw [add_zero, div_one] at h2
    exact h2
  · have h1 : Tendsto (fun z : ℝ => -C * (z - D)) atBot atTop := by
      refine Tendsto.const_mul_atBot_of_neg (by linarith) ?_
      exact tendsto_atBot_add_const_right _ (-D) tendsto_id
    have h2 : Tendsto (fun z => A + B / (1 + Real.exp (-C * (z - D)))) atBot (𝓝 (A + 0)) := by
      refine tendsto_const_nhds.add (Tendsto.div_atTop tendsto_const_nhds ?_)
      exact tendsto_atTop_add_const_left _ _ (Real.tendsto_exp_atTop.comp h1)
    rw [add_zero] at h2
    exact h2

/-- The table: every bin has the same row, and all four parameters are needed. -/
theorem flagship_table (edges : List ℝ) (pars : List (Str × ℝ)) (grid : List ℝ) (rows : List (List ℝ)) :
    flagshipBias edges pars grid = .ok rows ↔
      ∃ A B C D, pars.lookup "Aph".toList = some A ∧ pars.lookup "Bph".toList = some B ∧
        pars.lookup "Cph".toList = some C ∧ pars.lookup "Dph".toList = some D ∧
        rows.length = edges.length - 1 ∧ ∀ row ∈ rows, row.length = grid.length ∧
          ∀ (i : Nat) (z v : ℝ), grid[i]? = some z → row[i]? = some v → v = A + B / (1 + Real.exp (-C * (z - D))) := by
  have gen : ∀ a b c d : Option ℝ,
      ((match a, b, c, d with
        | some A, some B, some C, some D => (.ok (List.replicate (edges.length - 1) (grid.map (flagship A B C D))) :
            Except Err (List (List ℝ)))
        | _, _, _, _ => .error .keyError) = .ok rows ↔
      ∃ A B C D, a = some A ∧ b = some B ∧ c = some C ∧ d = some D ∧
        rows.length = edges.length - 1 ∧ ∀ row ∈ rows, row.length = grid.length ∧
          ∀ (i : Nat) (z v : ℝ), grid[i]? = some z → row[i]? = some v → v = A + B / (1 + Real.exp (-C * (z - D)))) := by
    intro a b c d
    rcases a with _ | A
    · simp
    rcases b with _ | B
    · simp
    rcases c with _ | C
    · simp
    rcases d with _ | D
    · simp
    constructor
    · intro h
      cases h
      refine ⟨A, B, C, D, rfl, rfl, rfl, rfl, by simp, fun row hr => ?_⟩
      rw [List.eq_of_mem_replicate hr]
      refine ⟨by simp, fun i z v hz hv => ?_⟩
      rw [List.getElem?_map, hz] at hv
      cases hv
      rfl
    · rintro ⟨A', B', C', D', ha, hb, hc, hd, hl, hr⟩
      cases ha; cases hb; cases hc; cases hd
      show Except.ok _ = _
      congr 1
      refine (List.eq_replicate_iff.mpr ⟨hl, fun row hrow => ?_⟩).symm
      obtain ⟨h1, h2⟩ := hr row hrow
      refine List.ext_getElem? fun i => ?_
      rw [List.getElem?_map]
      rcases hz : grid[i]? with _ | z
      · rw [List.getElem?_eq_none_iff] at hz
        rw [List.getElem?_eq_none_iff.mpr (by omega)]
        rfl
      · obtain ⟨hi, _⟩ := List.getElem?_eq_some_iff.mp hz
        obtain ⟨v, hv⟩ : ∃ v, row[i]? = some v := ⟨row[i]'(by omega), List.getElem?_eq_getElem _⟩
        rw [hv, h2 i z v hz hv]
        rfl
  exact gen _ _ _ _

example : flagshipBias [0, 1, 2] [("Aph".toList, 1), ("Dph".toList, 2), ("Bph".toList, 3), ("Cph".toList, 0)] [5] =
    .ok [[1 + 3 / 2], [1 + 3 / 2]] := by
  rw [flagship_table]
  refine ⟨1, 3, 0, 2, rfl, rfl, rfl, rfl, rfl, fun row hr => ?_⟩
  simp only [List.mem_cons, List.not_mem_nil, or_false, or_self] at hr
  subst hr
  refine ⟨rfl, fun i z v hz hv => ?_⟩
  rcases i with _ | i
  · cases hz; cases hv; norm_num
  · cases hz

/-! ### C106: the variance of the filtered density -/

theorem topHat_scale (k : ℝ) {R : ℝ} (hR : 0 < R) :
    Numeric.topHat k (1 / R) = Numeric.topHat (k * R) 1 := by
  unfold Numeric.topHat Numeric.smoothstep
  have : (k - 9 / 10 * (1 / R)) / (11 / 10 * (1 / R) - 9 / 10 * (1 / R)) =
      (k * R - 9 / 10 * 1) / (11 / 10 * 1 - 9 / 10 * 1) := by
    have := hR.ne'
    field_simp
  rw [this]

/-- The variance of the filtered density is what Simpson's rule gives for the power below the inverse of the radius: with
all wave numbers well below it the filter has no effect, with all well above nothing is left. -/
theorem sigma_cases (k P : Nat → ℝ) (n : Nat) (hn : 0 < n) {R : ℝ} (hR : 0 < R) :
    ((∀ i, i < n → k i * R ≤ 9 / 10) →
      sigmaR k P n R = Real.sqrt (simps k (fun i => k i ^ 2 * P i / (2 * Real.pi ^ 2)) n)) ∧
    ((∀ i, i < n → 11 / 10 ≤ k i * R) → sigmaR k P n R = 0) := by
  have hs := Numeric.topHat_spec (R := 1) one_pos
  constructor
  · intro h
    unfold sigmaR
    congr 1
    refine Weights.simps_local _ _ _ _ hn fun i hi => ?_
    rw [topHat_scale _ hR, hs.2.1 _ (by linarith [h i hi])]
    ring
  · intro h
    unfold sigmaR
    rw [Weights.simps_local k _ (fun i => 0 * 0 + 0 * 0) n hn fun i hi => by
      rw [topHat_scale _ hR, hs.2.2.1 _ (by linarith [h i hi])]; ring, Weights.simps_add]
    simp

/-- It is never negative, and on grids of wave numbers whose steps do not change too fast it does not grow with the
radius. -/
theorem sigma_decreasing (k P : Nat → ℝ) (n : Nat) (hn : 2 ≤ n) (hk : Tame k n) (hk0 : ∀ i, i < n → 0 ≤ k i)
    (hP : ∀ i, i < n → 0 ≤ P i) {R R' : ℝ} (hR : 0 < R) (h : R ≤ R') :
    0 ≤ sigmaR k P n R' ∧ sigmaR k P n R' ≤ sigmaR k P n R := by
  refine ⟨Real.sqrt_nonneg _, Real.sqrt_le_sqrt (simps_mono hk hn fun i hi => ?_)⟩
  have hs := Numeric.topHat_spec (R := 1) one_pos
  rw [topHat_scale _ hR, topHat_scale _ (hR.trans_le h)]
  have h1 : Numeric.topHat (k i * R') 1 ≤ Numeric.topHat (k i * R) 1 :=
    hs.2.2.2.1 (mul_le_mul_of_nonneg_left h (hk0 i hi))
  have h2 := (hs.1 (k i * R')).1
  have h3 : Numeric.topHat (k i * R') 1 ^ 2 ≤ Numeric.topHat (k i * R) 1 ^ 2 := pow_le_pow_left₀ h2 h1 2
  have h4 : 0 ≤ k i ^ 2 * P i := mul_nonneg (sq_nonneg _) (hP i hi)
  exact div_le_div_of_nonneg_right (mul_le_mul_of_nonneg_left h3 h4) (by positivity)

/-- A spectrum that is `t ^ 2` times as large gives `|t|` times the value. -/
theorem sigma_scale (k P : Nat → ℝ) (n : Nat) (t R : ℝ) :
    sigmaR k (fun i => t ^ 2 * P i) n R = |t| * sigmaR k P n R := by
  unfold sigmaR
  rw [← Real.sqrt_sq_eq_abs, ← Real.sqrt_mul (sq_nonneg t)]
  congr 1
  have := Weights.simps_add k (fun i => k i ^ 2 * P i * Numeric.topHat (k i) (1 / R) ^ 2 / (2 * Real.pi ^ 2))
    (fun _ => 0) (t ^ 2) 0 n
  rw [show simps k (fun i => k i ^ 2 * (t ^ 2 * P i) * Numeric.topHat (k i) (1 / R) ^ 2 / (2 * Real.pi ^ 2)) n =
    simps k (fun i => t ^ 2 * (k i ^ 2 * P i * Numeric.topHat (k i) (1 / R) ^ 2 / (2 * Real.pi ^ 2)) + 0 * 0) n by
      congr 1; funext i; ring, this]
  ring

/-- Radii in an array give one value each, in order; other arguments are refused. -/
theorem sigma_calls (c : Cosmo) : computeSigmaR c .other = .error .typeError ∧
    (∀ R, computeSigmaR c (.number R) = computeSigmaR c (.array [R])) ∧
    ∀ Rs, ∃ l, computeSigmaR c (.array Rs) = .ok l ∧ l.length = Rs.length ∧
      ∀ (i : Nat) R, Rs[i]? = some R → ∃ v, l[i]? = some v ∧ computeSigmaR c (.number R) = .ok [v] := by
  refine ⟨rfl, fun R => rfl, fun Rs => ⟨_, rfl, by simp, fun i R h => ⟨_, ?_, rfl⟩⟩⟩
  rw [List.getElem?_map, h]
  rfl

example : sigmaR (fun i => (i : ℝ)) (fun _ => 1) 3 2 = Real.sqrt (1 / 6 / (2 * Real.pi ^ 2) * 0) ∧
    sigmaR (fun i => (i : ℝ)) (fun _ => 1) 3 (1 / 4) = Real.sqrt (8 / 3 / (2 * Real.pi ^ 2)) := by
  constructor
  · have : ∀ i : Nat, i < 3 → (fun j : Nat => if j = 0 then (0 : ℝ) else 0) i = 0 := by intro i _; simp
    rw [mul_zero, Real.sqrt_zero]
    unfold sigmaR
    rw [Weights.simps_local _ _ (fun i => 0 * 0 + 0 * 0) 3 (by norm_num) fun i hi => ?_, Weights.simps_add]
    · simp
    · rcases i with _ | i
      · norm_num
      · rw [topHat_scale _ two_pos, (Numeric.topHat_spec (R := 1) one_pos).2.2.1 _ (by
          have : (0 : ℝ) ≤ i := Nat.cast_nonneg i
          push_cast; linarith)]
        norm_num
  · rw [(sigma_cases _ _ 3 (by norm_num) (by norm_num : (0 : ℝ) < 1 / 4)).1 fun i hi => by
      have : (i : ℝ) ≤ 2 := by exact_mod_cast (by omega : i ≤ 2)
      linarith]
    congr 1
    norm_num [simps, Weights.basicSimps, Weights.simpsTerm]
    ring

/-! ### C105: voids -/

/-- What is used of the spline: at the points of the grid it gives the ordinates. -/
def Interpolates (spline : Spline) : Prop :=
  ∀ (xs ys : List ℝ) (i : Nat) (x y : ℝ), xs.Pairwise (· < ·) → xs[i]? = some x → ys[i]? = some y → spline xs ys x = y

theorem zip_lookup (xs ys : List ℝ) (i : Nat) (x y : ℝ) (h : xs.Pairwise (· < ·)) (hx : xs[i]? = some x)
    (hy : ys[i]? = some y) : (xs.zip ys).lookup x = some y := by
  induction xs generalizing ys i with
  | nil => cases hx
  | cons a xs ih =>
    rcases ys with _ | ⟨b, ys⟩
    · cases hy
    rcases i with _ | i
    · cases hx; cases hy
      rw [List.zip_cons_cons, List.lookup_cons_self]
    · have hm : x ∈ xs := List.mem_of_getElem? hx
      have hne : x ≠ a := (List.rel_of_pairwise_cons h hm).ne'
      rw [List.zip_cons_cons, List.lookup_cons, beq_false_of_ne hne]
      exact ih ys i h.of_cons hx hy

/-- There are such functions. -/
example : ∃ s, Interpolates s :=
  ⟨fun xs ys x => ((xs.zip ys).lookup x).getD 0, fun xs ys i x y h hx hy => by
    show ((xs.zip ys).lookup x).getD 0 = y
    rw [zip_lookup xs ys i x y h hx hy]; rfl⟩

/-- Centre of bin `i`. -/
theorem centers_spec (edges : List ℝ) : (centers edges).length = edges.length - 1 ∧
    ∀ (i : Nat) (a b : ℝ), edges[i]? = some a → edges[i + 1]? = some b → (centers edges)[i]? = some ((a + b) / 2) := by
  refine ⟨by rw [centers, List.length_map, Redshift.bins_length], fun i a b ha hb => ?_⟩
  rw [centers, List.getElem?_map, (Redshift.bins_getElem edges i a b).mpr ⟨ha, hb⟩]
  rfl

/-- A table with one row per bin whose entries are all equal to a value `f` of the centre of the bin. -/
def PerBin (edges : List ℝ) (n : Nat) (rows : List (List ℝ)) (f : ℝ → ℝ) : Prop :=
  rows.length = edges.length - 1 ∧ ∀ (i : Nat) (a b : ℝ) (row : List ℝ), edges[i]? = some a → edges[i + 1]? = some b →
    rows[i]? = some row → row = List.replicate n (f ((a + b) / 2))

theorem columns_perBin (edges : List ℝ) (n : Nat) (f : ℝ → ℝ) : PerBin edges n (columns ((centers edges).map f) n) f := by
  obtain ⟨h1, h2⟩ := centers_spec edges
  refine ⟨by rw [columns, List.length_map, List.length_map, h1], fun i a b row ha hb hr => ?_⟩
  rw [columns, List.getElem?_map, List.getElem?_map, h2 i a b ha hb] at hr
  cases hr
  rfl

theorem perBin_unique {edges : List ℝ} {n : Nat} {r r' : List (List ℝ)} {f : ℝ → ℝ} (h : PerBin edges n r f)
    (h' : PerBin edges n r' f) : r = r' := by
  refine List.ext_getElem? fun i => ?_
  by_cases hi : i < edges.length - 1
  · have ha : edges[i]? = some (edges[i]'(by omega)) := List.getElem?_eq_getElem _
    have hb : edges[i + 1]? = some (edges[i + 1]'(by omega)) := List.getElem?_eq_getElem _
    have e1 : r[i]? = some (r[i]'(by rw [h.1]; exact hi)) := List.getElem?_eq_getElem _
    have e2 : r'[i]? = some (r'[i]'(by rw [h'.1]; exact hi)) := List.getElem?_eq_getElem _
    rw [e1, e2, h.2 i _ _ _ ha hb e1, h'.2 i _ _ _ ha hb e2]
  · rw [List.getElem?_eq_none_iff.mpr (by rw [h.1]; omega), List.getElem?_eq_none_iff.mpr (by rw [h'.1]; omega)]

/-- The model with the fiducial growth factor: it asks for the grid of the fiducial cosmology and for its parameter, and gives
each bin the value of the spline at its centre. -/
theorem growth_iff (spline : Spline) (c : Cosmo) (edges : List ℝ) (pars : List (Str × ℝ)) (grid : List ℝ) :
    (grid ≠ c.grid → growthBias spline c edges pars grid = .error .biasError) ∧
    (grid = c.grid → pars.lookup "voidbias0".toList = none → growthBias spline c edges pars grid = .error .keyError) ∧
    ∀ v, grid = c.grid → pars.lookup "voidbias0".toList = some v →
      ∃ rows, growthBias spline c edges pars grid = .ok rows ∧
        PerBin edges grid.length rows (spline c.grid (c.growth.map (v / ·))) := by
  unfold growthBias
  refine ⟨fun h => if_neg h, fun h hn => ?_, fun v h hv => ?_⟩
  · rw [if_pos h, hn]
  · rw [if_pos h, hv]
    refine ⟨_, rfl, ?_⟩
    subst h
    exact columns_perBin _ _ _

/-- A bin whose centre is a point of the grid has the parameter divided by the growth factor there. -/
theorem growth_value (spline : Spline) (hs : Interpolates spline) (c : Cosmo) (hg : c.grid.Pairwise (· < ·))
    (edges : List ℝ) (pars : List (Str × ℝ)) (rows : List (List ℝ)) (v : ℝ)
    (hv : pars.lookup "voidbias0".toList = some v) (h : growthBias spline c edges pars c.grid = .ok rows)
    (i j : Nat) (a b g : ℝ) (row : List ℝ) (ha : edges[i]? = some a) (hb : edges[i + 1]? = some b)
    (hj : c.grid[j]? = some ((a + b) / 2)) (hgr : c.growth[j]? = some g) (hr : rows[i]? = some row) :
    row = List.replicate c.grid.length (v / g) := by
  obtain ⟨rows', h', hp⟩ := (growth_iff spline c edges pars c.grid).2.2 v rfl hv
  rw [h] at h'
  cases h'
  rw [hp.2 i a b row ha hb hr, hs c.grid _ j _ (v / g) hg hj (by rw [List.getElem?_map, hgr]; rfl)]

/-- The fraction `D` is between zero and one and the same at all redshifts: the growth factor cancels. -/
theorem ratio_spec {dv0 dc0 : ℝ} (hv : dv0 ≠ 0) (hc : 0 < dc0) :
    0 < ratio dv0 dc0 ∧ ratio dv0 dc0 < 1 ∧ ∀ g, 0 < g → ratio (dv0 / g) (dc0 / g) = ratio dv0 dc0 := by
  have h := abs_pos.mpr hv
  unfold ratio
  refine ⟨by positivity, (div_lt_one (by positivity)).mpr (by linarith), fun g hg => ?_⟩
  rw [abs_div, abs_of_pos hg]
  field_simp

/-- The bias of voids of one radius in terms of the thresholds and the variance. -/
theorem voidBias_eq {dv dc s : ℝ} (hv : dv < 0) (hc : 0 < dc) (hs : 0 < s) :
    voidBias dv dc s = 1 + (dv ^ 2 / s ^ 2 - 1) / dv - s ^ 2 / (4 * dc ^ 2 * (dc - dv)) := by
  unfold voidBias nuOf ratio
  rw [abs_of_neg hv]
  have h1 : -dv + dc ≠ 0 := by linarith
  have h2 : dc - dv ≠ 0 := by linarith
  have h3 : dv ≠ 0 := hv.ne
  rw [show -dv + dc = dc - dv by ring]
  field_simp
  ring

/-- Rare voids, whose variance is at most the square of the threshold, are less biased than matter. -/
theorem voidBias_lt_one {dv dc s : ℝ} (hv : dv < 0) (hc : 0 < dc) (hs : 0 < s) (h : s ≤ -dv) : voidBias dv dc s < 1 := by
  rw [voidBias_eq hv hc hs]
  have h1 : 1 ≤ dv ^ 2 / s ^ 2 := by
    rw [one_le_div (by positivity)]
    nlinarith
  have h2 : (dv ^ 2 / s ^ 2 - 1) / dv ≤ 0 := div_nonpos_of_nonneg_of_nonpos (by linarith) hv.le
  have h3 : 0 < s ^ 2 / (4 * dc ^ 2 * (dc - dv)) := by
    have : 0 < dc - dv := by linarith
    positivity
  linarith

/-- For small arguments the multiplicity is positive. -/
theorem multiplicity_pos {dv D s x : ℝ} (hv : dv ≠ 0) (hs : 0 < s) (hx : x ≤ 276 / 1000) : 0 < multiplicity dv D s x := by
  unfold multiplicity
  rw [if_pos hx]
  have h1 := abs_pos.mpr hv
  have h2 := Real.pi_pos
  have h3 : 0 < Real.sqrt (2 / Real.pi) := Real.sqrt_pos.mpr (by positivity)
  positivity

/-- For large arguments it is the sum of the first four terms of the series. -/
theorem multiplicity_large {dv D s x : ℝ} (hx : 276 / 1000 < x) : multiplicity dv D s x =
    2 * (1 * Real.pi * x ^ 2 * Real.sin (1 * Real.pi * D) * Real.exp (-(1 * Real.pi * x) ^ 2 / 2) +
      2 * Real.pi * x ^ 2 * Real.sin (2 * Real.pi * D) * Real.exp (-(2 * Real.pi * x) ^ 2 / 2) +
      3 * Real.pi * x ^ 2 * Real.sin (3 * Real.pi * D) * Real.exp (-(3 * Real.pi * x) ^ 2 / 2) +
      4 * Real.pi * x ^ 2 * Real.sin (4 * Real.pi * D) * Real.exp (-(4 * Real.pi * x) ^ 2 / 2)) := by
  unfold multiplicity
  rw [if_neg (not_le.mpr hx)]
  simp only [Finset.sum_range_succ, Finset.sum_range_zero]
  push_cast
  ring

/-- The number of voids of one radius is positive where the variance falls with the radius. -/
theorem size_pos {sig : ℝ → ℝ} {step dv dc R : ℝ} (hv : dv ≠ 0) (hR : 0 < R) (hs : 0 < sig R)
    (hl : 0 < sig (R / (17 / 10))) (hx : xOf dv dc (sig R) ≤ 276 / 1000)
    (hd : Numeric.stencil sig (R / (17 / 10)) (1 / 2 * step) < 0) : 0 < sizeFunction sig step dv dc R := by
  unfold sizeFunction radiusFactor
  refine mul_pos (multiplicity_pos hv hs hx) (mul_pos ?_ ?_)
  · have := Real.pi_pos
    positivity
  · have : 0 < R / (17 / 10) / sig (R / (17 / 10)) := by positivity
    nlinarith

/-- The argument of the multiplicity: the variance over the distance of the two thresholds. -/
theorem xOf_eq {dv dc : ℝ} (hv : dv < 0) (hc : 0 < dc) (s : ℝ) : xOf dv dc s = s / (dc - dv) := by
  unfold xOf ratio
  rw [abs_of_neg hv]
  have h1 : -dv + dc ≠ 0 := by linarith
  have h2 : dc - dv ≠ 0 := by linarith
  have h3 : dv ≠ 0 := hv.ne
  rw [show -dv + dc = dc - dv by ring]
  field_simp

/-- The number of voids of a radius, if the variance at this radius is small against the distance of the thresholds: the formula for a
single threshold, over the volume and with the slope of the variance in linear theory. -/
theorem size_rare {sig : ℝ → ℝ} {step dv dc R : ℝ} (hv : dv < 0) (hc : 0 < dc) (hx : sig R ≤ 276 / 1000 * (dc - dv)) :
    sizeFunction sig step dv dc R =
      Real.sqrt (2 / Real.pi) * (-dv / sig R) * Real.exp (-(dv / sig R) ^ 2 / 2) *
        (-(R / (17 / 10)) * Numeric.stencil sig (R / (17 / 10)) (step / 2) / sig (R / (17 / 10)) / (R * (4 / 3 * Real.pi * R ^ 3))) := by
  have hle : xOf dv dc (sig R) ≤ 276 / 1000 := by
    rw [xOf_eq hv hc]
    exact (div_le_iff₀ (by linarith)).mpr hx
  unfold sizeFunction multiplicity radiusFactor
  rw [if_pos hle, abs_of_neg hv]
  have e1 : -dv ^ 2 / (2 * sig R ^ 2) = -(dv / sig R) ^ 2 / 2 := by
    rw [div_pow, neg_div, neg_div, div_div, mul_comm]
  have e2 : 1 / 2 * step = step / 2 := by ring
  rw [e1, e2]
  ring

example : sizeFunction (fun r => 1 / (10 * r)) 1 (-2) 1 1 =
    Real.sqrt (2 / Real.pi) * (2 / (1 / 10)) * Real.exp (-((-2) / (1 / 10)) ^ 2 / 2) *
      (-(1 / (17 / 10)) * Numeric.stencil (fun r => 1 / (10 * r)) (1 / (17 / 10)) (1 / 2) / (17 / 100) / (4 / 3 * Real.pi)) := by
  rw [size_rare (by norm_num) (by norm_num) (by norm_num)]
  norm_num

/-- The weights of the mean over the radii. -/
def weight (sig : ℝ → ℝ) (a b : ℝ) (n : Nat) (dv dc : ℝ) (i : Nat) : ℝ :=
  sizeFunction sig (linspace a b n 1 / (17 / 10) - linspace a b n 0 / (17 / 10)) dv dc (linspace a b n i)

/-- With positive weights the mean over the radii lies between the smallest and the largest bias. -/
theorem mean_between {sig : ℝ → ℝ} {a b : ℝ} {n : Nat} {dv dc m M : ℝ} (hab : a < b) (hn : 2 ≤ n)
    (hw : ∀ i, i < n → 0 < weight sig a b n dv dc i)
    (hm : ∀ i, i < n → m ≤ voidBias dv dc (sig (linspace a b n i)) ∧ voidBias dv dc (sig (linspace a b n i)) ≤ M) :
    m ≤ meanBias sig a b n dv dc ∧ meanBias sig a b n dv dc ≤ M := by
  have ht := linspace_tame hab hn
  have hp := simps_pos ht hn hw
  have hc : ∀ t : ℝ, simps (linspace a b n) (fun i => t * weight sig a b n dv dc i) n =
      t * simps (linspace a b n) (weight sig a b n dv dc) n := by
    intro t
    have := Weights.simps_add (linspace a b n) (weight sig a b n dv dc) (fun _ => 0) t 0 n
    simpa using this
  show m ≤ simps (linspace a b n) (fun i => voidBias dv dc (sig (linspace a b n i)) * weight sig a b n dv dc i) n /
      simps (linspace a b n) (weight sig a b n dv dc) n ∧
    simps (linspace a b n) (fun i => voidBias dv dc (sig (linspace a b n i)) * weight sig a b n dv dc i) n /
      simps (linspace a b n) (weight sig a b n dv dc) n ≤ M
  rw [le_div_iff₀ hp, div_le_iff₀ hp, ← hc, ← hc]
  exact ⟨simps_mono ht hn fun i hi => mul_le_mul_of_nonneg_right (hm i hi).1 (hw i hi).le,
    simps_mono ht hn fun i hi => mul_le_mul_of_nonneg_right (hm i hi).2 (hw i hi).le⟩

/-- If all radii are rare, the mean is below one. -/
theorem mean_lt_one {sig : ℝ → ℝ} {a b : ℝ} {n : Nat} {dv dc : ℝ} (hab : a < b) (hn : 2 ≤ n) (hv : dv < 0) (hc : 0 < dc)
    (hw : ∀ i, i < n → 0 < weight sig a b n dv dc i)
    (hs : ∀ i, i < n → 0 < sig (linspace a b n i) ∧ sig (linspace a b n i) ≤ -dv) : meanBias sig a b n dv dc < 1 := by
  have hne : (Finset.range n).Nonempty := ⟨0, Finset.mem_range.mpr (by omega)⟩
  obtain ⟨i, hi, hmax⟩ := Finset.exists_max_image (Finset.range n) (fun i => voidBias dv dc (sig (linspace a b n i))) hne
  obtain ⟨j, hj, hmin⟩ := Finset.exists_min_image (Finset.range n) (fun i => voidBias dv dc (sig (linspace a b n i))) hne
  have h1 := mean_between (m := voidBias dv dc (sig (linspace a b n j))) (M := voidBias dv dc (sig (linspace a b n i)))
    hab hn hw fun k hk => ⟨hmin k (Finset.mem_range.mpr hk), hmax k (Finset.mem_range.mpr hk)⟩
  have hi' := hs i (Finset.mem_range.mp hi)
  exact h1.2.trans_lt (voidBias_lt_one hv hc hi'.1 hi'.2)

/-- A variance that falls like the inverse of the radius meets all conditions. -/
theorem mean_example : meanBias (fun R => 1 / R) 5 6 2 (-1) 1 < 1 := by
  refine mean_lt_one (by norm_num) le_rfl (by norm_num) one_pos (fun i hi => ?_) (fun i hi => ?_)
  · have : i = 0 ∨ i = 1 := by omega
    unfold weight
    rcases this with rfl | rfl
    · exact size_pos (by norm_num) (by norm_num [linspace]) (by norm_num [linspace]) (by norm_num [linspace])
        (by norm_num [linspace, xOf, ratio]) (by norm_num [linspace, Numeric.stencil])
    · exact size_pos (by norm_num) (by norm_num [linspace]) (by norm_num [linspace]) (by norm_num [linspace])
        (by norm_num [linspace, xOf, ratio]) (by norm_num [linspace, Numeric.stencil])
  · have : i = 0 ∨ i = 1 := by omega
    rcases this with rfl | rfl <;> norm_num [linspace]

/-- The model with the size function: what it asks for, and that it gives each bin the value at its centre of the spline
through the means. -/
theorem vdn_iff (spline : Spline) (c : Cosmo) (edges : List ℝ) (add : List (Str × ℝ)) (grid : List ℝ) :
    (grid ≠ c.grid → vdnBias spline c edges add grid = .error .biasError) ∧
    (grid = c.grid → (∃ p ∈ ["R_min_Mpc".toList, "R_max_Mpc".toList, "R_grid_size".toList, "delta_c0".toList,
        "delta_v0".toList], add.lookup p = none) → vdnBias spline c edges add grid = .error .keyError) ∧
    ∀ a b n dc dv, grid = c.grid → add.lookup "R_min_Mpc".toList = some a → add.lookup "R_max_Mpc".toList = some b →
      add.lookup "R_grid_size".toList = some n → add.lookup "delta_c0".toList = some dc →
      add.lookup "delta_v0".toList = some dv →
      (n < 2 → vdnBias spline c edges add grid = .error .indexError) ∧
      (2 ≤ n → ∃ rows, vdnBias spline c edges add grid = .ok rows ∧
        PerBin edges grid.length rows (spline c.grid (c.growth.map fun g =>
          meanBias (sigmaR c.k c.plin c.nk) a b ⌊n⌋₊ (dv / g) (dc / g)))) := by
  unfold vdnBias
  refine ⟨fun h => if_neg h, fun h hn => ?_, fun a b n dc dv h h1 h2 h3 h4 h5 => ?_⟩
  · rw [if_pos h]
    obtain ⟨p, hp, hn⟩ := hn
    simp only [List.mem_cons, List.not_mem_nil, or_false] at hp
    have gen : ∀ o1 o2 o3 o4 o5 : Option ℝ, (o1 = none ∨ o2 = none ∨ o3 = none ∨ o4 = none ∨ o5 = none) →
        ∀ f : ℝ → ℝ → ℝ → ℝ → ℝ → Except Err (List (List ℝ)), (match o1, o2, o3, o4, o5 with
          | some a, some b, some n, some dc0, some dv0 => f a b n dc0 dv0
          | _, _, _, _, _ => .error .keyError) = .error .keyError := by
      intro o1 o2 o3 o4 o5 h f
      cases o1 <;> cases o2 <;> cases o3 <;> cases o4 <;> cases o5 <;> simp_all
    refine gen _ _ _ _ _ ?_ _
    rcases hp with rfl | rfl | rfl | rfl | rfl
    · exact .inl hn
    · exact .inr (.inl hn)
    · exact .inr (.inr (.inl hn))
    · exact .inr (.inr (.inr (.inl hn)))
    · exact .inr (.inr (.inr (.inr hn)))
  · rw [if_pos h, h1, h2, h3, h4, h5]
    subst h
    constructor
    · intro hn
      have : toCount n ≤ 1 := by
        have := (Nat.floor_lt' (n := 2) (by norm_num)).mpr (by exact_mod_cast hn)
        unfold toCount
        omega
      exact if_pos this
    · intro hn
      have : ¬ toCount n ≤ 1 := by
        have := Nat.le_floor (n := 2) (a := n) (by exact_mod_cast hn)
        unfold toCount
        omega
      exact ⟨_, if_neg this, columns_perBin _ _ _⟩

/-- A bin whose centre is a point of the grid has the mean at that redshift. -/
theorem vdn_value (spline : Spline) (hs : Interpolates spline) (c : Cosmo) (hg : c.grid.Pairwise (· < ·))
    (edges : List ℝ) (add : List (Str × ℝ)) (rows : List (List ℝ)) (a b n dc dv : ℝ)
    (h1 : add.lookup "R_min_Mpc".toList = some a) (h2 : add.lookup "R_max_Mpc".toList = some b)
    (h3 : add.lookup "R_grid_size".toList = some n) (h4 : add.lookup "delta_c0".toList = some dc)
    (h5 : add.lookup "delta_v0".toList = some dv) (h : vdnBias spline c edges add c.grid = .ok rows)
    (i j : Nat) (l r g : ℝ) (row : List ℝ) (hl : edges[i]? = some l) (hr : edges[i + 1]? = some r)
    (hj : c.grid[j]? = some ((l + r) / 2)) (hgr : c.growth[j]? = some g) (hrow : rows[i]? = some row) :
    row = List.replicate c.grid.length (meanBias (sigmaR c.k c.plin c.nk) a b ⌊n⌋₊ (dv / g) (dc / g)) := by
  obtain ⟨k1, k2⟩ := (vdn_iff spline c edges add c.grid).2.2 a b n dc dv rfl h1 h2 h3 h4 h5
  by_cases hn : n < 2
  · rw [k1 hn] at h
    cases h
  · obtain ⟨rows', h', hp⟩ := k2 (not_lt.mp hn)
    rw [h] at h'
    cases h'
    rw [hp.2 i l r row hl hr hrow, hs c.grid _ j _ _ hg hj (by rw [List.getElem?_map, hgr]; rfl)]

/-- The parameters that vary have no effect on this model, nor has the cosmology of the run on the other one. -/
theorem unaffected (spline : Spline) (o : Obj) (co co' fi fi' : Option Cosmo) (p p' : List (Str × ℝ)) (grid : List ℝ) :
    evaluate spline { o with model := "vdn_void".toList, nuisance := p } co fi grid =
      evaluate spline { o with model := "vdn_void".toList, nuisance := p' } co fi' grid ∧
    evaluate spline { o with model := "fiducial_growth_void".toList, additional := p } co fi grid =
      evaluate spline { o with model := "fiducial_growth_void".toList, additional := p' } co' fi grid := by
  have a : ∀ (x y : Option Cosmo), initModel "vdn_void".toList x y =
      match x with | none => .error .biasError | some c => .ok (.vdn, some c) := fun x y => by
    unfold initModel
    rw [if_neg (by decide), if_neg (by decide), if_neg (by decide), if_pos rfl]
    cases x <;> rfl
  have b : ∀ (x y : Option Cosmo), initModel "fiducial_growth_void".toList x y =
      match y with | none => .error .biasError | some c => .ok (.growth, some c) := fun x y => by
    unfold initModel
    rw [if_neg (by decide), if_neg (by decide), if_neg (by decide), if_neg (by decide), if_pos rfl]
    cases y <;> rfl
  unfold evaluate
  rw [a, a, b, b]
  constructor
  · cases co <;> rfl
  · cases fi <;> rfl

/-- The names of the models that depend on the parameters of the galaxies. -/
theorem evaluate_galaxies (spline : Spline) (o : Obj) (co fi : Option Cosmo) (grid : List ℝ) :
    (o.model = "piecewise".toList → evaluate spline o co fi grid =
      fromRedshift (Redshift.piecewise 0 o.edges o.nuisance grid)) ∧
    (o.model = "constant".toList → evaluate spline o co fi grid =
      fromRedshift (Redshift.constant o.edges o.nuisance grid)) ∧
    (o.model = "euclid_flagship_photo".toList → evaluate spline o co fi grid = flagshipBias o.edges o.nuisance grid) := by
  unfold evaluate
  refine ⟨fun h => ?_, fun h => ?_, fun h => ?_⟩
  · rw [(init_ok o.model co fi .piecewise none).mpr (.inl ⟨h, rfl, rfl⟩)]
  · rw [(init_ok o.model co fi .constant none).mpr (.inr (.inl ⟨h, rfl, rfl⟩))]
  · rw [(init_ok o.model co fi .flagship none).mpr (.inr (.inr (.inl ⟨h, rfl, rfl⟩)))]

/-- The two models for voids use each its own cosmology. -/
theorem evaluate_voids (spline : Spline) (o : Obj) (c : Cosmo) (x : Option Cosmo) (grid : List ℝ) :
    (o.model = "vdn_void".toList → evaluate spline o (some c) x grid = vdnBias spline c o.edges o.additional grid) ∧
    (o.model = "fiducial_growth_void".toList → evaluate spline o x (some c) grid =
      growthBias spline c o.edges o.nuisance grid) := by
  unfold evaluate
  refine ⟨fun h => ?_, fun h => ?_⟩
  · rw [(init_ok o.model (some c) x .vdn (some c)).mpr (.inr (.inr (.inr (.inl ⟨h, rfl, rfl, nofun⟩))))]
  · rw [(init_ok o.model x (some c) .growth (some c)).mpr (.inr (.inr (.inr (.inr ⟨h, rfl, rfl, nofun⟩))))]

/-! ### The theorems on concrete numbers -/

example : (1 : ℝ) < flagship 1 2 3 4 0 ∧ flagship 1 2 3 4 0 < 1 + 2 :=
  ⟨(flagship_range (by norm_num) 0).1, (flagship_range (by norm_num) 0).2.1⟩

example : flagship 1 2 3 4 0 < flagship 1 2 3 4 1 := flagship_increasing (by norm_num) (by norm_num) one_pos

/-- The thresholds of the documented void model. -/
example : ratio (-27 / 10) (1686 / 1000) < 1 := (ratio_spec (by norm_num) (by norm_num)).2.1

example : voidBias (-2) 1 1 = 1 + (4 - 1) / (-2) - 1 / 12 := by
  rw [voidBias_eq (by norm_num) (by norm_num) (by norm_num)]
  norm_num

example : voidBias (-27 / 10) (1686 / 1000) 1 < 1 := voidBias_lt_one (by norm_num) (by norm_num) (by norm_num) (by norm_num)

example : 0 < multiplicity (-27 / 10) (1 / 2) 1 (1 / 5) := multiplicity_pos (by norm_num) (by norm_num) (by norm_num)

end Seyfert.Bias
