import Verif.Model.Weights
import Verif.Lemmas.PyDict
import Mathlib.Algebra.BigOperators.Ring.Finset
import Mathlib.Algebra.Order.BigOperators.Group.Finset
import Mathlib.Algebra.Order.BigOperators.Ring.Finset
import Mathlib.Tactic.FieldSimp
import Mathlib.Tactic.Linarith
import Mathlib.Tactic.Positivity
import Mathlib.Tactic.Ring

/-!
Weight functions: linearity, sign, what lies behind the lens; Simpson's rule.
-/

set_option linter.unusedSectionVars false

namespace Seyfert.Weights

open Finset

section
variable {K : Type} [Field K] [LinearOrder K] [IsStrictOrderedRing K]

/-! ### Simpson's rule -/

theorem simps_add (x y y' : Nat → K) (a b : K) (n : Nat) :
    simps x (fun k => a * y k + b * y' k) n = a * simps x y n + b * simps x y' n := by
  have hb : ∀ s m, basicSimps x (fun k => a * y k + b * y' k) s m =
      a * basicSimps x y s m + b * basicSimps x y' s m := by
    intro s m
    unfold basicSimps
    rw [mul_sum, mul_sum, ← sum_add_distrib]
    exact sum_congr rfl fun j _ => by unfold simpsTerm; ring
  unfold simps trap
  split
  · exact hb _ _
  · rw [hb, hb]; ring

/-- Simpson's rule uses nothing beyond the points given. -/
theorem simps_local (x y y' : Nat → K) (n : Nat) (hn : 0 < n) (h : ∀ k, k < n → y k = y' k) :
    simps x y n = simps x y' n := by
  have hb : ∀ s m, s + 2 * m < n → basicSimps x y s m = basicSimps x y' s m := by
    intro s m hm
    unfold basicSimps
    refine sum_congr rfl fun j hj => ?_
    rw [mem_range] at hj
    unfold simpsTerm
    rw [h _ (by omega), h _ (by omega), h _ (by omega)]
  unfold simps trap
  split
  · exact hb _ _ (by omega)
  · rw [hb _ _ (by omega), hb _ _ (by omega), h _ (by omega), h _ (by omega), h _ (by omega), h _ (by omega)]

/-- Grids in which no step is more than twice as long as the next or the one before; equally spaced grids
are of this kind. -/
structure Tame (x : Nat → K) (n : Nat) : Prop where
  increasing : ∀ k, k + 1 < n → x k < x (k + 1)
  next : ∀ k, k + 2 < n → x (k + 2) - x (k + 1) ≤ 2 * (x (k + 1) - x k)
  before : ∀ k, k + 2 < n → x (k + 1) - x k ≤ 2 * (x (k + 2) - x (k + 1))

theorem uniform_tame (a h : K) (hh : 0 < h) (n : Nat) : Tame (fun k => a + k * h) n where
  increasing k _ := by push_cast; linarith
  next k _ := by push_cast; linarith
  before k _ := by push_cast; linarith

/-- On such a grid the rule never gives a negative value for values that are not negative. -/
theorem simps_nonneg (x y : Nat → K) (n : Nat) (hn : 2 ≤ n) (hx : Tame x n) (hy : ∀ k, k < n → 0 ≤ y k) :
    0 ≤ simps x y n := by
  have ht : ∀ k, k + 2 < n → 0 ≤ simpsTerm x y k := by
    intro k hk
    have a := hx.increasing k (by omega)
    have b := hx.increasing (k + 1) (by omega)
    have e : k + 1 + 1 = k + 2 := rfl
    rw [e] at b
    have ha : 0 < x (k + 1) - x k := by linarith
    have hb : 0 < x (k + 2) - x (k + 1) := by linarith
    have hs : 0 < x (k + 2) - x k := by linarith
    unfold simpsTerm
    refine mul_nonneg (by positivity) (add_nonneg (add_nonneg ?_ ?_) ?_)
    · refine mul_nonneg (hy k (by omega)) (sub_nonneg.mpr ?_)
      rw [div_le_iff₀ ha]
      exact hx.next k hk
    · exact mul_nonneg (hy _ (by omega)) (by positivity)
    · refine mul_nonneg (hy _ (by omega)) (sub_nonneg.mpr ?_)
      rw [div_le_iff₀ hb]
      exact hx.before k hk
  have hb : ∀ s m, s + 2 * m < n → 0 ≤ basicSimps x y s m := by
    intro s m hm
    refine sum_nonneg fun j hj => ht _ ?_
    rw [mem_range] at hj
    omega
  have htr : ∀ k, k + 1 < n → 0 ≤ trap x y k := by
    intro k hk
    have a := hx.increasing k hk
    unfold trap
    have := add_nonneg (hy (k + 1) hk) (hy k (by omega))
    have := mul_nonneg (by linarith : 0 ≤ x (k + 1) - x k) this
    linarith
  unfold simps
  split
  · exact hb _ _ (by omega)
  · have a := hb 0 ((n - 2) / 2) (by omega)
    have b := hb 1 ((n - 2) / 2) (by omega)
    have c := htr (n - 2) (by omega)
    have d := htr 0 (by omega)
    linarith

/-- On other grids it may: a step of one followed by a step of three. -/
theorem simps_negative : ∃ x y : Nat → ℚ, (∀ k, k + 1 < 3 → x k < x (k + 1)) ∧ (∀ k, 0 ≤ y k) ∧ simps x y 3 < 0 := by
  refine ⟨fun k => if k = 0 then 0 else if k = 1 then 1 else 4, fun k => if k = 0 then 1 else 0, ?_, ?_, ?_⟩
  · intro k hk
    have : k = 0 ∨ k = 1 := by omega
    rcases this with rfl | rfl <;> norm_num
  · intro k; dsimp only; split <;> norm_num
  · norm_num [simps, basicSimps, simpsTerm]

theorem simpsTerm_quadratic (x : Nat → K) (a b c : K) (k : Nat) (h1 : x k < x (k + 1)) (h2 : x (k + 1) < x (k + 2)) :
    simpsTerm x (fun j => a + b * x j + c * x j ^ 2) k =
      (a * x (k + 2) + b / 2 * x (k + 2) ^ 2 + c / 3 * x (k + 2) ^ 3) -
        (a * x k + b / 2 * x k ^ 2 + c / 3 * x k ^ 3) := by
  have e1 : x (k + 1) - x k ≠ 0 := by linarith
  have e2 : x (k + 2) - x (k + 1) ≠ 0 := by linarith
  unfold simpsTerm
  field_simp
  ring

/-- With an odd number of points, equally spaced or not, polynomials of second degree are integrated exactly. -/
theorem simps_exact (x : Nat → K) (a b c : K) (m : Nat) (hx : ∀ k, k < 2 * m → x k < x (k + 1)) :
    simps x (fun j => a + b * x j + c * x j ^ 2) (2 * m + 1) =
      (a * x (2 * m) + b / 2 * x (2 * m) ^ 2 + c / 3 * x (2 * m) ^ 3) -
        (a * x 0 + b / 2 * x 0 ^ 2 + c / 3 * x 0 ^ 3) := by
  unfold simps
  rw [if_pos (by omega), show (2 * m + 1 - 1) / 2 = m by omega]
  unfold basicSimps
  have : ∀ p, p ≤ m → ∑ j ∈ range p, simpsTerm x (fun j => a + b * x j + c * x j ^ 2) (0 + 2 * j) =
      (a * x (2 * p) + b / 2 * x (2 * p) ^ 2 + c / 3 * x (2 * p) ^ 3) -
        (a * x 0 + b / 2 * x 0 ^ 2 + c / 3 * x 0 ^ 3) := by
    intro p
    induction p with
    | zero => intro _; simp
    | succ p ih =>
      intro hp
      rw [sum_range_succ, ih (by omega), zero_add,
        simpsTerm_quadratic x a b c (2 * p) (hx _ (by omega)) (hx _ (by omega)),
        show 2 * (p + 1) = 2 * p + 2 by ring]
      ring
  exact this m le_rfl

/-- With an even number of points straight lines are integrated exactly. -/
theorem simps_exact_even (x : Nat → K) (a b : K) (m : Nat) (hx : ∀ k, k < 2 * m + 1 → x k < x (k + 1)) :
    simps x (fun j => a + b * x j) (2 * m + 2) =
      (a * x (2 * m + 1) + b / 2 * x (2 * m + 1) ^ 2) - (a * x 0 + b / 2 * x 0 ^ 2) := by
  have hq : (fun j => a + b * x j) = fun j => a + b * x j + 0 * x j ^ 2 := by funext j; ring
  have hsum : ∀ s p, s + 2 * p ≤ 2 * m + 1 → basicSimps x (fun j => a + b * x j) s p =
      (a * x (s + 2 * p) + b / 2 * x (s + 2 * p) ^ 2) - (a * x s + b / 2 * x s ^ 2) := by
    intro s p
    induction p with
    | zero => intro _; simp [basicSimps]
    | succ p ih =>
      intro hp
      have := ih (by omega)
      unfold basicSimps at this ⊢
      rw [sum_range_succ, this, hq,
        simpsTerm_quadratic x a b 0 (s + 2 * p) (hx _ (by omega)) (hx _ (by omega)),
        show s + 2 * (p + 1) = s + 2 * p + 2 by ring]
      ring
  unfold simps
  rw [if_neg (by omega), show (2 * m + 2 - 2) / 2 = m by omega, hsum 0 m (by omega), hsum 1 m (by omega),
    show 2 * m + 2 - 2 = 2 * m by omega]
  unfold trap
  rw [show 1 + 2 * m = 2 * m + 1 by ring, zero_add]
  ring

/-! ### Lensing -/

/-- The efficiency at a redshift depends only on the galaxies from there on. -/
theorem efficiency_behind (z r d d' : Nat → K) (n s : Nat) (hs : s < n) (h : ∀ k, s ≤ k → k < n → d k = d' k) :
    efficiency z r d n s = efficiency z r d' n s := by
  unfold efficiency simpsFrom
  refine simps_local _ _ _ _ (by omega) fun k hk => ?_
  show d (s + k) * _ = d' (s + k) * _
  rw [h (s + k) (by omega) (by omega)]

/-- It is zero at the end of the grid. -/
theorem efficiency_end (z r d : Nat → K) (n : Nat) (hn : 0 < n) : efficiency z r d n (n - 1) = 0 := by
  unfold efficiency simpsFrom simps
  rw [show n - (n - 1) = 1 by omega, if_pos rfl]
  simp [basicSimps]

/-- It is not negative when the density is not, distances increase, and the grid is tame. -/
theorem efficiency_nonneg (z r d : Nat → K) (n s : Nat) (hz : Tame z n) (hr0 : 0 < r s)
    (hr : ∀ k, s ≤ k → k < n → r s ≤ r k) (hd : ∀ k, k < n → 0 ≤ d k) (hs : s + 1 < n) :
    0 ≤ efficiency z r d n s := by
  refine simps_nonneg _ _ _ (by omega) ⟨fun k hk => ?_, fun k hk => ?_, fun k hk => ?_⟩ fun k hk => ?_
  · exact hz.increasing (s + k) (by omega)
  · exact hz.next (s + k) (by omega)
  · exact hz.before (s + k) (by omega)
  · refine mul_nonneg (hd _ (by omega)) (sub_nonneg.mpr ?_)
    have := hr (s + k) (by omega) (by omega)
    rw [div_le_one (by linarith)]
    exact this

/-- The weight of lensing is linear in the density, with or without intrinsic alignments. -/
theorem lensing_linear (co : LensCosmo K) (z r d d' : Nat → K) (a b : K) (n s : Nat) :
    lensing co z r (fun k => a * d k + b * d' k) n s = a * lensing co z r d n s + b * lensing co z r d' n s := by
  have he : efficiency z r (fun k => a * d k + b * d' k) n s =
      a * efficiency z r d n s + b * efficiency z r d' n s := by
    unfold efficiency simpsFrom
    rw [← simps_add]
    congr 1
    funext k
    ring
  unfold lensing
  rw [he]
  cases co.ia <;> simp only <;> ring

/-- The weight of lensing is the one of the theory whenever the rule is exact: when from `s` on the density times
`1 - r(s)/r` is of second degree in the redshift, with an odd number of points. -/
theorem lensing_value (co : LensCosmo K) (z r d : Nat → K) (a b c : K) (m s : Nat)
    (hz : ∀ k, k < 2 * m → z (s + k) < z (s + k + 1))
    (hq : ∀ k, s ≤ k → d k * (1 - r s / r k) = a + b * z k + c * z k ^ 2) :
    lensing co z r d (s + 2 * m + 1) s =
      3 * co.Omm * co.H0 / (2 * co.c) * (1 + z s) * co.rTilde s *
        ((a * z (s + 2 * m) + b / 2 * z (s + 2 * m) ^ 2 + c / 3 * z (s + 2 * m) ^ 3) -
          (a * z s + b / 2 * z s ^ 2 + c / 3 * z s ^ 3)) -
      (match co.ia with
        | none => 0
        | some f => f s * d s) := by
  have he : efficiency z r d (s + 2 * m + 1) s =
      (a * z (s + 2 * m) + b / 2 * z (s + 2 * m) ^ 2 + c / 3 * z (s + 2 * m) ^ 3) -
        (a * z s + b / 2 * z s ^ 2 + c / 3 * z s ^ 3) := by
    unfold efficiency simpsFrom
    rw [show s + 2 * m + 1 - s = 2 * m + 1 by omega]
    have := simps_exact (fun k => z (s + k)) a b c m hz
    simp only [add_zero] at this
    rw [← this]
    congr 1
    funext k
    exact hq (s + k) (by omega)
  unfold lensing
  rw [he]
  congr 1
  by_cases hc : co.c = 0
  · simp [hc]
  · field_simp

/-- The factor of the alignments, multiplied out. -/
theorem ia_value (aIA cIA Omm c : K) (F H D : Nat → K) (k : Nat) (hD : D k ≠ 0) (hc : c ≠ 0) :
    iaFactor aIA cIA Omm c F H D k * (c * D k) = aIA * cIA * Omm * (F k * H k) := by
  unfold iaFactor
  field_simp

/-- Without intrinsic alignments it is zero at the end of the grid and nowhere negative. -/
theorem lensing_nonneg (co : LensCosmo K) (hia : co.ia = none) (h1 : 0 ≤ co.Omm) (h2 : 0 ≤ co.H0) (h3 : 0 < co.c)
    (z r d : Nat → K) (n s : Nat) (hs : s < n) (hz : Tame z n) (hz0 : 0 ≤ z s) (hrt : 0 ≤ co.rTilde s)
    (hr0 : 0 < r s) (hr : ∀ k, s ≤ k → k < n → r s ≤ r k) (hd : ∀ k, k < n → 0 ≤ d k) :
    0 ≤ lensing co z r d n s ∧ (s + 1 = n → lensing co z r d n s = 0) := by
  unfold lensing
  rw [hia]
  simp only [sub_zero]
  have hend : s + 1 = n → efficiency z r d n s = 0 := fun h => by
    have := efficiency_end z r d n (by omega)
    rwa [show n - 1 = s by omega] at this
  refine ⟨mul_nonneg (by positivity) ?_, fun h => by rw [hend h, mul_zero]⟩
  by_cases h : s + 1 = n
  · rw [hend h]
  · exact efficiency_nonneg z r d n s hz hr0 hr hd (by omega)

/-- With them it may be negative: at the end of the grid only the alignments are left. -/
theorem lensing_ia_end (co : LensCosmo K) (f : Nat → K) (hia : co.ia = some f) (z r d : Nat → K) (n : Nat)
    (hn : 0 < n) : lensing co z r d n (n - 1) = -(f (n - 1) * d (n - 1)) := by
  unfold lensing
  rw [efficiency_end z r d n hn, hia]
  ring

/-- Alignments scale with their amplitude, and vanish with it. -/
theorem ia_amplitude (t aIA cIA Omm c : K) (F H D : Nat → K) (k : Nat) :
    iaFactor (t * aIA) cIA Omm c F H D k = t * iaFactor aIA cIA Omm c F H D k ∧
      iaFactor 0 cIA Omm c F H D k = 0 := by
  unfold iaFactor
  constructor <;> ring

end

/-- Which calls return. The method "simpson", the default, never works for a single redshift. -/
theorem efficiencyCall_iff (method : Str) (a : Arg) : efficiencyCall method a = .ok () ↔
    a = .array ∧ (method = "quad".toList ∨ method = "simpson".toList) ∨
      a = .float ∧ method = "quad".toList := by
  unfold efficiencyCall
  by_cases h1 : method = "quad".toList
  · rw [if_pos h1]
    cases a
    · exact ⟨fun _ => Or.inr ⟨rfl, h1⟩, fun _ => rfl⟩
    · exact ⟨fun _ => Or.inl ⟨rfl, Or.inl h1⟩, fun _ => rfl⟩
    · exact ⟨fun h => (by cases h), fun h => by rcases h with ⟨h, _⟩ | ⟨h, _⟩ <;> cases h⟩
  · rw [if_neg h1]
    by_cases h2 : method = "simpson".toList
    · rw [if_pos h2]
      cases a
      · exact ⟨fun h => (by cases h), fun h => by
          rcases h with ⟨h, _⟩ | ⟨_, h⟩
          · cases h
          · exact absurd h h1⟩
      · exact ⟨fun _ => Or.inl ⟨rfl, Or.inr h2⟩, fun _ => rfl⟩
      · exact ⟨fun h => (by cases h), fun h => by rcases h with ⟨h, _⟩ | ⟨h, _⟩ <;> cases h⟩
    · rw [if_neg h2]
      refine ⟨fun h => (by cases h), fun h => ?_⟩
      rcases h with ⟨_, h | h⟩ | ⟨_, h⟩
      · exact absurd h h1
      · exact absurd h h2
      · exact absurd h h1

section
variable {K : Type} [Field K] [LinearOrder K] [IsStrictOrderedRing K]

/-! ### Galaxies and voids -/

/-- The weight of galaxies and voids is linear in the density and in the bias, and has their sign. -/
theorem density_linear (H d d' b b' : Nat → K) (c x y : K) (k : Nat) :
    density H c (fun k => x * d k + y * d' k) b k = x * density H c d b k + y * density H c d' b k ∧
    density H c d (fun k => x * b k + y * b' k) k = x * density H c d b k + y * density H c d b' k ∧
    (0 ≤ H k → 0 < c → 0 ≤ d k → 0 ≤ b k → 0 ≤ density H c d b k) := by
  unfold density
  exact ⟨by ring, by ring, fun h1 h2 h3 h4 => by positivity⟩

end

/-! ### Bias -/

theorem lookups_some {K : Type} (p : List (Str × K)) (names : List Str) :
    (∃ l, (names.mapM fun n => (p.lookup n).map fun v => (n, v)) = some l) ↔ ∀ n ∈ names, (p.lookup n).isSome := by
  induction names with
  | nil => simp
  | cons n names ih =>
    rw [List.mapM_cons]
    cases hn : p.lookup n with
    | none =>
      refine ⟨fun ⟨l, h⟩ => (by cases h), fun h => ?_⟩
      have := h n List.mem_cons_self
      rw [hn] at this
      cases this
    | some v =>
      constructor
      · rintro ⟨l, h⟩ m hm
        rcases List.mem_cons.mp hm with rfl | hm
        · rw [hn]; rfl
        · refine ih.mp ?_ m hm
          cases hl : (names.mapM fun n => (p.lookup n).map fun v => (n, v)) with
          | none => simp only [Option.map_some, Option.bind_eq_bind, Option.bind_some] at h; rw [hl] at h; cases h
          | some l' => exact ⟨l', rfl⟩
      · intro h
        obtain ⟨l, hl⟩ := ih.mpr fun m hm => h m (List.mem_cons_of_mem _ hm)
        exact ⟨(n, v) :: l, by simp only [Option.map_some, Option.bind_eq_bind, Option.bind_some]; rw [hl]; rfl⟩

theorem lookups_mem {K : Type} (p : List (Str × K)) (names : List Str) (l : List (Str × K))
    (h : (names.mapM fun n => (p.lookup n).map fun v => (n, v)) = some l) :
    l.map (·.1) = names ∧ ∀ q ∈ l, p.lookup q.1 = some q.2 := by
  induction names generalizing l with
  | nil => cases h; exact ⟨rfl, by simp⟩
  | cons n names ih =>
    rw [List.mapM_cons] at h
    cases hn : p.lookup n with
    | none => rw [hn] at h; cases h
    | some v =>
      rw [hn] at h
      simp only [Option.map_some, Option.bind_eq_bind, Option.bind_some] at h
      cases hl : (names.mapM fun n => (p.lookup n).map fun v => (n, v)) with
      | none => rw [hl] at h; cases h
      | some l' =>
        rw [hl] at h
        cases h
        obtain ⟨a, b⟩ := ih l' hl
        refine ⟨by rw [List.map_cons, a], fun q hq => ?_⟩
        rcases List.mem_cons.mp hq with rfl | hq
        · exact hn
        · exact b q hq

/-- The models that exist for a kind of weight function. -/
def Known (kind : Kind) (model : Str) : Prop :=
  (kind = .galaxy ∧ model ∈ ["piecewise".toList, "constant".toList, "euclid_flagship_photo".toList]) ∨
    kind = .void ∧ model ∈ ["vdn_void".toList, "fiducial_growth_void".toList]

theorem finish_iff {K : Type} (kind : Kind) (model : Str) (l l' : List (Str × K)) :
    setupBias.finish kind model l = .ok l' ↔ Known kind model ∧ l = l' := by
  unfold setupBias.finish Known
  cases kind
  · simp only [List.mem_cons, List.not_mem_nil, or_false, true_and, reduceCtorEq, false_and]
    by_cases h : model = "piecewise".toList ∨ model = "constant".toList ∨ model = "euclid_flagship_photo".toList
    · rw [if_pos h]
      exact ⟨fun e => ⟨h, by cases e; rfl⟩, fun e => by rw [e.2]⟩
    · rw [if_neg h]
      exact ⟨fun e => (by cases e), fun e => absurd e.1 h⟩
  · simp only [List.mem_cons, List.not_mem_nil, or_false, true_and, reduceCtorEq, false_and, false_or]
    by_cases h : model = "vdn_void".toList ∨ model = "fiducial_growth_void".toList
    · rw [if_pos h]
      exact ⟨fun e => ⟨h, by cases e; rfl⟩, fun e => by rw [e.2]⟩
    · rw [if_neg h]
      exact ⟨fun e => (by cases e), fun e => absurd e.1 h⟩

/-- The bias of a weight function: it can be used exactly when the model is one for its kind and every parameter
in the bias file is among the nuisance parameters; it then has these parameters with the current values, not
those of the file. -/
theorem setupBias_iff {K : Type} (kind : Kind) (model : Str) (names : List Str) (p : List (Str × K)) :
    ((∃ l, setupBias kind model names (some p) = .ok l) ↔
      Known kind model ∧ ∀ n ∈ names, (p.lookup n).isSome) ∧
    ∀ l, setupBias kind model names (some p) = .ok l →
      l.map (·.1) = names ∧ ∀ q ∈ l, p.lookup q.1 = some q.2 := by
  unfold setupBias
  simp only
  cases hm : (names.mapM fun n => (p.lookup n).map fun v => (n, v)) with
  | none =>
    refine ⟨⟨fun ⟨l, h⟩ => (by cases h), fun h => ?_⟩, fun l h => (by cases h)⟩
    obtain ⟨l, hl⟩ := (lookups_some p names).mpr h.2
    rw [hm] at hl
    cases hl
  | some l =>
    refine ⟨⟨fun ⟨l', h⟩ => ?_, fun h => ⟨l, (finish_iff _ _ _ _).mpr ⟨h.1, rfl⟩⟩⟩, fun l' h => ?_⟩
    · exact ⟨((finish_iff _ _ _ _).mp h).1, (lookups_some p names).mp ⟨l, hm⟩⟩
    · rw [← ((finish_iff _ _ _ _).mp h).2]
      exact lookups_mem p names l hm

/-- Without nuisance parameters it fails, unless the file has none. -/
theorem setupBias_none {K : Type} (kind : Kind) (model : Str) (names : List Str) (h : names ≠ []) :
    setupBias (K := K) kind model names none = .error .typeError := by
  unfold setupBias
  simp only
  rw [if_neg h]

/-! ### State -/

/-- A density that has not been evaluated is evaluated on the grid of the weight function. -/
theorem density_fresh_partial {G V : Type} (f : G → V) (s : State G V) (g : G) (h : s.densGrid = none) :
    evalDensity f s g = { grid := some g, densGrid := some (g, f g) } := by
  unfold evalDensity
  rw [h]
  rfl

/-- One that has been evaluated keeps its values, whatever the new grid: weights on one grid are made with a
density on another. -/
theorem density_stale {G V : Type} (f : G → V) (g g' : G) (hne : g ≠ g') (s : State G V) (h : s.densGrid = none) :
    (evalDensity f (evalDensity f s g) g').grid = some g' ∧
    (evalDensity f (evalDensity f s g) g').densGrid = some (g, f g) ∧ g ≠ g' := by
  rw [density_fresh_partial f s g h]
  exact ⟨rfl, rfl, hne⟩

/-! ### Examples -/

example : simps (fun k => (k : ℚ)) (fun k => (k : ℚ) ^ 2) 3 = 8 / 3 := by
  norm_num [simps, basicSimps, simpsTerm]

example : Tame (fun k => (1 / 10 : ℚ) + k * (1 / 5)) 7 := uniform_tame _ _ (by norm_num) _

example : efficiency (fun k => (k : ℚ)) (fun k => k + 1) (fun _ => 1) 3 0 = 8 / 9 := by
  norm_num [efficiency, simpsFrom, simps, basicSimps, simpsTerm]

example : setupBias .void "piecewise".toList ["b0".toList] (some [("b0".toList, (1 : ℚ))]) =
    .error .notImplemented := by rfl

example : setupBias .galaxy "constant".toList ["b0".toList] (some [("b1".toList, (2 : ℚ)), ("b0".toList, 1)]) =
    .ok [("b0".toList, 1)] := by rfl

/-- A grid, distances and a density with nothing special about them. -/
def exZ (k : Nat) : ℚ := 1 / 10 + k * (1 / 5)
def exR (k : Nat) : ℚ := 3 * exZ k
def exCo : LensCosmo ℚ := ⟨8 / 25, 67, 300000, exR, none⟩

theorem exZ_tame (n : Nat) : Tame exZ n := uniform_tame _ _ (by norm_num) _
theorem exZ_pos (k : Nat) : 0 < exZ k := by unfold exZ; positivity
theorem exZ_mono (s k : Nat) (h : s ≤ k) : exR s ≤ exR k := by
  unfold exR exZ
  have : (s : ℚ) ≤ k := by exact_mod_cast h
  linarith

example : 0 ≤ simps exZ (fun k => (k : ℚ)) 6 := simps_nonneg _ _ 6 (by norm_num) (exZ_tame 6) fun k _ => by positivity
example : simps exZ (fun j => 2 + 3 * exZ j + 5 * exZ j ^ 2) 5 =
    (2 * exZ 4 + 3 / 2 * exZ 4 ^ 2 + 5 / 3 * exZ 4 ^ 3) - (2 * exZ 0 + 3 / 2 * exZ 0 ^ 2 + 5 / 3 * exZ 0 ^ 3) :=
  simps_exact exZ 2 3 5 2 fun k _ => by unfold exZ; push_cast; linarith
example : simps exZ (fun j => 2 + 3 * exZ j) 6 = (2 * exZ 5 + 3 / 2 * exZ 5 ^ 2) - (2 * exZ 0 + 3 / 2 * exZ 0 ^ 2) :=
  simps_exact_even exZ 2 3 2 fun k _ => by unfold exZ; push_cast; linarith
example : efficiency exZ exR (fun k => (k : ℚ)) 7 3 = efficiency exZ exR (fun k => if k < 3 then 100 else k) 7 3 :=
  efficiency_behind _ _ _ _ 7 3 (by norm_num) fun k h _ => by rw [if_neg (by omega)]
example : 0 ≤ efficiency exZ exR (fun k => (k : ℚ)) 7 3 :=
  efficiency_nonneg _ _ _ 7 3 (exZ_tame 7) (by unfold exR; have := exZ_pos 3; positivity) (fun k h _ => exZ_mono 3 k h)
    (fun k _ => by positivity) (by norm_num)
example : 0 ≤ lensing exCo exZ exR (fun k => (k : ℚ)) 7 3 :=
  (lensing_nonneg exCo rfl (by norm_num [exCo]) (by norm_num [exCo]) (by norm_num [exCo]) _ _ _ 7 3 (by norm_num)
    (exZ_tame 7) (exZ_pos 3).le (by show 0 ≤ exR 3; unfold exR; have := exZ_pos 3; positivity)
    (by unfold exR; have := exZ_pos 3; positivity) (fun k h _ => exZ_mono 3 k h) fun k _ => by positivity).1
example : lensing { exCo with ia := some fun k => (k : ℚ) + 2 } exZ exR (fun k => (k : ℚ)) 7 6 = -(8 * 6) := by
  rw [lensing_ia_end { exCo with ia := some fun k => (k : ℚ) + 2 } _ rfl exZ exR (fun k => (k : ℚ)) 7 (by norm_num)]
  norm_num

end Seyfert.Weights
