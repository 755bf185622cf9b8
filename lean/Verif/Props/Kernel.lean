import Verif.Model.Kernel
import Verif.Props.Config
import Mathlib.Tactic.Ring
import Mathlib.Data.Nat.Log
import Mathlib.Data.Rat.Defs

/-!
C46, C69, C70: kernels and angular spectra.
-/

set_option linter.unusedSectionVars false

namespace Seyfert.Kernel

variable {K : Type} [Field K]

/-! ### C46: symmetry -/

theorem product_comm (co : Cosmo K) (w1 w2 : Nat → Nat → K) (i j z : Nat) :
    product co w1 w2 i j z = product co w2 w1 j i z := by
  unfold product
  rw [mul_comm (w1 i z)]

theorem ensure_isSome {G : Type} (v : Weight G K) (g : G) : ∃ f, (v.ensure g).w = some f := by
  unfold Weight.ensure
  split
  · rename_i f h
    exact ⟨f, h⟩
  · exact ⟨_, rfl⟩

/-- The kernel of a probe with itself is symmetric in the bins. -/
theorem kernel_symmetric {G : Type} (co : Cosmo K) (ker : Kern G K) (g : G) (ow : Bool)
    (hp : ker.weight1.probe = ker.weight2.probe) (h : ow = true ∨ ker.k = none) :
    ∃ k, (evaluate co ker g ow).k = some k ∧ ∀ i j z, k i j z = k j i z := by
  unfold evaluate
  rw [if_pos h]
  refine ⟨_, rfl, fun i j z => ?_⟩
  have hpr : (ker.weight1.ensure g).probe = ker.weight1.probe := by
    unfold Weight.ensure
    split <;> rfl
  rw [hpr, if_pos hp]
  exact product_comm co _ _ i j z

/-- Kernels of the same two weight functions in the two orders are transposes of each other. -/
theorem kernel_transpose {G : Type} (co : Cosmo K) (a b : Weight G K) (g : G) (hp : a.probe ≠ b.probe) :
    ∃ k k', (evaluate co ⟨a, b, none, none⟩ g false).k = some k ∧ (evaluate co ⟨b, a, none, none⟩ g false).k = some k' ∧
      ∀ i j z, k i j z = k' j i z := by
  have ha : (a.ensure g).probe = a.probe := by
    unfold Weight.ensure
    split <;> rfl
  have hb : (b.ensure g).probe = b.probe := by
    unfold Weight.ensure
    split <;> rfl
  unfold evaluate
  rw [if_pos (Or.inr rfl), if_pos (Or.inr rfl)]
  refine ⟨_, _, rfl, rfl, fun i j z => ?_⟩
  simp only [ha, hb, if_neg hp, if_neg (Ne.symm hp)]
  exact product_comm co _ _ i j z

variable (integ : (Nat → K) → K) (limber : Nat → Nat → K) (k : Nat → Nat → Nat → K)

theorem autoStep_value (off : Bool) (c : Nat → Nat → Nat → K) (p : Nat × Nat) (l i j : Nat) :
    autoStep integ limber k off c p l i j =
      if (p.1 = p.2 ∨ off = true) ∧ ((i = p.1 ∧ j = p.2) ∨ (i = p.2 ∧ j = p.1))
      then integral integ limber k p.1 p.2 l else c l i j := by
  unfold autoStep
  by_cases h : p.1 ≠ p.2 ∧ off = false
  · rw [if_pos h, if_neg]
    rintro ⟨h1 | h1, _⟩
    · exact h.1 h1
    · rw [h.2] at h1
      exact absurd h1 (by simp)
  · rw [if_neg h]
    have hc : p.1 = p.2 ∨ off = true := by
      by_cases e : p.1 = p.2
      · exact Or.inl e
      · right
        cases off
        · exact absurd ⟨e, rfl⟩ h
        · rfl
    simp only [hc, true_and, setIJ]
    by_cases h1 : i = p.2 ∧ j = p.1
    · simp [h1]
    · rw [if_neg h1]
      by_cases h2 : i = p.1 ∧ j = p.2
      · simp [h2]
      · rw [if_neg h2, if_neg (by tauto)]

theorem auto_fold (off : Bool) (l i j : Nat) (ps : List (Nat × Nat)) (hs : ∀ p ∈ ps, p.1 ≤ p.2)
    (c : Nat → Nat → Nat → K) :
    (ps.foldl (autoStep integ limber k off) c) l i j =
      if (i = j ∨ off = true) ∧ (min i j, max i j) ∈ ps then integral integ limber k (min i j) (max i j) l
      else c l i j := by
  induction ps generalizing c with
  | nil => simp
  | cons p ps ih =>
    rw [List.foldl_cons, ih (fun q hq => hs q (List.mem_cons_of_mem _ hq)), autoStep_value]
    have hp := hs p List.mem_cons_self
    obtain ⟨a, b⟩ := p
    simp only at hp ⊢
    by_cases h1 : (i = j ∨ off = true) ∧ (min i j, max i j) ∈ ps
    · rw [if_pos h1, if_pos ⟨h1.1, List.mem_cons_of_mem _ h1.2⟩]
    · rw [if_neg h1]
      by_cases h2 : (min i j, max i j) = (a, b)
      · obtain ⟨e1, e2⟩ := Prod.mk.inj h2
        have hor : (i = a ∧ j = b) ∨ (i = b ∧ j = a) := by omega
        by_cases h3 : i = j ∨ off = true
        · have h5 : a = b ∨ off = true := by
            rcases h3 with h3 | h3
            · left; omega
            · exact Or.inr h3
          rw [if_pos ⟨h5, hor⟩, if_pos ⟨h3, by rw [h2]; exact List.mem_cons_self⟩, e1, e2]
        · have h5 : ¬ (a = b ∨ off = true) := by
            rintro (h4 | h4)
            · exact h3 (Or.inl (by omega))
            · exact h3 (Or.inr h4)
          rw [if_neg (fun h => h5 h.1), if_neg (fun h => h3 h.1)]
      · have h5 : ¬ ((i = a ∧ j = b) ∨ (i = b ∧ j = a)) := by
          intro h4
          apply h2
          rw [Prod.mk.injEq]
          omega
        rw [if_neg (fun h => h5 h.2), if_neg]
        rintro ⟨h3, h4⟩
        rcases List.mem_cons.mp h4 with h4 | h4
        · exact h2 h4
        · exact h1 ⟨h3, h4⟩

theorem range_combos (n i j : Nat) : (i, j) ∈ Config.combosWR (List.range n) ↔ i ≤ j ∧ j < n := by
  rw [Config.combos_mem]
  constructor
  · rintro ⟨a, b, hab, ha, hb⟩
    obtain ⟨h1, e1⟩ := List.getElem?_eq_some_iff.mp ha
    obtain ⟨h2, e2⟩ := List.getElem?_eq_some_iff.mp hb
    rw [List.getElem_range] at e1 e2
    rw [List.length_range] at h1 h2
    omega
  · rintro ⟨h1, h2⟩
    exact ⟨i, j, h1, List.getElem?_range (by omega), List.getElem?_range h2⟩

/-- Every entry of the spectrum of a probe with itself: the integral for the pair of bins, in increasing order, or
zero for different bins when these are skipped. -/
theorem autoCl_value (off : Bool) (n l i j : Nat) (hi : i < n) (hj : j < n) :
    autoCl integ limber k off n l i j =
      if i = j ∨ off = true then integral integ limber k (min i j) (max i j) l else 0 := by
  unfold autoCl
  rw [auto_fold integ limber k off l i j _ (fun p hp => ((range_combos n p.1 p.2).mp hp).1)]
  have : (min i j, max i j) ∈ Config.combosWR (List.range n) := (range_combos n _ _).mpr ⟨by omega, by omega⟩
  simp only [this, and_true]

/-- It is symmetric in the bins, whatever the kernel and the integration rule. -/
theorem autoCl_symmetric (off : Bool) (n l i j : Nat) (hi : i < n) (hj : j < n) :
    autoCl integ limber k off n l i j = autoCl integ limber k off n l j i := by
  rw [autoCl_value integ limber k off n l i j hi hj, autoCl_value integ limber k off n l j i hj hi, min_comm, max_comm]
  by_cases h : i = j
  · simp [h]
  · simp [h, Ne.symm h]

/-- Skipping different bins leaves exactly the diagonal of the full spectrum. -/
theorem skipping_leaves_diagonal (n l i j : Nat) (hi : i < n) (hj : j < n) :
    autoCl integ limber k false n l i j = if i = j then autoCl integ limber k true n l i j else 0 := by
  rw [autoCl_value integ limber k false n l i j hi hj, autoCl_value integ limber k true n l i j hi hj]
  by_cases h : i = j <;> simp [h]

theorem cross_fold (l i j : Nat) (ps : List (Nat × Nat)) (c : Nat → Nat → Nat → K) :
    (ps.foldl (fun c p => setIJ c p.1 p.2 (fun l => integral integ limber k p.1 p.2 l)) c) l i j =
      if (i, j) ∈ ps then integral integ limber k i j l else c l i j := by
  induction ps generalizing c with
  | nil => simp
  | cons p ps ih =>
    rw [List.foldl_cons, ih]
    obtain ⟨a, b⟩ := p
    by_cases h : (i, j) ∈ ps
    · rw [if_pos h, if_pos (List.mem_cons_of_mem _ h)]
    · rw [if_neg h]
      unfold setIJ
      by_cases h2 : i = a ∧ j = b
      · obtain ⟨rfl, rfl⟩ := h2
        simp
      · rw [if_neg h2, if_neg]
        intro h3
        rcases List.mem_cons.mp h3 with h3 | h3
        · exact h2 (Prod.mk.inj h3)
        · exact h h3

/-- Every entry of the spectrum of two different probes is its integral. -/
theorem crossCl_value (n m l i j : Nat) (hi : i < n) (hj : j < m) :
    crossCl integ limber k n m l i j = integral integ limber k i j l := by
  unfold crossCl
  rw [cross_fold, if_pos]
  rw [List.mem_flatMap]
  exact ⟨i, List.mem_range.mpr hi, List.mem_map.mpr ⟨j, List.mem_range.mpr hj, rfl⟩⟩

/-- The spectrum of two different probes in one order is the transpose of that in the other order. -/
theorem crossCl_transpose (k' : Nat → Nat → Nat → K) (hk : ∀ i j z, k i j z = k' j i z) (n m l i j : Nat) (hi : i < n)
    (hj : j < m) : crossCl integ limber k n m l i j = crossCl integ limber k' m n l j i := by
  rw [crossCl_value integ limber k n m l i j hi hj, crossCl_value integ limber k' m n l j i hj hi]
  unfold integral
  simp only [hk]

/-- Every value of a spectrum is the integral of the matter spectrum times the kernel of its own two bins. -/
theorem cl_integrals (n m l i j : Nat) (hi : i < n) :
    (j < m → crossCl integ limber k n m l i j = integ (fun z => limber l z * k i j z)) ∧
    (j < n → (∀ i j z, k i j z = k j i z) → autoCl integ limber k true n l i j = integ (fun z => limber l z * k i j z)) := by
  refine ⟨fun hj => crossCl_value integ limber k n m l i j hi hj, fun hj hk => ?_⟩
  rw [autoCl_value integ limber k true n l i j hi hj, if_pos (Or.inr rfl)]
  unfold integral
  rcases le_total i j with h | h
  · rw [min_eq_left h, max_eq_right h]
  · rw [min_eq_right h, max_eq_left h]
    simp only [fun z => hk j i z]

/-- For a symmetric kernel the two loops agree: a probe treated as two different ones gives the full
auto-spectrum. -/
theorem auto_eq_cross (hk : ∀ i j z, k i j z = k j i z) (n l i j : Nat) (hi : i < n) (hj : j < n) :
    autoCl integ limber k true n l i j = crossCl integ limber k n n l i j := by
  rw [autoCl_value integ limber k true n l i j hi hj, crossCl_value integ limber k n n l i j hi hj, if_pos (Or.inr rfl)]
  rcases le_total i j with h | h
  · rw [min_eq_left h, max_eq_right h]
  · rw [min_eq_right h, max_eq_left h]
    unfold integral
    simp only [fun z => hk j i z]

example : autoCl (fun f => f 0 + f 1) (fun l z => (l + z + 1 : ℚ)) (fun i j z => (i + j : ℚ) + z) false 2 1 1 1 = 13 := by
  rw [autoCl_value _ _ _ _ _ _ _ _ (by omega) (by omega)]
  decide +kernel

/-! ### C69: kernels belong to their grid -/

/-- Evaluating a kernel whose weight functions have not been evaluated gives the values on the requested grid. -/
theorem fresh_kernel_partial {G : Type} (co : Cosmo K) (ker : Kern G K) (g : G) (ow : Bool)
    (h1 : ker.weight1.w = none) (h2 : ker.weight2.w = none) (hp : ker.weight1.probe ≠ ker.weight2.probe)
    (h : ow = true ∨ ker.k = none) :
    (evaluate co ker g ow).grid = some g ∧
    (evaluate co ker g ow).k = some fun i j z =>
      ker.weight1.eval g i z * ker.weight2.eval g j z * co.c / (co.H z * co.r z ^ 2) := by
  unfold evaluate
  rw [if_pos h]
  simp [Weight.ensure, h1, h2, hp, Weight.values]
  rfl

/-- An evaluated kernel is not evaluated again unless this is requested, even on another grid. -/
theorem evaluated_kept {G : Type} (co : Cosmo K) (ker : Kern G K) (g : G) (x : Nat → Nat → Nat → K)
    (h : ker.k = some x) : evaluate co ker g false = ker := by
  unfold evaluate
  rw [if_neg]
  simp [h]

/-- Witness: also on request the weights are not evaluated again, so the kernel mixes the new grid with the values of
the old one: for every kernel of two probes and every two grids, the second evaluation gives the weights of the first. -/
theorem stale_weights {G : Type} (co co' : Cosmo K) (a b : Weight G K) (ha : a.w = none) (hb : b.w = none)
    (hp : a.probe ≠ b.probe) (g g' : G) :
    (evaluate co' (evaluate co ⟨a, b, none, none⟩ g false) g' true).grid = some g' ∧
    (evaluate co' (evaluate co ⟨a, b, none, none⟩ g false) g' true).k =
      some (product co' (a.eval g) (b.eval g)) := by
  simp [evaluate, Weight.ensure, ha, hb, hp, Weight.values]

/-! ### C70: integration methods -/

/-- The methods that are accepted, and for which grids. -/
theorem rule_accepted (method : Str) (n : Nat) :
    (∃ r, chooseRule method n = .ok r) ↔
      (∃ s, method = "newton-cotes".toList ++ s) ∨ method = "simpson".toList ∨ method = "quad".toList ∨
      (method = "romberg".toList ∧ ∃ e, n = 2 ^ e + 1) := by
  have hpow : ∀ n : Nat, ¬ n ≤ 1 → (2 ^ Nat.log2 (n - 1) = n - 1 ↔ ∃ e, n = 2 ^ e + 1) := by
    intro n hn
    constructor
    · intro h
      exact ⟨Nat.log2 (n - 1), by omega⟩
    · rintro ⟨e, rfl⟩
      rw [Nat.add_sub_cancel, Nat.log2_two_pow]
  have hs : (stripPrefix "newton-cotes".toList method).isSome = true ↔ ∃ s, method = "newton-cotes".toList ++ s :=
    stripPrefix_isSome _ _
  have np : ∀ m ∈ ["simpson".toList, "quad".toList, "romberg".toList], stripPrefix "newton-cotes".toList m = none := by
    decide +kernel
  unfold chooseRule
  by_cases h0 : ∃ s, method = "newton-cotes".toList ++ s
  · rw [if_pos (hs.mpr h0)]
    exact ⟨fun _ => Or.inl h0, fun _ => ⟨_, rfl⟩⟩
  · rw [if_neg (fun h => h0 (hs.mp h))]
    by_cases h1 : method = "simpson".toList
    · rw [if_pos h1]
      exact ⟨fun _ => Or.inr (Or.inl h1), fun _ => ⟨_, rfl⟩⟩
    · rw [if_neg h1]
      by_cases h2 : method = "romberg".toList
      · rw [if_pos h2]
        have h3 : method ≠ "quad".toList := by rw [h2]; decide
        by_cases hn : n ≤ 1
        · rw [if_pos hn]
          constructor
          · rintro ⟨r, hr⟩
            exact absurd hr (by simp)
          · rintro (h | h | h | ⟨_, e, he⟩)
            · exact absurd h h0
            · exact absurd h h1
            · exact absurd h h3
            · have := Nat.two_pow_pos e
              omega
        · rw [if_neg hn]
          by_cases hq : 2 ^ Nat.log2 (n - 1) = n - 1
          · rw [if_pos hq]
            exact ⟨fun _ => Or.inr (Or.inr (Or.inr ⟨h2, (hpow n hn).mp hq⟩)), fun _ => ⟨_, rfl⟩⟩
          · rw [if_neg hq]
            constructor
            · rintro ⟨r, hr⟩
              exact absurd hr (by simp)
            · rintro (h | h | h | ⟨_, he⟩)
              · exact absurd h h0
              · exact absurd h h1
              · exact absurd h h3
              · exact absurd ((hpow n hn).mpr he) hq
      · rw [if_neg h2]
        by_cases h3 : method = "quad".toList
        · rw [if_pos h3]
          exact ⟨fun _ => Or.inr (Or.inr (Or.inl h3)), fun _ => ⟨_, rfl⟩⟩
        · rw [if_neg h3]
          constructor
          · rintro ⟨r, hr⟩
            exact absurd hr (by simp)
          · rintro (h | h | h | ⟨h, _⟩)
            · exact absurd h h0
            · exact absurd h h1
            · exact absurd h h3
            · exact absurd h h2

/-- The order of the Newton–Cotes rule is read after the last underscore. -/
theorem rule_order (s : Str) (hs : '_' ∉ s) (n : Nat) :
    chooseRule ("newton-cotes".toList ++ '_' :: s) n = .ok (.newtonCotes s) := by
  unfold chooseRule
  rw [stripPrefix_append]
  simp only [Option.isSome_some, if_true, afterUnderscore]
  rw [splitChar_append '_' _ _ (by decide), splitChar_no_sep '_' s hs]
  rfl

example : chooseRule "newton-cotes_3".toList 7 = .ok (.newtonCotes "3".toList) ∧
    chooseRule "romberg".toList 9 = .ok .romberg ∧ chooseRule "romberg".toList 10 = .error .badSamples := by
  decide +kernel

end Seyfert.Kernel
