import Verif.Model.Boltzmann
import Verif.Lemmas.PyDict
import Verif.Props.Batch
import Mathlib.Tactic.FieldSimp
import Mathlib.Tactic.Ring
import Mathlib.Tactic.Linarith
import Mathlib.Tactic.LinearCombination

/-!
C49, C50, C51, C71: what is handed to the Boltzmann codes.
-/

set_option linter.unusedSectionVars false

namespace Seyfert.Boltzmann

/-! ### C49: groups of redshifts -/

theorem groupsNumber_eq (n : Nat) : groupsNumber n = (n + 149) / 150 := by
  have h : ⌈(n : ℚ) / 150⌉ = (((n + 149) / 150 : Nat) : Int) := by
    rw [Int.ceil_eq_iff]
    have h1 := Nat.div_add_mod (n + 149) 150
    have h2 := Nat.mod_lt (n + 149) (show 0 < 150 by omega)
    generalize (n + 149) / 150 = q at *
    generalize (n + 149) % 150 = r at *
    have h3 : (150 : ℚ) * q + r = n + 149 := by exact_mod_cast h1
    have h4 : (r : ℚ) ≤ 149 := by exact_mod_cast Nat.le_of_lt_succ h2
    have h5 : (0 : ℚ) ≤ r := Nat.cast_nonneg r
    rw [lt_div_iff₀ (by norm_num), div_le_iff₀ (by norm_num)]
    push_cast
    constructor <;> linarith
  unfold groupsNumber
  rw [h, Int.toNat_natCast]

theorem sizes_sum (n k : Nat) (hk : k ≠ 0) : (sectionSizes n k).sum = n := by
  unfold sectionSizes
  rw [List.sum_append, List.sum_replicate, List.sum_replicate, smul_eq_mul, smul_eq_mul]
  have h1 := Nat.div_add_mod n k
  have h2 := Nat.mod_lt n (Nat.pos_of_ne_zero hk)
  obtain ⟨d, hd⟩ : ∃ d, k = n % k + d := ⟨k - n % k, by omega⟩
  have h3 : k - n % k = d := by omega
  rw [h3]
  generalize n % k = r at *
  generalize n / k = q at *
  subst hd
  rw [← h1]
  ring

theorem cutBy_flatten {α : Type} (ss : List Nat) (l : List α) (h : l.length ≤ ss.sum) : (cutBy ss l).flatten = l := by
  induction ss generalizing l with
  | nil =>
    have : l = [] := List.eq_nil_of_length_eq_zero (by simpa using h)
    rw [this]; rfl
  | cons s ss ih =>
    unfold cutBy
    rw [List.flatten_cons, ih, List.take_append_drop]
    rw [List.length_drop]
    rw [List.sum_cons] at h
    omega

theorem cutBy_lengths {α : Type} (ss : List Nat) (l : List α) (h : ss.sum ≤ l.length) :
    (cutBy ss l).map List.length = ss := by
  induction ss generalizing l with
  | nil => rfl
  | cons s ss ih =>
    rw [List.sum_cons] at h
    unfold cutBy
    rw [List.map_cons, ih _ (by rw [List.length_drop]; omega), List.length_take, Nat.min_eq_left (by omega)]

theorem groups_ok {α : Type} (z : List α) (hz : z ≠ []) :
    cambGroups z = .ok (cutBy (sectionSizes z.length (groupsNumber z.length)) z) ∧ groupsNumber z.length ≠ 0 := by
  have hl : 0 < z.length := List.length_pos_of_ne_nil hz
  have h0 : groupsNumber z.length ≠ 0 := by
    rw [groupsNumber_eq]
    omega
  exact ⟨by unfold cambGroups arraySplit; rw [if_neg h0], h0⟩

/-- Every redshift occurs once, in order; no group is empty or has more than 150 redshifts; the sizes differ by at most
one; an empty grid is refused. -/
theorem groups_spec {α : Type} (z : List α) :
    (z = [] → cambGroups z = .error .noSections) ∧
    (z ≠ [] → ∃ gs, cambGroups z = .ok gs ∧ gs.flatten = z ∧ (∀ g ∈ gs, g ≠ [] ∧ g.length ≤ 150) ∧
      (∀ g ∈ gs, ∀ g' ∈ gs, g.length ≤ g'.length + 1)) := by
  constructor
  · rintro rfl
    unfold cambGroups arraySplit
    rw [if_pos (by rw [groupsNumber_eq, List.length_nil])]
  · intro hz
    obtain ⟨h, h0⟩ := groups_ok z hz
    have hsum := sizes_sum z.length _ h0
    have hlen := cutBy_lengths (sectionSizes z.length (groupsNumber z.length)) z (le_of_eq hsum)
    have hmem : ∀ g ∈ cutBy (sectionSizes z.length (groupsNumber z.length)) z,
        (g.length = z.length / groupsNumber z.length + 1 ∧ z.length % groupsNumber z.length ≠ 0) ∨
        g.length = z.length / groupsNumber z.length := by
      intro g hg
      have : g.length ∈ sectionSizes z.length (groupsNumber z.length) := by
        rw [← hlen]
        exact List.mem_map_of_mem hg
      unfold sectionSizes at this
      rw [List.mem_append, List.mem_replicate, List.mem_replicate] at this
      rcases this with ⟨h1, h2⟩ | ⟨h1, h2⟩
      · exact Or.inl ⟨h2, h1⟩
      · exact Or.inr h2
    have hl : 0 < z.length := List.length_pos_of_ne_nil hz
    have hn := groupsNumber_eq z.length
    generalize groupsNumber z.length = k at *
    have hk : k ≤ z.length ∧ z.length ≤ 150 * k := by omega
    have h1 : 1 ≤ z.length / k := (Nat.one_le_div_iff (by omega)).mpr hk.1
    have h2 : z.length / k ≤ 150 := by
      rw [Nat.div_le_iff_le_mul_add_pred (by omega)]
      rw [Nat.mul_comm] at hk
      rw [Nat.mul_comm]
      omega
    have h3 : z.length % k ≠ 0 → z.length / k + 1 ≤ 150 := by
      intro hr
      by_contra hc
      have e : z.length / k = 150 := by omega
      have := Nat.div_add_mod z.length k
      rw [e, Nat.mul_comm] at this
      omega
    refine ⟨_, h, cutBy_flatten _ _ (le_of_eq hsum.symm), fun g hg => ⟨?_, ?_⟩, fun g hg g' hg' => ?_⟩
    · rintro rfl
      rcases hmem _ hg with h4 | h4
      · have := h4.1
        simp at this
      · rw [List.length_nil] at h4
        omega
    · rcases hmem _ hg with h4 | h4
      · rw [h4.1]; exact h3 h4.2
      · rw [h4]; exact h2
    · rcases hmem _ hg with h4 | h4 <;> rcases hmem _ hg' with h5 | h5 <;> omega

/-- No way of splitting the grid into groups of at most 150 redshifts uses fewer groups. -/
theorem groups_minimal {α : Type} (z : List α) (gs hs : List (List α)) (h : cambGroups z = .ok gs) (hf : hs.flatten = z)
    (hl : ∀ g ∈ hs, g.length ≤ 150) : gs.length ≤ hs.length := by
  by_cases hz : z = []
  · rw [(groups_spec z).1 hz] at h
    exact absurd h (by simp)
  obtain ⟨h', h0⟩ := groups_ok z hz
  rw [h'] at h
  obtain rfl := Except.ok.inj h
  have hsum := sizes_sum z.length _ h0
  have h1 : (cutBy (sectionSizes z.length (groupsNumber z.length)) z).length = groupsNumber z.length := by
    have := congrArg List.length (cutBy_lengths _ z (le_of_eq hsum))
    rw [List.length_map] at this
    rw [this]
    unfold sectionSizes
    rw [List.length_append, List.length_replicate, List.length_replicate]
    have := Nat.mod_lt z.length (Nat.pos_of_ne_zero h0)
    omega
  have h2 : z.length ≤ 150 * hs.length := by
    rw [← hf]
    clear * - hl
    induction hs with
    | nil => simp
    | cons g hs ih =>
      rw [List.flatten_cons, List.length_append, List.length_cons]
      have h1 := hl g List.mem_cons_self
      have h2 := ih (fun g hg => hl g (List.mem_cons_of_mem _ hg))
      omega
  rw [h1, groupsNumber_eq]
  omega

/-- When the code computes each redshift independently of the others of its group, the joined result has one row per
redshift, in the order of the grid. -/
theorem run_rows {α β : Type} (solver : List α → List β) (f : α → β) (hs : ∀ g, g.length ≤ 150 → solver g = g.map f)
    (z : List α) (hz : z ≠ []) : run solver z = .ok (z.map f) := by
  obtain ⟨gs, h, hf, hg, _⟩ := (groups_spec z).2 hz
  unfold run
  rw [h]
  simp only
  congr 1
  rw [← hf, List.map_flatten]
  congr 1
  exact List.map_congr_left (fun g hm => hs g (hg g hm).2)

example : cambGroups (List.range 151) = .ok [List.range 76, (List.range 75).map (· + 76)] := by decide +kernel

/-! ### C50: densities -/

/-- CAMB: baryons, cold dark matter and neutrinos add up to the matter density, and matter, dark energy and curvature to
one. -/
theorem camb_closure {K : Type} [Field K] (c : Cosmo K) (hh : c.h ≠ 0) :
    ((cambBasis c).ombh2 + (cambBasis c).omch2 + (cambBasis c).omnuh2) / c.h ^ 2 = c.omm ∧
    ((cambBasis c).ombh2 + (cambBasis c).omch2 + (cambBasis c).omnuh2) / c.h ^ 2 + c.omde + (cambBasis c).omk = 1 ∧
    (cambBasis c).ombh2 = c.omb * c.h ^ 2 ∧ (cambBasis c).hubble = 100 * c.h := by
  have h1 : (cambBasis c).ombh2 + (cambBasis c).omch2 + (cambBasis c).omnuh2 = c.omm * c.h ^ 2 := by
    simp only [cambBasis]
    ring
  have h2 : ((cambBasis c).ombh2 + (cambBasis c).omch2 + (cambBasis c).omnuh2) / c.h ^ 2 = c.omm := by
    rw [h1, mul_div_cancel_right₀ _ (pow_ne_zero 2 hh)]
  refine ⟨h2, ?_, ?_, rfl⟩
  · rw [h2]
    simp only [cambBasis]
    ring
  · simp only [cambBasis]
    ring

theorem roundEven_near (x : ℚ) : |(roundEven x : ℚ) - x| ≤ 1 / 2 := by
  have h1 := Int.floor_le x
  have h2 := Int.lt_floor_add_one x
  unfold roundEven
  rw [abs_le]
  split
  · constructor <;> linarith
  · split
    · push_cast
      constructor <;> linarith
    · have : x - ⌊x⌋ = 1 / 2 := le_antisymm (not_lt.mp ‹_›) (not_lt.mp ‹_›)
      split
      · constructor <;> linarith
      · push_cast
        constructor <;> linarith

theorem roundEven_int (m : Int) : roundEven (m : ℚ) = m := by
  unfold roundEven
  rw [Int.floor_intCast, sub_self, if_pos (by norm_num)]

/-- CLASS: baryons, cold dark matter and neutrinos add up to the matter density. -/
theorem class_matter (c : Cosmo ℚ) :
    (classBasis c).omegaB + (classBasis c).omegaCdm + c.mnu / (9314 / 100 * c.h * c.h) = c.omm := by
  simp only [classBasis, classOmnu]
  ring

/-- CLASS: matter, dark energy and curvature add up to one up to half a millionth, and exactly when the curvature has at
most six decimal digits, in particular for flat cosmologies. -/
theorem class_closure_partial (c : Cosmo ℚ) :
    |c.omm + (classBasis c).omegaFld + (classBasis c).omegaK - 1| ≤ 1 / 2000000 ∧
    (c.omm + (classBasis c).omegaFld + (classBasis c).omegaK = 1 ↔ ∃ m : Int, 1 - c.omm - c.omde = m / 1000000) := by
  have h := roundEven_near ((1 - c.omm - c.omde) * 1000000)
  simp only [classBasis, round6]
  constructor
  · have e : c.omm + c.omde + (roundEven ((1 - c.omm - c.omde) * 1000000) : ℚ) / 1000000 - 1 =
        ((roundEven ((1 - c.omm - c.omde) * 1000000) : ℚ) - (1 - c.omm - c.omde) * 1000000) / 1000000 := by
      ring
    rw [e, abs_div, abs_of_pos (show (0 : ℚ) < 1000000 by norm_num), div_le_iff₀ (by norm_num)]
    linarith
  · constructor
    · intro e
      exact ⟨roundEven ((1 - c.omm - c.omde) * 1000000), by linarith⟩
    · rintro ⟨m, hm⟩
      have e : (1 - c.omm - c.omde) * 1000000 = (m : ℚ) := by
        rw [hm]
        ring
      rw [e, roundEven_int, ← hm]
      ring

/-- Witness: a small curvature is dropped altogether. -/
theorem class_not_closed : (classBasis ⟨7 / 10, 3 / 10, 1 / 20, 0, 6999997 / 10000000⟩).omegaK = 0 ∧
    (3 / 10 : ℚ) + (classBasis ⟨7 / 10, 3 / 10, 1 / 20, 0, 6999997 / 10000000⟩).omegaFld +
      (classBasis ⟨7 / 10, 3 / 10, 1 / 20, 0, 6999997 / 10000000⟩).omegaK ≠ 1 := by
  decide +kernel

/-! ### C71: amplitude -/

/-- When σ₈² is proportional to the amplitude, the loop ends, after at most two evaluations, with the amplitude that
gives the requested σ₈ — provided the requested value is not the starting guess. -/
theorem tune_partial {K : Type} [Field K] [LinearOrder K] [IsStrictOrderedRing K] (f : K → K) (a sigma8 tol amp : K)
    (hf : ∀ x, 0 < x → 0 < f x ∧ f x ^ 2 = a * x) (hs : 0 < sigma8) (ht : 0 ≤ tol) (hamp : 0 < amp) (ev : K)
    (hev : tol < |(sigma8 - ev) / sigma8|) :
    ∃ r, f r = sigma8 ∧ 0 < r ∧ ∀ n, tune f sigma8 tol (n + 3) ev amp = some r := by
  obtain ⟨h1, h2⟩ := hf amp hamp
  have hr : 0 < amp * (sigma8 / f amp) ^ 2 := by positivity
  obtain ⟨h3, h4⟩ := hf _ hr
  have e : f (amp * (sigma8 / f amp) ^ 2) = sigma8 := by
    have : f (amp * (sigma8 / f amp) ^ 2) ^ 2 = sigma8 ^ 2 := by
      rw [h4, ← mul_assoc, ← h2, div_pow, mul_div_cancel₀ _ (pow_ne_zero 2 h1.ne')]
    exact (pow_left_inj₀ h3.le hs.le (by norm_num)).mp this
  refine ⟨_, e, hr, fun n => ?_⟩
  rw [tune, if_pos hev, tune]
  by_cases h : tol < |(sigma8 - f amp) / sigma8|
  · rw [if_pos h, e, div_self hs.ne', one_pow, mul_one, tune, sub_self, zero_div, abs_zero, if_neg (not_lt.mpr ht)]
  · rw [if_neg h]

/-- Witness: when the starting guess is requested the amplitude is left as it is, whatever σ₈ it gives. -/
theorem tune_skipped {K : Type} [Field K] [LinearOrder K] [IsStrictOrderedRing K] (f : K → K) (tol amp : K)
    (ht : 0 ≤ tol) (n : Nat) : tune f 10 tol (n + 1) 10 amp = some amp := by
  rw [tune, sub_self, zero_div, abs_zero, if_neg (not_lt.mpr ht)]

/-- The result is never farther from the requested σ₈ than the step before the last: if the loop ends after a change of
amplitude, the last σ₈ computed by CAMB agreed with the requested one up to the tolerance. -/
theorem tune_converged {K : Type} [Field K] [LinearOrder K] [IsStrictOrderedRing K] (f : K → K) (sigma8 tol : K) (n : Nat)
    (ev amp r : K) (h : tune f sigma8 tol n ev amp = some r) :
    (r = amp ∧ |(sigma8 - ev) / sigma8| ≤ tol) ∨
    ∃ x, r = x * (sigma8 / f x) ^ 2 ∧ |(sigma8 - f x) / sigma8| ≤ tol := by
  induction n generalizing ev amp with
  | zero => exact absurd h (by simp [tune])
  | succ n ih =>
    rw [tune] at h
    by_cases hc : tol < |(sigma8 - ev) / sigma8|
    · rw [if_pos hc] at h
      rcases ih _ _ h with ⟨h1, h2⟩ | h1
      · exact Or.inr ⟨amp, h1, h2⟩
      · exact Or.inr h1
    · rw [if_neg hc] at h
      exact Or.inl ⟨(Option.some.inj h).symm, not_lt.mp hc⟩

end Seyfert.Boltzmann
