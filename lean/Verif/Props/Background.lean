import Verif.Model.Background
import Verif.Props.Boltzmann
import Verif.Lemmas.PyDict
import Mathlib.Analysis.SpecialFunctions.Pow.Deriv
import Mathlib.Analysis.SpecialFunctions.Sqrt
import Mathlib.Analysis.Calculus.Deriv.MeanValue
import Mathlib.MeasureTheory.Integral.IntervalIntegral.FundThmCalculus
import Mathlib.Analysis.SpecialFunctions.Integrals.Basic

/-!
Expansion, distances and growth: the dark energy term solves the continuity equation, distances and growth
have the properties that follow.
-/

set_option linter.unusedSectionVars false

namespace Seyfert.Background

open scoped Real
open Set

/-! ### Checks on construction -/

theorem roundEven_zero_iff (x : ℚ) : Boltzmann.roundEven x = 0 ↔ |x| ≤ 1 / 2 := by
  constructor
  · intro h
    have := Boltzmann.roundEven_near x
    rw [h] at this
    simpa using this
  · intro h
    rw [abs_le] at h
    unfold Boltzmann.roundEven
    by_cases h0 : 0 ≤ x
    · have hf : ⌊x⌋ = 0 := Int.floor_eq_iff.mpr ⟨by simpa using h0, by push_cast; linarith [h.2]⟩
      rw [hf]
      simp only [Int.cast_zero, sub_zero]
      by_cases h1 : x < 1 / 2
      · rw [if_pos h1]
      · rw [if_neg h1, if_neg (by linarith [h.2]), if_pos (by decide)]
    · push Not at h0
      have hf : ⌊x⌋ = -1 := Int.floor_eq_iff.mpr ⟨by push_cast; linarith [h.1], by push_cast; linarith⟩
      rw [hf]
      simp only [Int.cast_neg, Int.cast_one]
      rw [if_neg (by linarith [h.1])]
      by_cases h1 : 1 / 2 < x - -1
      · rw [if_pos h1]; rfl
      · rw [if_neg h1, if_neg (by decide)]; rfl

/-- A cosmology is accepted as flat, or not as flat, exactly when `w0` is below one, `wa` between minus two
and two, and a flat one has densities that add up to one within half of the tenth decimal. -/
theorem check_iff (p : Dict Str (ℚ × ℚ)) (flat : Bool) :
    create (some p) (some flat) = .ok () ↔
      (∀ v, p.lookup "w0".toList = some v → v.1 < 1 ∧ v.2 < 1) ∧
      (∀ v, p.lookup "wa".toList = some v → |v.1| < 2 ∧ |v.2| < 2) ∧
      (flat = true → ∃ m d, p.lookup "Omm".toList = some m ∧ p.lookup "OmDE".toList = some d ∧
        |1 - (m.2 + d.2)| ≤ 1 / 20000000000) := by
  show check p flat = .ok () ↔ _
  unfold check
  generalize p.lookup "w0".toList = a
  generalize p.lookup "wa".toList = b
  generalize p.lookup "Omm".toList = m
  generalize p.lookup "OmDE".toList = d
  have key : ∀ (o : Option (ℚ × ℚ)) (q : ℚ × ℚ → Bool), o.any q = true ↔ ∃ v, o = some v ∧ q v = true := by
    intro o q; cases o <;> simp
  by_cases ha : a.any (fun v => decide (1 ≤ v.1 ∨ 1 ≤ v.2)) = true
  · rw [if_pos ha]
    obtain ⟨v, hv, h⟩ := (key _ _).mp ha
    have h := of_decide_eq_true h
    refine ⟨fun h => (by cases h), fun hh => ?_⟩
    obtain ⟨h1, h2⟩ := hh.1 v hv
    rcases h with h | h <;> linarith
  rw [if_neg ha]
  have ha' : ∀ v, a = some v → v.1 < 1 ∧ v.2 < 1 := by
    intro v hv
    have : ¬ (1 ≤ v.1 ∨ 1 ≤ v.2) := fun hc => ha ((key _ _).mpr ⟨v, hv, decide_eq_true hc⟩)
    push Not at this
    exact this
  by_cases hb : b.any (fun v => decide (2 ≤ |v.1| ∨ 2 ≤ |v.2|)) = true
  · rw [if_pos hb]
    obtain ⟨v, hv, h⟩ := (key _ _).mp hb
    have h := of_decide_eq_true h
    refine ⟨fun h => (by cases h), fun hh => ?_⟩
    obtain ⟨h1, h2⟩ := hh.2.1 v hv
    rcases h with h | h <;> linarith
  rw [if_neg hb]
  have hb' : ∀ v, b = some v → |v.1| < 2 ∧ |v.2| < 2 := by
    intro v hv
    have : ¬ (2 ≤ |v.1| ∨ 2 ≤ |v.2|) := fun hc => hb ((key _ _).mpr ⟨v, hv, decide_eq_true hc⟩)
    push Not at this
    exact this
  cases flat with
  | false => simp only [Bool.false_eq_true, if_false, true_iff]; exact ⟨ha', hb', by simp⟩
  | true =>
    rw [if_pos rfl]
    cases m with
    | none => exact ⟨fun h => (by cases h), fun h => by obtain ⟨_, _, h, _⟩ := h.2.2 rfl; cases h⟩
    | some m =>
      cases d with
      | none => exact ⟨fun h => (by cases h), fun h => by obtain ⟨_, _, _, h, _⟩ := h.2.2 rfl; cases h⟩
      | some d =>
        have hr : round10 (1 - (m.2 + d.2)) = 0 ↔ |1 - (m.2 + d.2)| ≤ 1 / 20000000000 := by
          unfold round10
          rw [div_eq_zero_iff]
          simp only [Int.cast_eq_zero, OfNat.ofNat_ne_zero, or_false]
          rw [roundEven_zero_iff, abs_mul, abs_of_pos (by norm_num : (0 : ℚ) < 10000000000),
            ← le_div_iff₀ (by norm_num)]
          norm_num
        simp only
        by_cases hz : round10 (1 - (m.2 + d.2)) = 0
        · rw [if_neg (by simpa using hz)]
          simp only [true_iff]
          exact ⟨ha', hb', fun _ => ⟨m, d, rfl, rfl, hr.mp hz⟩⟩
        · rw [if_pos hz]
          refine ⟨fun h => (by cases h), fun h => ?_⟩
          obtain ⟨m', d', hm, hd, h⟩ := h.2.2 (by trivial)
          obtain rfl := Option.some.inj hm
          obtain rfl := Option.some.inj hd
          exact absurd (hr.mpr h) hz

/-- Parameters and flatness are given together or not at all. -/
theorem create_together (p : Option (Dict Str (ℚ × ℚ))) (flat : Option Bool)
    (h : create p flat = .ok ()) : p.isSome = flat.isSome := by
  cases p <;> cases flat <;> first | rfl | cases h

/-- A cosmology accepted as flat need not be flat. -/
theorem accepted_not_flat : ∃ (p : Dict Str (ℚ × ℚ)) (m d : ℚ × ℚ), create (some p) (some true) = .ok () ∧
    p.lookup "Omm".toList = some m ∧ p.lookup "OmDE".toList = some d ∧ m.2 + d.2 ≠ 1 :=
  ⟨[("Omm".toList, (1 / 4, 1 / 4)), ("OmDE".toList, (3 / 4, 3 / 4 + 1 / 100000000000))], _, _,
    by decide +kernel, by rfl, by rfl, by norm_num⟩

/-! ### Dark energy -/

/-- The equation of state of dark energy. -/
noncomputable def w (c : Pars) (z : ℝ) : ℝ := c.w0 + c.wa * z / (1 + z)

/-- The density of dark energy relative to today: it is one today and follows the continuity equation. -/
def DarkEnergy (c : Pars) (f : ℝ → ℝ) : Prop :=
  f 0 = 1 ∧ ∀ z, -1 < z → HasDerivAt f (3 * (1 + w c z) / (1 + z) * f z) z

/-- The factor in the code. -/
noncomputable def factor (c : Pars) (z : ℝ) : ℝ :=
  (1 + z) ^ (3 * (1 + c.w0 + c.wa)) * Real.exp (-3 * c.wa * z / (1 + z))

theorem factor_pos (c : Pars) {z : ℝ} (hz : -1 < z) : 0 < factor c z :=
  mul_pos (Real.rpow_pos_of_pos (by linarith) _) (Real.exp_pos _)

theorem factor_darkEnergy (c : Pars) : DarkEnergy c (factor c) := by
  refine ⟨by simp [factor], fun z hz => ?_⟩
  have h1 : (1 + z) ≠ 0 := by linarith
  have hpos : 0 < 1 + z := by linarith
  have hb : HasDerivAt (fun z : ℝ => 1 + z) 1 z := by simpa using (hasDerivAt_id z).const_add 1
  have ha : HasDerivAt (fun z : ℝ => (1 + z) ^ (3 * (1 + c.w0 + c.wa)))
      (1 * (3 * (1 + c.w0 + c.wa)) * (1 + z) ^ (3 * (1 + c.w0 + c.wa) - 1)) z :=
    hb.rpow_const (Or.inl h1)
  have hn : HasDerivAt (fun z : ℝ => -3 * c.wa * z) (-3 * c.wa) z := by
    simpa using (hasDerivAt_id z).const_mul (-3 * c.wa)
  have he := (hn.div hb h1).exp
  have := ha.mul he
  refine this.congr_deriv ?_
  unfold factor w
  rw [Real.rpow_sub_one h1]
  simp only [Pi.div_apply]
  field_simp
  ring

theorem darkEnergy_eq (c : Pars) {f : ℝ → ℝ} (hf : DarkEnergy c f) {z : ℝ} (hz : -1 < z) :
    f z = factor c z := by
  have hq : ∀ x, -1 < x → HasDerivAt (fun x => f x / factor c x) 0 x := by
    intro x hx
    have := (hf.2 x hx).div ((factor_darkEnergy c).2 x hx) (factor_pos c hx).ne'
    refine this.congr_deriv ?_
    have := (factor_pos c hx).ne'
    field_simp
    ring
  have hcont : ContinuousOn (fun x => f x / factor c x) (Ioi (-1)) := fun x hx =>
    (hq x hx).continuousAt.continuousWithinAt
  have hdiff : DifferentiableOn ℝ (fun x => f x / factor c x) (interior (Ioi (-1))) := by
    rw [interior_Ioi]
    exact fun x hx => (hq x hx).differentiableAt.differentiableWithinAt
  have hm := monotoneOn_of_deriv_nonneg (convex_Ioi (-1)) hcont hdiff
    (by rw [interior_Ioi]; exact fun x hx => (hq x hx).deriv.ge)
  have ha := antitoneOn_of_deriv_nonpos (convex_Ioi (-1)) hcont hdiff
    (by rw [interior_Ioi]; exact fun x hx => (hq x hx).deriv.le)
  have h0 : (0 : ℝ) ∈ Ioi (-1 : ℝ) := by simp
  have hz' : z ∈ Ioi (-1 : ℝ) := hz
  have e : f z / factor c z = f 0 / factor c 0 := by
    rcases le_total z 0 with h | h
    · exact le_antisymm (hm hz' h0 h) (ha hz' h0 h)
    · exact le_antisymm (ha h0 hz' h) (hm h0 hz' h)
  rw [hf.1, (factor_darkEnergy c).1, div_one, div_eq_one_iff_eq (factor_pos c hz).ne'] at e
  exact e

/-- The expansion rate is that of the Friedmann equation with matter, curvature, and dark energy whatever
function solves its continuity equation; and there is one that does. -/
theorem friedmann (c : Pars) :
    (∃ f, DarkEnergy c f) ∧ ∀ f, DarkEnergy c f → ∀ z, -1 < z →
      0 ≤ c.Omm * (1 + z) ^ 3 + c.OmDE * f z + (1 - c.Omm - c.OmDE) * (1 + z) ^ 2 →
      E c z ^ 2 = c.Omm * (1 + z) ^ 3 + c.OmDE * f z + (1 - c.Omm - c.OmDE) * (1 + z) ^ 2 ∧ 0 ≤ E c z := by
  refine ⟨⟨_, factor_darkEnergy c⟩, fun f hf z hz h => ?_⟩
  rw [darkEnergy_eq c hf hz] at h ⊢
  have hr : radicand c z = c.Omm * (1 + z) ^ 3 + c.OmDE * factor c z
      + (1 - c.Omm - c.OmDE) * (1 + z) ^ 2 := by unfold radicand factor; ring
  exact ⟨by unfold E; rw [hr, Real.sq_sqrt h], Real.sqrt_nonneg _⟩

/-- Today the expansion rate is the Hubble constant, whatever the densities. -/
theorem hubble_today (c : Pars) : E c 0 = 1 ∧ H c 0 = 100 * c.h := by
  have : E c 0 = 1 := by unfold E radicand; simp
  exact ⟨this, by unfold H H0; rw [this]; ring⟩

/-- Densities that are not negative, the curvature included. -/
structure Physical (c : Pars) : Prop where
  matter : 0 ≤ c.Omm
  dark : 0 ≤ c.OmDE
  curvature : c.Omm + c.OmDE ≤ 1

theorem radicand_pos {c : Pars} (hc : Physical c) {z : ℝ} (hz : -1 < z) : 0 < radicand c z := by
  have h1 : 0 < 1 + z := by linarith
  have hf := factor_pos c hz
  have hr : radicand c z = c.Omm * (1 + z) ^ 3 + c.OmDE * factor c z
      + (1 - c.Omm - c.OmDE) * (1 + z) ^ 2 := by unfold radicand factor; ring
  rw [hr]
  have a := mul_nonneg hc.matter (pow_pos h1 3).le
  have b := mul_nonneg hc.dark hf.le
  have d := mul_nonneg (by linarith [hc.curvature] : 0 ≤ 1 - c.Omm - c.OmDE) (pow_pos h1 2).le
  by_contra hcon
  push Not at hcon
  have a0 : c.Omm = 0 := by
    rcases eq_or_lt_of_le hc.matter with h | h
    · exact h.symm
    · have := mul_pos h (pow_pos h1 3); linarith
  have b0 : c.OmDE = 0 := by
    rcases eq_or_lt_of_le hc.dark with h | h
    · exact h.symm
    · have := mul_pos h hf; linarith
  rw [a0, b0] at hcon
  have := pow_pos h1 2
  norm_num at hcon
  linarith

/-- The expansion rate is positive for all redshifts when no density is negative. -/
theorem hubble_pos_partial {c : Pars} (hc : Physical c) {z : ℝ} (hz : -1 < z) :
    0 < radicand c z ∧ 0 < E c z := ⟨radicand_pos hc hz, Real.sqrt_pos.mpr (radicand_pos hc hz)⟩

/-- With negative curvature density it need not exist: the root of a negative number is asked for, although
the parameters are accepted. -/
theorem hubble_undefined :
    create (some [("Omm".toList, (0, 0)), ("OmDE".toList, (2, 2)), ("w0".toList, (-1, -1)),
      ("wa".toList, (0, 0))]) (some false) = .ok () ∧ radicand ⟨1, -1, 0, 0, 2, 1⟩ 1 < 0 := by
  refine ⟨by decide +kernel, ?_⟩
  unfold radicand
  norm_num

/-! ### Distances -/

theorem radicand_continuousOn (c : Pars) : ContinuousOn (radicand c) (Ioi (-1)) := by
  have hr : radicand c = fun z => c.Omm * (1 + z) ^ 3 + c.OmDE * factor c z
      + (1 - c.Omm - c.OmDE) * (1 + z) ^ 2 := by funext z; unfold radicand factor; ring
  rw [hr]
  have hf : ContinuousOn (factor c) (Ioi (-1)) := fun x hx =>
    ((factor_darkEnergy c).2 x hx).continuousAt.continuousWithinAt
  fun_prop

theorem inv_continuousOn {c : Pars} (hc : Physical c) : ContinuousOn (fun z => 1 / E c z) (Ioi (-1)) :=
  continuousOn_const.div (radicand_continuousOn c).sqrt fun _ hz => (hubble_pos_partial hc hz).2.ne'

theorem uIcc_sub {a b : ℝ} (ha : -1 < a) (hb : -1 < b) : uIcc a b ⊆ Ioi (-1) := fun _ hx =>
  lt_of_lt_of_le (lt_min ha hb) hx.1

theorem inv_integrable {c : Pars} (hc : Physical c) {a b : ℝ} (ha : -1 < a) (hb : -1 < b) :
    IntervalIntegrable (fun z => 1 / E c z) MeasureTheory.volume a b :=
  ((inv_continuousOn hc).mono (uIcc_sub ha hb)).intervalIntegrable

theorem rTilde_deriv {c : Pars} (hc : Physical c) {z : ℝ} (hz : -1 < z) :
    HasDerivAt (rTilde c) (1 / E c z) z :=
  intervalIntegral.integral_hasDerivAt_right (inv_integrable hc (by norm_num) hz)
    ((inv_continuousOn hc).stronglyMeasurableAtFilter isOpen_Ioi z hz)
    ((inv_continuousOn hc).continuousAt (Ioi_mem_nhds hz))

/-- The distance is zero here, grows with redshift, and grows at the rate `c / H`. -/
theorem distance_spec {c : Pars} (hc : Physical c) (hh : 0 < c.h) :
    r c 0 = 0 ∧ (∀ z, -1 < z → HasDerivAt (r c) (cLight / H c z) z) ∧ StrictMonoOn (r c) (Ioi (-1)) := by
  have hd : ∀ z, -1 < z → HasDerivAt (r c) (cLight / H c z) z := by
    intro z hz
    refine ((rTilde_deriv hc hz).const_mul (cLight / H0 c)).congr_deriv ?_
    unfold H
    rw [div_mul_div_comm, mul_one]
  refine ⟨by unfold r rTilde; simp, hd, ?_⟩
  refine strictMonoOn_of_deriv_pos (convex_Ioi _) (fun x hx => (hd x hx).continuousAt.continuousWithinAt) ?_
  rw [interior_Ioi]
  intro x hx
  rw [(hd x hx).deriv]
  refine div_pos (by unfold cLight; norm_num) (mul_pos (by unfold H0; linarith) (hubble_pos_partial hc hx).2)

/-- These properties determine the distance. -/
theorem distance_unique {c : Pars} (hc : Physical c) (d : ℝ → ℝ) (h0 : d 0 = 0)
    (hd : ∀ z, -1 < z → HasDerivAt d (cLight / H c z) z) {z : ℝ} (hz : -1 < z) : d z = r c z := by
  have hq : ∀ x, -1 < x → HasDerivAt (fun x => d x - r c x) 0 x := by
    intro x hx
    refine ((hd x hx).sub ((rTilde_deriv hc hx).const_mul (cLight / H0 c))).congr_deriv ?_
    unfold H
    rw [div_mul_div_comm, mul_one, sub_self]
  have hcont : ContinuousOn (fun x => d x - r c x) (Ioi (-1)) := fun x hx =>
    (hq x hx).continuousAt.continuousWithinAt
  have hdiff : DifferentiableOn ℝ (fun x => d x - r c x) (interior (Ioi (-1))) := by
    rw [interior_Ioi]
    exact fun x hx => (hq x hx).differentiableAt.differentiableWithinAt
  have hm := monotoneOn_of_deriv_nonneg (convex_Ioi (-1)) hcont hdiff
    (by rw [interior_Ioi]; exact fun x hx => (hq x hx).deriv.ge)
  have ha := antitoneOn_of_deriv_nonpos (convex_Ioi (-1)) hcont hdiff
    (by rw [interior_Ioi]; exact fun x hx => (hq x hx).deriv.le)
  have h0' : (0 : ℝ) ∈ Ioi (-1 : ℝ) := by simp
  have hz' : z ∈ Ioi (-1 : ℝ) := hz
  have e : d z - r c z = d 0 - r c 0 := by
    rcases le_total z 0 with h | h
    · exact le_antisymm (hm hz' h0' h) (ha hz' h0' h)
    · exact le_antisymm (ha h0' hz' h) (hm h0' hz' h)
  rw [h0, show r c 0 = 0 by unfold r rTilde; simp] at e
  linarith

/-- The Hubble constant only sets the scale: distances times `h` do not depend on it. -/
theorem distance_scale (c : Pars) (h' : ℝ) (h0 : c.h ≠ 0) (h1 : h' ≠ 0) (z : ℝ) :
    h' * r { c with h := h' } z = c.h * r c z := by
  have : rTilde { c with h := h' } z = rTilde c z := rfl
  unfold r H0
  rw [this]
  field_simp

/-! ### Expansion history with dark energy that is not phantom -/

theorem radicand_mono {c : Pars} (hc : Physical c) (h1 : -1 ≤ c.w0) (h2 : -1 ≤ c.w0 + c.wa) :
    MonotoneOn (radicand c) (Ici 0) := by
  have hr : radicand c = fun z => c.Omm * (1 + z) ^ 3 + c.OmDE * factor c z
      + (1 - c.Omm - c.OmDE) * (1 + z) ^ 2 := by funext z; unfold radicand factor; ring
  have hfm : MonotoneOn (factor c) (Ici 0) := by
    have hsub : ∀ x ∈ Ici (0 : ℝ), -1 < x := fun x hx => by have : (0 : ℝ) ≤ x := hx; linarith
    refine monotoneOn_of_deriv_nonneg (convex_Ici 0)
      (fun x hx => ((factor_darkEnergy c).2 x (hsub x hx)).continuousAt.continuousWithinAt) ?_ ?_
    · rw [interior_Ici]
      exact fun x hx => ((factor_darkEnergy c).2 x (by have : (0 : ℝ) < x := hx; linarith)).differentiableAt.differentiableWithinAt
    · rw [interior_Ici]
      intro x hx
      have hx : (0 : ℝ) < x := hx
      rw [((factor_darkEnergy c).2 x (by linarith)).deriv]
      refine mul_nonneg (div_nonneg (mul_nonneg (by norm_num) ?_) (by linarith)) (factor_pos c (by linarith)).le
      unfold w
      have hpos : 0 < 1 + x := by linarith
      have e : 1 + (c.w0 + c.wa * x / (1 + x)) = ((1 + c.w0) + x * (1 + (c.w0 + c.wa))) / (1 + x) := by
        field_simp
        ring
      rw [e]
      exact div_nonneg (add_nonneg (by linarith) (mul_nonneg hx.le (by linarith))) hpos.le
  intro x hx y hy hxy
  have hx' : (0 : ℝ) ≤ x := hx
  rw [hr]
  have a : (1 + x) ^ 3 ≤ (1 + y) ^ 3 := pow_le_pow_left₀ (by linarith) (by linarith) 3
  have b : (1 + x) ^ 2 ≤ (1 + y) ^ 2 := pow_le_pow_left₀ (by linarith) (by linarith) 2
  have d := hfm hx hy hxy
  have := mul_le_mul_of_nonneg_left a hc.matter
  have := mul_le_mul_of_nonneg_left d hc.dark
  have := mul_le_mul_of_nonneg_left b (by linarith [hc.curvature] : 0 ≤ 1 - c.Omm - c.OmDE)
  simp only
  linarith

/-- When the pressure of dark energy is never below minus its density, the expansion rate grows with
redshift, so that it is at least its value today, and distances are at most those of Hubble's law. -/
theorem not_phantom {c : Pars} (hc : Physical c) (hh : 0 < c.h) (h1 : -1 ≤ c.w0) (h2 : -1 ≤ c.w0 + c.wa) :
    MonotoneOn (E c) (Ici 0) ∧ ∀ z, 0 ≤ z → 1 ≤ E c z ∧ 0 ≤ r c z ∧ r c z ≤ cLight / (100 * c.h) * z := by
  have hm : MonotoneOn (E c) (Ici 0) := fun x hx y hy hxy =>
    Real.sqrt_le_sqrt (radicand_mono hc h1 h2 hx hy hxy)
  have hge : ∀ z, 0 ≤ z → 1 ≤ E c z := fun z hz => by
    have := hm (mem_Ici.mpr le_rfl) (mem_Ici.mpr hz) hz
    rwa [(hubble_today c).1] at this
  have hcl : 0 < cLight / H0 c := div_pos (by unfold cLight; norm_num) (by unfold H0; linarith)
  refine ⟨hm, fun z hz => ⟨hge z hz, ?_, ?_⟩⟩
  · refine mul_nonneg hcl.le (intervalIntegral.integral_nonneg hz fun x _ => ?_)
    exact div_nonneg zero_le_one (Real.sqrt_nonneg _)
  · have : rTilde c z ≤ ∫ _x in (0 : ℝ)..z, (1 : ℝ) := by
      refine intervalIntegral.integral_mono_on hz (inv_integrable hc (by norm_num) (by linarith))
        intervalIntegrable_const fun x hx => ?_
      have := hge x hx.1
      rw [div_le_one (by linarith)]
      exact this
    rw [intervalIntegral.integral_const, smul_eq_mul, mul_one, sub_zero] at this
    have e : cLight / (100 * c.h) = cLight / H0 c := by unfold H0; rw [mul_comm]
    rw [e]
    exact mul_le_mul_of_nonneg_left this hcl.le

/-! ### Growth -/

/-- The fraction of matter is that of today at redshift zero, and always between zero and one. -/
theorem omegaM_spec {c : Pars} (hc : Physical c) :
    omegaM c 0 = c.Omm ∧ ∀ z, -1 < z → 0 ≤ omegaM c z ∧ omegaM c z ≤ 1 := by
  refine ⟨by unfold omegaM; rw [(hubble_today c).1]; simp, fun z hz => ?_⟩
  have h1 : 0 < 1 + z := by linarith
  have hE : E c z ^ 2 = radicand c z := Real.sq_sqrt (radicand_pos hc hz).le
  unfold omegaM
  rw [hE]
  refine ⟨div_nonneg (mul_nonneg hc.matter (pow_pos h1 3).le) (radicand_pos hc hz).le, ?_⟩
  rw [div_le_one (radicand_pos hc hz)]
  have hr : radicand c z = c.Omm * (1 + z) ^ 3 + c.OmDE * factor c z
      + (1 - c.Omm - c.OmDE) * (1 + z) ^ 2 := by unfold radicand factor; ring
  rw [hr]
  have b := mul_nonneg hc.dark (factor_pos c hz).le
  have d := mul_nonneg (by linarith [hc.curvature] : 0 ≤ 1 - c.Omm - c.OmDE) (pow_pos h1 2).le
  linarith

theorem logGrowth_continuousOn {c : Pars} (hc : Physical c) (hg : 0 ≤ c.gamma) :
    ContinuousOn (logGrowth c) (Ioi (-1)) := by
  have hE : ContinuousOn (E c) (Ioi (-1)) := (radicand_continuousOn c).sqrt
  have ho : ContinuousOn (omegaM c) (Ioi (-1)) := by
    refine ContinuousOn.div (by fun_prop) (hE.pow 2) fun z hz => ?_
    exact pow_ne_zero 2 (hubble_pos_partial hc hz).2.ne'
  refine ContinuousOn.div (ho.rpow_const fun _ _ => Or.inr hg) (by fun_prop) fun z hz => ?_
  have : (-1 : ℝ) < z := hz
  linarith

theorem logGrowth_integrable {c : Pars} (hc : Physical c) (hg : 0 ≤ c.gamma) {a b : ℝ} (ha : -1 < a)
    (hb : -1 < b) : IntervalIntegrable (logGrowth c) MeasureTheory.volume a b :=
  ((logGrowth_continuousOn hc hg).mono (uIcc_sub ha hb)).intervalIntegrable

/-- The growth factor is one today, its logarithmic derivative is the given power of the fraction of
matter, it never grows with redshift, and it falls at most as fast as the scale factor. -/
theorem growth_spec {c : Pars} (hc : Physical c) (hg : 0 ≤ c.gamma) :
    growth c 0 = 1 ∧
    (∀ z, -1 < z → HasDerivAt (growth c) (-(omegaM c z ^ c.gamma / (1 + z)) * growth c z) z) ∧
    AntitoneOn (growth c) (Ioi (-1)) ∧
    ∀ z, 0 ≤ z → 1 / (1 + z) ≤ growth c z ∧ growth c z ≤ 1 := by
  have h0 : growth c 0 = 1 := by unfold growth; simp
  have hd : ∀ z, -1 < z → HasDerivAt (growth c) (-(omegaM c z ^ c.gamma / (1 + z)) * growth c z) z := by
    intro z hz
    have := intervalIntegral.integral_hasDerivAt_right (logGrowth_integrable hc hg (by norm_num : (-1 : ℝ) < 0) hz)
      ((logGrowth_continuousOn hc hg).stronglyMeasurableAtFilter isOpen_Ioi z hz)
      ((logGrowth_continuousOn hc hg).continuousAt (Ioi_mem_nhds hz))
    refine this.neg.exp.congr_deriv ?_
    show Real.exp (-∫ x in (0 : ℝ)..z, logGrowth c x) * -logGrowth c z =
      -(omegaM c z ^ c.gamma / (1 + z)) * Real.exp (-∫ x in (0 : ℝ)..z, logGrowth c x)
    rw [mul_comm]
    rfl
  have hanti : AntitoneOn (growth c) (Ioi (-1)) := by
    refine antitoneOn_of_deriv_nonpos (convex_Ioi _) (fun x hx => (hd x hx).continuousAt.continuousWithinAt) ?_ ?_
    · rw [interior_Ioi]
      exact fun x hx => (hd x hx).differentiableAt.differentiableWithinAt
    · rw [interior_Ioi]
      intro x hx
      have hx' : (-1 : ℝ) < x := hx
      rw [(hd x hx).deriv]
      have a : 0 ≤ omegaM c x ^ c.gamma / (1 + x) :=
        div_nonneg (Real.rpow_nonneg ((omegaM_spec hc).2 x hx).1 _) (by linarith)
      have := mul_nonneg a (Real.exp_pos (-∫ x in (0 : ℝ)..x, logGrowth c x)).le
      rw [neg_mul]
      exact neg_nonpos.mpr this
  refine ⟨h0, hd, hanti, fun z hz => ⟨?_, ?_⟩⟩
  · have hle : (∫ x in (0 : ℝ)..z, logGrowth c x) ≤ ∫ x in (0 : ℝ)..z, 1 / (1 + x) := by
      refine intervalIntegral.integral_mono_on hz (logGrowth_integrable hc hg (by norm_num) (by linarith)) ?_ ?_
      · refine ContinuousOn.intervalIntegrable ?_
        refine ContinuousOn.div (by fun_prop) (by fun_prop) fun x hx => ?_
        have : (-1 : ℝ) < x := uIcc_sub (by norm_num) (by linarith) hx
        linarith
      · intro x hx
        have hx1 : (-1 : ℝ) < x := by linarith [hx.1]
        have ho := (omegaM_spec hc).2 x hx1
        exact div_le_div_of_nonneg_right (Real.rpow_le_one ho.1 ho.2 hg) (by linarith)
    have hlog : (∫ x in (0 : ℝ)..z, 1 / (1 + x)) = Real.log (1 + z) := by
      have := intervalIntegral.integral_comp_add_left (a := 0) (b := z) (fun x : ℝ => 1 / x) 1
      rw [this, add_zero, integral_one_div_of_pos (by norm_num) (by linarith), div_one]
    rw [hlog] at hle
    have : Real.exp (-Real.log (1 + z)) ≤ growth c z := Real.exp_le_exp.mpr (by linarith)
    rwa [Real.exp_neg, Real.exp_log (by linarith), ← one_div] at this
  · have := hanti (show (0 : ℝ) ∈ Ioi (-1 : ℝ) by simp) (show z ∈ Ioi (-1 : ℝ) from by
      show (-1 : ℝ) < z; linarith) hz
    rwa [h0] at this

/-- In a universe of matter only the growth factor is the scale factor. -/
theorem growth_matter (c : Pars) (hm : c.Omm = 1) (hd : c.OmDE = 0) {z : ℝ} (hz : 0 ≤ z) :
    growth c z = 1 / (1 + z) := by
  have hl : ∀ x ∈ uIcc 0 z, logGrowth c x = 1 / (1 + x) := by
    intro x hx
    have hx1 : (-1 : ℝ) < x := uIcc_sub (by norm_num) (by linarith) hx
    have hp : (0 : ℝ) < (1 + x) ^ 3 := pow_pos (by linarith) 3
    have hE : E c x ^ 2 = (1 + x) ^ 3 := by
      unfold E radicand
      rw [hm, hd, Real.sq_sqrt (by linarith)]
      ring
    unfold logGrowth omegaM
    rw [hE, hm, one_mul, div_self hp.ne', Real.one_rpow]
  unfold growth
  rw [intervalIntegral.integral_congr hl]
  have hlog : (∫ x in (0 : ℝ)..z, 1 / (1 + x)) = Real.log (1 + z) := by
    have := intervalIntegral.integral_comp_add_left (a := 0) (b := z) (fun x : ℝ => 1 / x) 1
    rw [this, add_zero, integral_one_div_of_pos (by norm_num) (by linarith), div_one]
  rw [hlog, Real.exp_neg, Real.exp_log (by linarith), ← one_div]

/-! ### Growth from the power spectrum -/

/-- When the linear spectrum is the square of a growth factor times a spectrum of today, the growth obtained
is the growth factor divided by its value at the first redshift of the grid.  Missing for the full claim: a
grid that does not begin today, see `growth_not_one_today`. -/
theorem growth_from_spectrum_partial (D p0 : Nat → ℝ) (hD : ∀ i, 0 < D i) (hp : p0 0 ≠ 0) (i : Nat) :
    growthFromP (fun i k => D i ^ 2 * p0 k) i = D i / D 0 ∧
      (D 0 = 1 → growthFromP (fun i k => D i ^ 2 * p0 k) i = D i) := by
  have h : growthFromP (fun i k => D i ^ 2 * p0 k) i = D i / D 0 := by
    unfold growthFromP
    simp only
    rw [mul_div_mul_right _ _ hp, ← div_pow, Real.sqrt_sq (div_nonneg (hD i).le (hD 0).le)]
  exact ⟨h, fun h0 => by rw [h, h0, div_one]⟩

/-- On a grid that begins later the growth obtained is one at its beginning, not today: every value is too
large. -/
theorem growth_not_one_today (D p0 : Nat → ℝ) (hD : ∀ i, 0 < D i) (hp : p0 0 ≠ 0) (h0 : D 0 < 1) :
    growthFromP (fun i k => D i ^ 2 * p0 k) 0 = 1 ∧
      ∀ i, D i < growthFromP (fun i k => D i ^ 2 * p0 k) i := by
  refine ⟨by rw [(growth_from_spectrum_partial D p0 hD hp 0).1, div_self (hD 0).ne'], fun i => ?_⟩
  rw [(growth_from_spectrum_partial D p0 hD hp i).1, lt_div_iff₀ (hD 0)]
  exact mul_lt_of_lt_one_right (hD i) h0

/-- After rescaling the growth obtained from the spectrum is the computed one relative to the beginning of
the grid, and the ratio of the two spectra is as before. -/
theorem rescale_spec (g : Nat → ℝ) (hg : ∀ i, 0 < g i) (lin P : Nat → Nat → ℝ)
    (hl : ∀ i, 0 < lin i 0) (i : Nat) :
    growthFromP (rescale g lin lin) i = g i / g 0 ∧
      ∀ k, rescale g lin P i k * lin i k = rescale g lin lin i k * P i k := by
  have hG : ∀ i, growthFromP lin i ^ 2 = lin i 0 / lin 0 0 := fun i =>
    Real.sq_sqrt (div_nonneg (hl i).le (hl 0).le)
  refine ⟨?_, fun k => by unfold rescale; ring⟩
  have hr : ∀ i, rescale g lin lin i 0 = g i ^ 2 * lin 0 0 := by
    intro i
    unfold rescale
    rw [div_pow, hG]
    have := (hl i).ne'
    have := (hl 0).ne'
    field_simp
  conv_lhs => unfold growthFromP
  rw [hr, hr, mul_div_mul_right _ _ (hl 0).ne', ← div_pow,
    Real.sqrt_sq (div_nonneg (hg i).le (hg 0).le)]

/-- Rescaling twice with the same growth factor is rescaling once, when the growth factor is one at the
beginning of the grid. -/
theorem rescale_twice (g : Nat → ℝ) (hg : ∀ i, 0 < g i) (h0 : g 0 = 1) (lin P : Nat → Nat → ℝ)
    (hl : ∀ i, 0 < lin i 0) :
    rescale g (rescale g lin lin) (rescale g lin P) = rescale g lin P := by
  funext i k
  conv_lhs => unfold rescale
  rw [show (fun i k => lin i k * (g i / growthFromP lin i) ^ 2) = rescale g lin lin from rfl,
    (rescale_spec g hg lin lin hl i).1, h0, div_one, div_self (hg i).ne', one_pow, mul_one]
  rfl

/-- The growth that an evaluated cosmology keeps is the one of its spectrum, so that rescaling with it changes
nothing. -/
theorem rescale_own (lin P : Nat → Nat → ℝ) (hl : ∀ i, 0 < lin i 0) :
    rescale (growthFromP lin) lin P = P := by
  funext i k
  have : growthFromP lin i ≠ 0 := (Real.sqrt_pos.mpr (div_pos (hl i) (hl 0))).ne'
  unfold rescale
  rw [div_self this, one_pow, mul_one]

/-! ### What is kept in the object -/

variable {Q Z S V : Type}

/-- Evaluating a cosmology that has not been evaluated stores the functions of its parameters and spectrum on
its grid, and evaluating again changes nothing. -/
theorem evaluate_fresh (fE fr : Q → Z → V) (fD : S → V) (o : Obj Q Z S V) (z : Z) (p : S)
    (hz : o.grid = some z) (hp : o.spectrum = some p) (h1 : o.hubble = none) (h2 : o.distance = none)
    (h3 : o.growth = none) :
    let o' := (evaluate fE fr fD o).1
    (evaluate fE fr fD o).2 = none ∧ o'.hubble = some (fE o.pars z) ∧ o'.distance = some (fr o.pars z) ∧
      o'.growth = some (fD p) ∧ o'.pars = o.pars ∧ o'.grid = o.grid ∧ o'.spectrum = o.spectrum ∧
      evaluate fE fr fD o' = (o', none) := by
  obtain ⟨q, _, _, _, _, _⟩ := o
  simp only at hz hp h1 h2 h3
  subst hz hp h1 h2 h3
  exact ⟨rfl, rfl, rfl, rfl, rfl, rfl, rfl, rfl⟩

/-- When it can fail: without a grid nothing changes; without a spectrum the other arrays are there, and
evaluating again once there is a spectrum gives the same as if it had been there from the beginning. -/
theorem evaluate_fails (fE fr : Q → Z → V) (fD : S → V) (o : Obj Q Z S V) :
    ((evaluate fE fr fD o).2 ≠ none ↔ o.grid = none ∨ o.spectrum = none ∧ o.growth = none) ∧
    (o.grid = none → (evaluate fE fr fD o).1 = o) ∧
    (o.spectrum = none → ∀ p, evaluate fE fr fD { (evaluate fE fr fD o).1 with spectrum := some p } =
      evaluate fE fr fD { o with spectrum := some p }) := by
  obtain ⟨q, z, s, a, b, d⟩ := o
  cases z with
  | none => exact ⟨by simp [evaluate], fun _ => rfl, fun _ _ => rfl⟩
  | some z =>
    cases d with
    | some d =>
      refine ⟨by simp [evaluate], fun h => (by cases h), fun h p => ?_⟩
      simp only at h
      subst h
      cases a <;> cases b <;> rfl
    | none =>
      cases s with
      | none => exact ⟨by simp [evaluate], fun h => (by cases h), fun _ p => by cases a <;> cases b <;> rfl⟩
      | some s => exact ⟨by simp [evaluate], fun h => (by cases h), fun h => (by cases h)⟩

/-- Other parameters, grid or spectrum after an evaluation: the values stay those of the old ones. -/
theorem background_stale (fE fr : Q → Z → V) (fD : S → V) (o : Obj Q Z S V) (z z' : Z) (p p' : S) (q' : Q)
    (hz : o.grid = some z) (hp : o.spectrum = some p) (h1 : o.hubble = none) (h2 : o.distance = none)
    (h3 : o.growth = none) :
    let o' : Obj Q Z S V := { (evaluate fE fr fD o).1 with pars := q', grid := some z', spectrum := some p' }
    let o'' := (evaluate fE fr fD o').1
    (evaluate fE fr fD o').2 = none ∧ o''.hubble = some (fE o.pars z) ∧
      o''.distance = some (fr o.pars z) ∧ o''.growth = some (fD p) := by
  obtain ⟨q, _, _, _, _, _⟩ := o
  simp only at hz hp h1 h2 h3
  subst hz hp h1 h2 h3
  exact ⟨rfl, rfl, rfl, rfl⟩

/-! ### Examples -/

/-- A flat model with a cosmological constant. -/
noncomputable def lcdm : Pars := ⟨67 / 100, -1, 0, 32 / 100, 68 / 100, 55 / 100⟩

example : Physical lcdm ∧ 0 < lcdm.h ∧ -1 ≤ lcdm.w0 ∧ -1 ≤ lcdm.w0 + lcdm.wa ∧ 0 ≤ lcdm.gamma :=
  ⟨⟨by norm_num [lcdm], by norm_num [lcdm], by norm_num [lcdm]⟩, by norm_num [lcdm], by norm_num [lcdm],
    by norm_num [lcdm], by norm_num [lcdm]⟩

example : E lcdm 1 ^ 2 = 81 / 25 := by
  unfold E
  rw [Real.sq_sqrt (by norm_num [radicand, lcdm])]
  norm_num [radicand, lcdm]

example : ∃ (D p0 : Nat → ℝ), (∀ i, 0 < D i) ∧ p0 0 ≠ 0 ∧ D 0 < 1 ∧
    growthFromP (fun i k => D i ^ 2 * p0 k) 1 = 2 / 3 :=
  ⟨fun i => 1 / (i + 2), fun _ => 5, fun i => by positivity, by norm_num, by norm_num, by
    rw [(growth_from_spectrum_partial (fun i : Nat => 1 / ((i : ℝ) + 2)) (fun _ => 5) (fun i => by positivity)
      (by norm_num) 1).1]
    norm_num⟩

example : create (some [("Omm".toList, (1 / 4, 1 / 4)), ("OmDE".toList, (3 / 4, 1 / 2))]) (some true) =
    .error .cosmology := by decide +kernel

theorem lcdm_physical : Physical lcdm := ⟨by norm_num [lcdm], by norm_num [lcdm], by norm_num [lcdm]⟩

example : 0 < radicand lcdm 2 ∧ 0 < E lcdm 2 := hubble_pos_partial lcdm_physical (by norm_num)
example : HasDerivAt (rTilde lcdm) (1 / E lcdm 1) 1 := rTilde_deriv lcdm_physical (by norm_num)
example : r lcdm 0 = 0 ∧ r lcdm 1 < r lcdm 2 :=
  have h := distance_spec lcdm_physical (by norm_num [lcdm])
  ⟨h.1, h.2.2 (by norm_num) (by norm_num) (by norm_num)⟩
example : 70 / 100 * r { lcdm with h := 70 / 100 } 1 = 67 / 100 * r lcdm 1 :=
  distance_scale lcdm (70 / 100) (by norm_num [lcdm]) (by norm_num) 1
example : radicand lcdm 1 ≤ radicand lcdm 3 :=
  radicand_mono lcdm_physical (by norm_num [lcdm]) (by norm_num [lcdm]) (by norm_num) (by norm_num) (by norm_num)
example : 1 ≤ E lcdm 1 :=
  ((not_phantom lcdm_physical (by norm_num [lcdm]) (by norm_num [lcdm]) (by norm_num [lcdm])).2 1 (by norm_num)).1
example : omegaM lcdm 0 = 32 / 100 ∧ omegaM lcdm 5 ≤ 1 :=
  have h := omegaM_spec lcdm_physical
  ⟨h.1, (h.2 5 (by norm_num)).2⟩
example : 1 / 3 ≤ growth lcdm 2 := by
  have h := ((growth_spec lcdm_physical (by norm_num [lcdm])).2.2.2 2 (by norm_num)).1
  norm_num at h ⊢
  exact h
example : growth ⟨67 / 100, -1, 0, 1, 0, 55 / 100⟩ 3 = 1 / 4 := by
  rw [growth_matter _ rfl rfl (by norm_num)]
  norm_num
example : growthFromP (rescale (fun i => 1 / ((i : ℝ) + 1)) (fun i k => (i : ℝ) + k + 1) fun i k => (i : ℝ) + k + 1) 2 = 1 / 3 := by
  rw [(rescale_spec (fun i => 1 / ((i : ℝ) + 1)) (fun i => by positivity) _ (fun i k => (i : ℝ) + k + 1)
    (fun i => by positivity) 2).1]
  norm_num

end Seyfert.Background
