import Verif.Model.Density
import Mathlib.Analysis.SpecialFunctions.Gaussian.GaussianIntegral
import Mathlib.MeasureTheory.Integral.IntervalIntegral.FundThmCalculus
import Mathlib.MeasureTheory.Integral.DominatedConvergence
import Mathlib.Tactic.FieldSimp
import Mathlib.Tactic.Linarith
import Mathlib.Tactic.Positivity

/-!
Redshift densities: normalisation, sign, sums over bins, order of calls.
-/

set_option linter.unusedSectionVars false

namespace Seyfert.Density

open scoped Real
open Set MeasureTheory

/-! ### The instrument response -/

theorem gauss_continuous (z zMean sigma c amplitude : ℝ) :
    Continuous fun zp => gauss zp z zMean sigma c amplitude := by
  unfold gauss
  fun_prop

theorem gauss_nonneg {z sigma amplitude : ℝ} (hz : -1 < z) (hs : 0 < sigma) (ha : 0 ≤ amplitude)
    (zp zMean c : ℝ) : 0 ≤ gauss zp z zMean sigma c amplitude := by
  have : 0 < 1 + z := by linarith
  exact mul_nonneg (div_nonneg ha (by positivity)) (Real.exp_pos _).le

/-- The normal distribution: over all measured redshifts it integrates to the amplitude, when the measured
redshift is not stretched. -/
theorem gauss_total {z sigma : ℝ} (hz : -1 < z) (hs : 0 < sigma) (zMean amplitude : ℝ) :
    Integrable (fun zp => gauss zp z zMean sigma 1 amplitude) ∧
      ∫ zp, gauss zp z zMean sigma 1 amplitude = amplitude := by
  have h1 : 0 < 1 + z := by linarith
  have hv : 0 < sigma * (1 + z) := mul_pos hs h1
  have hb : 0 < 1 / (2 * (sigma * (1 + z)) ^ 2) := by positivity
  have he : (fun zp => gauss zp z zMean sigma 1 amplitude) = fun zp =>
      (amplitude / (√(2 * π) * sigma * (1 + z))) *
        Real.exp (-(1 / (2 * (sigma * (1 + z)) ^ 2)) * (zp - (z - zMean)) ^ 2) := by
    funext zp
    unfold gauss
    congr 2
    ring
  rw [he]
  refine ⟨((integrable_exp_neg_mul_sq hb).comp_sub_right (z - zMean)).const_mul _, ?_⟩
  rw [integral_const_mul, integral_sub_right_eq_self
    (fun x => Real.exp (-(1 / (2 * (sigma * (1 + z)) ^ 2)) * x ^ 2)) (z - zMean), integral_gaussian]
  have e : π / (1 / (2 * (sigma * (1 + z)) ^ 2)) = (2 * π) * (sigma * (1 + z)) ^ 2 := by
    field_simp
  rw [e, Real.sqrt_mul (show (0 : ℝ) ≤ 2 * π by positivity) ((sigma * (1 + z)) ^ 2), Real.sqrt_sq hv.le]
  have : √(2 * π) ≠ 0 := (Real.sqrt_pos.mpr (by positivity)).ne'
  field_simp

/-- A response with a fraction of outliers between zero and one and positive widths. -/
structure Proper (R : Resp) : Prop where
  low : 0 ≤ R.fOut
  high : R.fOut ≤ 1
  widthB : 0 < R.sb
  widthO : 0 < R.so

theorem response_nonneg {R : Resp} (hR : Proper R) {z : ℝ} (hz : -1 < z) (zp : ℝ) : 0 ≤ response R zp z :=
  add_nonneg (gauss_nonneg hz hR.widthB (by linarith [hR.high]) _ _ _) (gauss_nonneg hz hR.widthO hR.low _ _ _)

theorem response_pos {R : Resp} (hR : Proper R) {z : ℝ} (hz : -1 < z) (zp : ℝ) : 0 < response R zp z := by
  have h1 : 0 < 1 + z := by linarith
  have hp : ∀ (s a m c : ℝ), 0 < s → 0 < a → 0 < gauss zp z m s c a := fun s a m c hs ha =>
    mul_pos (div_pos ha (by positivity)) (Real.exp_pos _)
  rcases eq_or_lt_of_le hR.low with h | h
  · exact add_pos_of_pos_of_nonneg (hp _ _ _ _ hR.widthB (by rw [← h]; norm_num))
      (gauss_nonneg hz hR.widthO hR.low _ _ _)
  · exact add_pos_of_nonneg_of_pos (gauss_nonneg hz hR.widthB (by linarith [hR.high]) _ _ _)
      (hp _ _ _ _ hR.widthO h)

theorem response_continuous (R : Resp) (z : ℝ) : Continuous fun zp => response R zp z :=
  (gauss_continuous _ _ _ _ _).add (gauss_continuous _ _ _ _ _)

/-- Every galaxy is measured somewhere: the response is a probability density of the measured redshift. -/
theorem response_total {R : Resp} (hR : Proper R) (hb : R.cb = 1) (ho : R.co = 1) {z : ℝ} (hz : -1 < z) :
    Integrable (fun zp => response R zp z) ∧ ∫ zp, response R zp z = 1 := by
  have a := gauss_total hz hR.widthB R.zb (1 - R.fOut)
  have b := gauss_total hz hR.widthO R.zo R.fOut
  unfold response
  rw [hb, ho]
  refine ⟨a.1.add b.1, ?_⟩
  rw [integral_add a.1 b.1, a.2, b.2]
  ring

/-! ### Densities per bin -/

/-- The galaxies of all bins together are never more than the galaxies there are. -/
theorem bins_at_most_total (d : Dens) (hd : d.fromInput = false) (hR : Proper d.resp) (hb : d.resp.cb = 1)
    (ho : d.resp.co = 1) (hs : Monotone d.edges) {z : ℝ} (hz : -1 < z) (hN : 0 ≤ d.dN z) :
    ∃ x : Nat → ℝ, (∀ i, convolved d i z = .ok (x i)) ∧ (∀ i, 0 ≤ x i) ∧
      ∑ i ∈ Finset.range d.n, x i ≤ d.dN z := by
  refine ⟨fun i => (∫ zp in d.edges i..d.edges (i + 1), response d.resp zp z) * d.dN z, fun i => ?_, fun i => ?_, ?_⟩
  · unfold convolved; rw [hd]; rfl
  · exact mul_nonneg (intervalIntegral.integral_nonneg (hs (Nat.le_succ i)) fun x _ => response_nonneg hR hz x) hN
  · rw [← Finset.sum_mul, intervalIntegral.sum_integral_adjacent_intervals
      (fun k _ => (response_continuous d.resp z).intervalIntegrable _ _)]
    refine mul_le_of_le_one_left hN ?_
    rw [intervalIntegral.integral_of_le (hs (Nat.zero_le _)), ← (response_total hR hb ho hz).2]
    exact setIntegral_le_integral (response_total hR hb ho hz).1
      (Filter.Eventually.of_forall fun x => response_nonneg hR hz x)

theorem normalised_ready (d : Dens) (hd : d.fromInput = false) (i : Nat) (z : ℝ) :
    normalised (setUp d) i z = .ok (quotient
      ((∫ zp in d.edges i..d.edges (i + 1), response d.resp zp z) * d.dN z) (binNorm d i)) := by
  unfold setUp
  rw [hd]
  unfold normalised convolved
  simp only [Bool.false_eq_true, if_false]

/-- The densities of a set up object: each integrates to one, unless its normalisation is zero; then it is not
a number anywhere, and there is no exception. -/
theorem normalised_spec (d : Dens) (hd : d.fromInput = false) (i : Nat) :
    (binNorm d i ≠ 0 → ∃ f : ℝ → ℝ, (∀ z, normalised (setUp d) i z = .ok (some (f z))) ∧
      ∫ z in d.zmin..d.zmax, f z = 1) ∧
    (binNorm d i = 0 → ∀ z, normalised (setUp d) i z = .ok none) := by
  refine ⟨fun h => ⟨fun z => ((∫ zp in d.edges i..d.edges (i + 1), response d.resp zp z) * d.dN z) / binNorm d i,
    fun z => ?_, ?_⟩, fun h z => ?_⟩
  · rw [normalised_ready d hd]; unfold quotient; rw [if_neg h]
  · rw [intervalIntegral.integral_div]
    exact div_self h
  · rw [normalised_ready d hd]; unfold quotient; rw [if_pos h]

theorem responseBin_continuousOn {R : Resp} (hR : Proper R) {z0 : ℝ} (h0 : -1 < z0) (a b : ℝ) :
    ContinuousOn (fun z => ∫ zp in a..b, response R zp z) (Ici z0) := by
  have hg : ∀ (s a m c : ℝ), 0 < s → Continuous fun p : ℝ × ℝ => gauss p.2 (max p.1 z0) m s c a := by
    intro s a m c hs
    unfold gauss
    have hne : ∀ p : ℝ × ℝ, √(2 * π) * s * (1 + max p.1 z0) ≠ 0 := by
      intro p
      have : 0 < 1 + max p.1 z0 := by linarith [le_max_right p.1 z0]
      positivity
    have hne2 : ∀ p : ℝ × ℝ, 2 * (s * (1 + max p.1 z0)) ^ 2 ≠ 0 := by
      intro p
      have : 0 < 1 + max p.1 z0 := by linarith [le_max_right p.1 z0]
      positivity
    refine Continuous.mul (Continuous.div (by fun_prop) (by fun_prop) hne) ?_
    refine Real.continuous_exp.comp (Continuous.neg (Continuous.div (by fun_prop) (by fun_prop) hne2))
  have hc : Continuous fun z => ∫ zp in a..b, response R zp (max z z0) := by
    refine intervalIntegral.continuous_parametric_intervalIntegral_of_continuous'
      (f := fun z zp => response R zp (max z z0)) ?_ a b
    exact (hg _ _ _ _ hR.widthB).add (hg _ _ _ _ hR.widthO)
  refine hc.continuousOn.congr fun z hz => ?_
  simp only
  rw [max_eq_left hz]

/-- The input for which no bin is empty: a continuous density that is positive inside its domain, bins of
positive width. -/
structure Usable (d : Dens) : Prop where
  input : d.fromInput = false
  resp : Proper d.resp
  domain : -1 < d.zmin ∧ d.zmin < d.zmax
  continuous : ContinuousOn d.dN (Icc d.zmin d.zmax)
  positive : ∀ z, d.zmin < z → z < d.zmax → 0 < d.dN z
  edges : StrictMono d.edges

theorem binNorm_pos {d : Dens} (h : Usable d) (i : Nat) : 0 < binNorm d i := by
  have hz : ∀ z ∈ Icc d.zmin d.zmax, -1 < z := fun z hz => lt_of_lt_of_le h.domain.1 hz.1
  refine intervalIntegral.intervalIntegral_pos_of_pos_on ?_ ?_ h.domain.2
  · refine ContinuousOn.intervalIntegrable ?_
    rw [uIcc_of_le h.domain.2.le]
    exact ((responseBin_continuousOn h.resp h.domain.1 _ _).mono fun z hz => hz.1).mul h.continuous
  · intro z hz'
    refine mul_pos ?_ (h.positive z hz'.1 hz'.2)
    exact intervalIntegral.intervalIntegral_pos_of_pos_on
      ((response_continuous d.resp z).intervalIntegrable _ _)
      (fun x _ => response_pos h.resp (lt_trans h.domain.1 hz'.1) x) (h.edges (Nat.lt_succ_self i))

/-- For such an input the densities are probability densities: not negative, and with integral one. -/
theorem normalised_probability {d : Dens} (h : Usable d) (i : Nat) :
    ∃ f : ℝ → ℝ, (∀ z, normalised (setUp d) i z = .ok (some (f z))) ∧ (∀ z, d.zmin < z → z < d.zmax → 0 < f z) ∧
      ∫ z in d.zmin..d.zmax, f z = 1 := by
  have hn := binNorm_pos h i
  refine ⟨fun z => ((∫ zp in d.edges i..d.edges (i + 1), response d.resp zp z) * d.dN z) / binNorm d i,
    fun z => ?_, fun z h1 h2 => ?_, ?_⟩
  · rw [normalised_ready d h.input]; unfold quotient; rw [if_neg hn.ne']
  · refine div_pos (mul_pos ?_ (h.positive z h1 h2)) hn
    exact intervalIntegral.intervalIntegral_pos_of_pos_on
      ((response_continuous d.resp z).intervalIntegrable _ _)
      (fun x _ => response_pos h.resp (lt_trans h.domain.1 h1) x) (h.edges (Nat.lt_succ_self i))
  · rw [intervalIntegral.integral_div]
    exact div_self hn.ne'

/-- The number of galaxies does not matter for the normalised densities: scaling the input leaves them as they
are. -/
theorem normalised_scale (d : Dens) (hd : d.fromInput = false) (a : ℝ) (ha : a ≠ 0) (i : Nat) (z : ℝ) :
    normalised (setUp { d with dN := fun z => a * d.dN z }) i z = normalised (setUp d) i z := by
  rw [normalised_ready d hd, normalised_ready { d with dN := fun z => a * d.dN z } hd]
  have hb : binNorm { d with dN := fun z => a * d.dN z } i = a * binNorm d i := by
    unfold binNorm
    rw [← intervalIntegral.integral_const_mul]
    refine intervalIntegral.integral_congr fun z _ => ?_
    simp only
    ring
  rw [hb]
  unfold quotient
  by_cases h : binNorm d i = 0
  · rw [if_pos h, if_pos (by rw [h, mul_zero])]
  · rw [if_neg h, if_neg (mul_ne_zero ha h)]
    simp only
    rw [mul_left_comm, mul_div_mul_left _ _ ha]

/-- Densities given per bin are used as they are, whatever their integral. -/
theorem given_not_normalised (d : Dens) (hd : d.fromInput = true) (i : Nat) (z : ℝ) :
    normalised (setUp d) i z = .ok (some (d.niz i z)) := by
  unfold setUp
  rw [hd]
  unfold normalised
  simp only [if_true]

/-! ### Numbers of galaxies -/

/-- The galaxies of the bins add up to those between the first and the last edge; when the bins cover the domain,
and the density is zero outside it, this is the total number per unit of solid angle. -/
theorem surface_sum (d : Dens) (hd : d.fromInput = false) (hi : ∀ a b, IntervalIntegrable d.dN volume a b)
    (simps : ℝ) (hr : d.ready = true) (h0 : d.edges 0 ≤ d.zmin) (h1 : d.zmax ≤ d.edges d.n)
    (hl : ∀ z, z < d.zmin → d.dN z = 0) (hu : ∀ z, d.zmax < z → d.dN z = 0) :
    ∃ s : Nat → ℝ, (∀ i, surfaceAt d i = .ok (s i)) ∧
      total simps d "quad".toList = .ok ((∑ i ∈ Finset.range d.n, s i) * (4 * π * d.fsky)) := by
  refine ⟨fun i => ∫ z in d.edges i..d.edges (i + 1), d.dN z, fun i => ?_, ?_⟩
  · unfold surfaceAt; rw [hd]; rfl
  · rw [intervalIntegral.sum_integral_adjacent_intervals (fun k _ => hi _ _)]
    have e : (∫ z in d.edges 0..d.edges d.n, d.dN z) = ∫ z in d.zmin..d.zmax, d.dN z := by
      rw [← intervalIntegral.integral_add_adjacent_intervals (hi (d.edges 0) d.zmin) (hi d.zmin (d.edges d.n)),
        ← intervalIntegral.integral_add_adjacent_intervals (hi d.zmin d.zmax) (hi d.zmax (d.edges d.n))]
      have a : (∫ z in d.edges 0..d.zmin, d.dN z) = 0 := by
        rw [intervalIntegral.integral_of_le h0, integral_Ioc_eq_integral_Ioo]
        exact setIntegral_eq_zero_of_forall_eq_zero fun z hz => hl z hz.2
      have b : (∫ z in d.zmax..d.edges d.n, d.dN z) = 0 := by
        rw [intervalIntegral.integral_of_le h1]
        exact setIntegral_eq_zero_of_forall_eq_zero fun z hz => hu z hz.1
      rw [a, b, zero_add, add_zero]
    rw [e]
    unfold total
    rw [hr, if_neg (by decide), if_neg (by decide), if_pos rfl]

/-- Both methods give the same number when Simpson's rule is exact; other methods are refused, and so is a density that is
not set up. -/
theorem total_methods (simps : ℝ) (d : Dens) :
    (d.ready = true → simps = ∫ z in d.zmin..d.zmax, d.dN z →
      total simps d "simps".toList = total simps d "quad".toList) ∧
    (d.ready = true → ∀ m, m ≠ "simps".toList → m ≠ "quad".toList → total simps d m = .error .keyError) ∧
    (d.ready = false → ∀ m, total simps d m = .error .density) := by
  refine ⟨fun hr hs => ?_, fun hr m h1 h2 => ?_, fun hr m => ?_⟩
  · unfold total
    rw [hr, if_neg (by decide), if_pos rfl, if_neg (by decide), if_neg (by decide), if_pos rfl, hs]
  · unfold total
    rw [hr, if_neg (by decide), if_neg h1, if_neg h2]
  · unfold total
    rw [hr, if_pos (by decide)]

/-- The noise of a bin is the inverse of its number of galaxies, and not a number for a bin without galaxies. -/
theorem shotNoise_spec (d : Dens) (i : Nat) (s : ℝ) (h : surfaceAt d i = .ok s) :
    shotNoise d i = .ok (if s = 0 then none else some (1 / s)) := by
  unfold shotNoise
  rw [h]
  rfl

/-! ### Order of calls -/

theorem mapM_ok {A B : Type} (f : A → Except Err B) (g : A → B) (l : List A) (h : ∀ a ∈ l, f a = .ok (g a)) :
    l.mapM f = .ok (l.map g) := by
  induction l with
  | nil => rfl
  | cons a l ih =>
    rw [List.mapM_cons, h a List.mem_cons_self, ih fun b hb => h b (List.mem_cons_of_mem _ hb)]
    rfl

/-- Evaluation and the total number need `setUp` first; after it evaluation succeeds on every grid, and the values
are those of the grid given last. -/
theorem evaluate_order (d : Dens) (simps : ℝ) (grid : List ℝ) (method : Str) :
    (d.ready = false → evaluate d grid = .error .density ∧ total simps d method = .error .density) ∧
    ∃ (d' : Dens) (v : List (List (Option ℝ))), evaluate (setUp d) grid = .ok d' ∧ d'.grid = some grid ∧ d'.values = some v ∧
      v.length = d.n ∧ (∀ row ∈ v, row.length = grid.length) ∧
      ∀ (i : Nat) (row : List (Option ℝ)), v[i]? = some row → ∀ (k : Nat) (z : ℝ), grid[k]? = some z →
        ∃ x : Option ℝ, row[k]? = some x ∧ normalised (setUp d) i z = .ok x := by
  refine ⟨fun h => ⟨by unfold evaluate; rw [h]; rfl, by unfold total; rw [h]; rfl⟩, ?_⟩
  have hr : (setUp d).ready = true := by unfold setUp; split <;> rfl
  have hn : (setUp d).n = d.n := by unfold setUp; split <;> rfl
  have hv : ∀ i z, normalised (setUp d) i z = .ok (if d.fromInput then some (d.niz i z) else
      quotient ((∫ zp in d.edges i..d.edges (i + 1), response d.resp zp z) * d.dN z) (binNorm d i)) := by
    intro i z
    cases hd : d.fromInput with
    | true => rw [given_not_normalised d hd]; rfl
    | false => rw [normalised_ready d hd]; rfl
  set g : Nat → ℝ → Option ℝ := fun i z => if d.fromInput then some (d.niz i z) else
      quotient ((∫ zp in d.edges i..d.edges (i + 1), response d.resp zp z) * d.dN z) (binNorm d i) with hg
  have hm : ((List.range (setUp d).n).mapM fun i => grid.mapM fun z => normalised (setUp d) i z) =
      .ok ((List.range d.n).map fun i => grid.map (g i)) := by
    rw [hn]
    exact mapM_ok _ _ _ fun i _ => mapM_ok _ _ _ fun z _ => hv i z
  refine ⟨{ setUp d with grid := some grid, values := some ((List.range d.n).map fun i => grid.map (g i)) }, _,
    ?_, rfl, rfl, by simp, ?_, ?_⟩
  · unfold evaluate
    rw [if_neg (by rw [hr]; decide), hm]
  · intro row hrow
    obtain ⟨i, _, rfl⟩ := List.mem_map.mp hrow
    simp
  · intro i row hrow k z hz
    have hi : i < d.n := by
      by_contra hc
      rw [List.getElem?_eq_none (by simpa using hc)] at hrow
      cases hrow
    rw [List.getElem?_map, List.getElem?_range hi] at hrow
    obtain rfl := Option.some.inj hrow
    exact ⟨g i z, by rw [List.getElem?_map, hz]; rfl, hv i z⟩

/-- Unknown methods of integration are refused. -/
theorem total_unknown (d : Dens) (simps : ℝ) (method : Str) (hr : d.ready = true)
    (h1 : method ≠ "simps".toList) (h2 : method ≠ "quad".toList) : total simps d method = .error .keyError := by
  unfold total
  rw [hr, if_neg (by decide), if_neg h1, if_neg h2]

/-! ### Examples -/

/-- One galaxy per unit of redshift between zero and one, two bins. -/
noncomputable def exDens : Dens :=
  { fromInput := false, zmin := 0, zmax := 1, n := 2, edges := fun i => i / 2, dN := fun _ => 1,
    niz := fun _ _ => 0, resp := ⟨1 / 10, 0, 1 / 20, 1, 1 / 10, 1 / 20, 1⟩, fsky := 1 / 2, surface := none,
    ready := false, factors := none, grid := none, values := none }

example : Usable exDens :=
  { input := rfl
    resp := ⟨by norm_num [exDens], by norm_num [exDens], by norm_num [exDens], by norm_num [exDens]⟩
    domain := ⟨by norm_num [exDens], by norm_num [exDens]⟩
    continuous := continuousOn_const
    positive := fun _ _ _ => by norm_num [exDens]
    edges := fun a b h => div_lt_div_of_pos_right (by exact_mod_cast h) (by norm_num) }

example : exDens.resp.cb = 1 ∧ exDens.resp.co = 1 ∧ evaluate exDens [0] = .error .density :=
  ⟨rfl, rfl, rfl⟩

end Seyfert.Density
