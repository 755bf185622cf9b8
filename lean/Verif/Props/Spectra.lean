import Verif.Model.Spectra
import Verif.Props.Kernel
import Verif.Props.Weights
import Verif.Props.CovariancePD
import Verif.Model.Numeric
import Mathlib.LinearAlgebra.Matrix.PosDef

/-!
The spectra between all bins of all probes form a positive semidefinite matrix, so that with noise their
covariance can be inverted.
-/

set_option linter.unusedSectionVars false

namespace Seyfert.Spectra

open Finset Kernel

/-- Integration rules that are linear and never give a negative value for a function that is not negative. -/
structure Positive (integ : (Nat → ℝ) → ℝ) : Prop where
  linear : ∀ (f g : Nat → ℝ) (a b : ℝ), integ (fun z => a * f z + b * g z) = a * integ f + b * integ g
  nonneg : ∀ f : Nat → ℝ, (∀ z, 0 ≤ f z) → 0 ≤ integ f

/-! ### The rules of the code are of this kind -/

theorem ncWeight_nonneg (n j : Nat) : (0 : ℝ) ≤ Numeric.ncWeight n j := by
  have h : ∀ l : List ℝ, (∀ x ∈ l, 0 ≤ x) → 0 ≤ l.getD j 0 := by
    intro l hl
    rw [List.getD_eq_getElem?_getD]
    cases hj : l[j]? with
    | none => simp
    | some x => exact hl x (List.mem_of_getElem? hj)
  unfold Numeric.ncWeight
  split
  · exact div_nonneg (h _ (by simp)) (by norm_num)
  · exact div_nonneg (h _ (by simp)) (by norm_num)
  · exact div_nonneg (mul_nonneg (by norm_num) (h _ (by simp))) (by norm_num)
  · exact div_nonneg (mul_nonneg (by norm_num) (h _ (by simp))) (by norm_num)
  · exact div_nonneg (mul_nonneg (by norm_num) (h _ (by simp))) (by norm_num)
  · exact div_nonneg (h _ (by simp)) (by norm_num)
  · exact le_rfl

/-- The composite Newton-Cotes rule of every order that is accepted. -/
theorem newtonCotes_positive (order n : Nat) (dx : ℝ) (hdx : 0 ≤ dx) :
    Positive (Numeric.doIntegrate order n dx) where
  linear f g a b := by
    unfold Numeric.doIntegrate
    have h1 : ∀ (m : Nat) (w : Nat → ℝ) (p : Nat → Nat), ∑ k ∈ range m, w k * (a * f (p k) + b * g (p k)) =
        a * ∑ k ∈ range m, w k * f (p k) + b * ∑ k ∈ range m, w k * g (p k) := by
      intro m w p
      rw [mul_sum, mul_sum, ← sum_add_distrib]
      exact sum_congr rfl fun k _ => by ring
    have h2 : ∀ delta, dx * ∑ k ∈ range ((n - 1) / order),
        Numeric.ncWeight order delta * (a * f (order * k + delta) + b * g (order * k + delta)) =
        a * (dx * ∑ k ∈ range ((n - 1) / order), Numeric.ncWeight order delta * f (order * k + delta)) +
        b * (dx * ∑ k ∈ range ((n - 1) / order), Numeric.ncWeight order delta * g (order * k + delta)) := by
      intro delta
      rw [h1 _ (fun _ => Numeric.ncWeight order delta) (fun k => order * k + delta)]
      ring
    have h3 : ∀ F G K : Nat → ℝ, (∀ d, F d = a * G d + b * K d) → ∑ d ∈ range (order + 1), F d =
        a * ∑ d ∈ range (order + 1), G d + b * ∑ d ∈ range (order + 1), K d := by
      intro F G K h
      rw [mul_sum, mul_sum, ← sum_add_distrib]
      exact sum_congr rfl fun d _ => h d
    rw [h3 _ _ _ h2]
    split
    · rw [h1 _ (fun j => Numeric.ncWeight ((n - 1) % order) j) (fun j => n - ((n - 1) % order + 1) + j)]
      ring
    · ring
  nonneg f hf := by
    unfold Numeric.doIntegrate
    refine add_nonneg (sum_nonneg fun d _ => mul_nonneg hdx (sum_nonneg fun k _ =>
      mul_nonneg (ncWeight_nonneg _ _) (hf _))) ?_
    split
    · exact mul_nonneg hdx (sum_nonneg fun k _ => mul_nonneg (ncWeight_nonneg _ _) (hf _))
    · exact le_rfl

/-- Simpson's rule on a tame grid. -/
theorem simpson_positive (x : Nat → ℝ) (n : Nat) (hn : 2 ≤ n) (hx : Weights.Tame x n) :
    Positive (fun f => Weights.simps x f n) where
  linear f g a b := Weights.simps_add x f g a b n
  nonneg f hf := Weights.simps_nonneg x f n hn hx fun k _ => hf k

/-! ### Quadratic forms -/

theorem Positive.sum {integ : (Nat → ℝ) → ℝ} (hq : Positive integ) {ι : Type} (s : Finset ι) (a : ι → ℝ)
    (f : ι → Nat → ℝ) : integ (fun z => ∑ x ∈ s, a x * f x z) = ∑ x ∈ s, a x * integ (f x) := by
  classical
  induction s using Finset.induction_on with
  | empty =>
    have := hq.linear (fun _ => 0) (fun _ => 0) 0 0
    simp only [mul_zero, add_zero, zero_mul] at this
    simpa using this
  | insert x s hx ih =>
    simp only [sum_insert hx]
    have := hq.linear (f x) (fun z => ∑ y ∈ s, a y * f y z) (a x) 1
    simp only [one_mul] at this
    rw [this, ih]

theorem cutFactor_comm (f : Nat → ℝ) (a b : Bool) (z : Nat) : cutFactor f a b z = cutFactor f b a z := by
  cases a <;> cases b <;> rfl

/-- The matrix of all integrals. -/
theorem gram_posSemidef {ι : Type} [Fintype ι] {integ : (Nat → ℝ) → ℝ} (hq : Positive integ) (p f : Nat → ℝ)
    (hp : ∀ z, 0 ≤ p z) (hf0 : ∀ z, 0 ≤ f z) (hf1 : ∀ z, f z ≤ 1) (void : ι → Bool) (w : ι → Nat → ℝ) :
    (Matrix.of fun x y : ι => integ fun z => p z * cutFactor f (void x) (void y) z * (w x z * w y z)).PosSemidef := by
  refine Matrix.PosSemidef.of_dotProduct_mulVec_nonneg ?_ fun v => ?_
  · ext x y
    simp only [Matrix.conjTranspose_apply, Matrix.of_apply, star_trivial]
    congr 1
    funext z
    rw [cutFactor_comm, mul_comm (w y z)]
  · have e : star v ⬝ᵥ (Matrix.of fun x y : ι => integ fun z =>
        p z * cutFactor f (void x) (void y) z * (w x z * w y z)).mulVec v =
        integ fun z => ∑ q ∈ (univ : Finset (ι × ι)), (v q.1 * v q.2) *
          (p z * cutFactor f (void q.1) (void q.2) z * (w q.1 z * w q.2 z)) := by
      rw [hq.sum univ (fun q : ι × ι => v q.1 * v q.2)
        (fun q z => p z * cutFactor f (void q.1) (void q.2) z * (w q.1 z * w q.2 z)), Fintype.sum_prod_type]
      simp only [dotProduct, Matrix.mulVec, Matrix.of_apply, star_trivial, mul_sum]
      refine sum_congr rfl fun x _ => sum_congr rfl fun y _ => by ring
    rw [e]
    refine hq.nonneg _ fun z => ?_
    rw [Fintype.sum_prod_type]
    have key : ∑ x, ∑ y, (v x * v y) * (p z * cutFactor f (void x) (void y) z * (w x z * w y z)) =
        p z * ((1 - f z) * (∑ x, if void x = true then 0 else v x * w x z) ^ 2 +
          f z * (∑ x, v x * w x z) ^ 2) := by
      rw [sq, sq, sum_mul_sum, sum_mul_sum, mul_sum, mul_sum, ← sum_add_distrib, mul_sum]
      refine sum_congr rfl fun x _ => ?_
      rw [mul_sum, mul_sum, ← sum_add_distrib, mul_sum]
      refine sum_congr rfl fun y _ => ?_
      unfold cutFactor
      cases void x <;> cases void y <;> simp <;> ring
    rw [key]
    exact mul_nonneg (hp z) (add_nonneg (mul_nonneg (by linarith [hf1 z]) (sq_nonneg _))
      (mul_nonneg (hf0 z) (sq_nonneg _)))

/-! ### Spectra of all probes -/

variable {P : Type} [DecidableEq P]

theorem spectrum_value (integ : (Nat → ℝ) → ℝ) (S : Setup P) (A B : P) (hoff : S.offDiag A = true) (l i j : Nat)
    (hi : i < S.nb A) (hj : j < S.nb B) : spectrum integ S A B l i j =
      integ fun z => S.matter l z * cutFactor (S.cut l) (S.void A) (S.void B) z *
        (S.W A i z * S.W B j z * S.co.c / (S.co.H z * S.co.r z ^ 2)) := by
  unfold spectrum
  by_cases h : A = B
  · subst h
    rw [if_pos rfl, autoCl_value _ _ _ _ _ _ _ _ hi hj, if_pos (Or.inr hoff)]
    unfold integral product limber
    rcases le_total i j with h | h
    · rw [min_eq_left h, max_eq_right h]
    · rw [min_eq_right h, max_eq_left h]
      congr 1
      funext z
      ring
  · rw [if_neg h, crossCl_value _ _ _ _ _ _ _ _ hi hj]
    rfl

/-- A set-up in which everything that should be is not negative. -/
structure Sound (S : Setup P) : Prop where
  geometry : ∀ z, 0 ≤ S.co.c / (S.co.H z * S.co.r z ^ 2)
  matter : ∀ l z, 0 ≤ S.matter l z
  cutLow : ∀ l z, 0 ≤ S.cut l z
  cutHigh : ∀ l z, S.cut l z ≤ 1

/-- The spectra of any family of bins, of one or several probes, form a positive semidefinite matrix, with the cut
for voids or without, when the spectra between different bins are computed.  Missing for the full claim: without
them it is false, see `skipping_breaks`. -/
theorem spectra_posSemidef_partial {integ : (Nat → ℝ) → ℝ} (hq : Positive integ) (S : Setup P) (hS : Sound S)
    (hoff : ∀ A, S.offDiag A = true) (l : Nat) {ι : Type} [Fintype ι] (b : ι → P × Nat)
    (hb : ∀ x, (b x).2 < S.nb (b x).1) :
    (Matrix.of fun x y : ι => spectrum integ S (b x).1 (b y).1 l (b x).2 (b y).2).PosSemidef := by
  have := gram_posSemidef hq (fun z => S.matter l z * (S.co.c / (S.co.H z * S.co.r z ^ 2))) (S.cut l)
    (fun z => mul_nonneg (hS.matter l z) (hS.geometry z)) (hS.cutLow l) (hS.cutHigh l)
    (fun x : ι => S.void (b x).1) (fun x z => S.W (b x).1 (b x).2 z)
  convert this using 1
  ext x y
  simp only [Matrix.of_apply]
  rw [spectrum_value integ S _ _ (hoff _) l _ _ (hb x) (hb y)]
  congr 1
  funext z
  ring

/-- Hence a spectrum between two bins is at most the geometric mean of those of the bins with themselves, which are
not negative. -/
theorem cauchy_schwarz {integ : (Nat → ℝ) → ℝ} (hq : Positive integ) (S : Setup P) (hS : Sound S)
    (hoff : ∀ A, S.offDiag A = true) (l : Nat) (A B : P) (i j : Nat) (hi : i < S.nb A) (hj : j < S.nb B) :
    0 ≤ spectrum integ S A A l i i ∧
    spectrum integ S A B l i j ^ 2 ≤ spectrum integ S A A l i i * spectrum integ S B B l j j := by
  have h := spectra_posSemidef_partial hq S hS hoff l (fun x : Fin 2 => if x = 0 then (A, i) else (B, j)) (by
    intro x
    fin_cases x
    · exact hi
    · exact hj)
  have hform : ∀ s t : ℝ, 0 ≤ s ^ 2 * spectrum integ S A A l i i + 2 * s * t * spectrum integ S A B l i j +
      t ^ 2 * spectrum integ S B B l j j := by
    intro s t
    have := h.dotProduct_mulVec_nonneg ![s, t]
    have hsym : spectrum integ S B A l j i = spectrum integ S A B l i j := by
      rw [spectrum_value integ S _ _ (hoff _) l _ _ hj hi, spectrum_value integ S _ _ (hoff _) l _ _ hi hj]
      congr 1
      funext z
      rw [cutFactor_comm, mul_comm (S.W B j z)]
    simp only [dotProduct, Matrix.mulVec, Fin.sum_univ_two, Matrix.of_apply, star_trivial, Matrix.cons_val_zero,
      Matrix.cons_val_one, if_true, one_ne_zero, if_false] at this
    rw [hsym] at this
    linarith
  refine ⟨by have := hform 1 0; simpa using this, ?_⟩
  have h1 := hform 1 0
  have h2 := hform 0 1
  simp only [one_pow, one_mul, mul_zero, zero_mul, add_zero, zero_add, ne_eq, OfNat.ofNat_ne_zero, not_false_eq_true,
    zero_pow] at h1 h2
  rcases eq_or_lt_of_le h2 with h0 | h0
  · rw [← h0, mul_zero]
    by_cases hc : spectrum integ S A B l i j = 0
    · rw [hc]; norm_num
    · exfalso
      have ha := hform 1 (-(spectrum integ S A A l i i + 1) / (2 * spectrum integ S A B l i j))
      rw [← h0] at ha
      have e : 2 * (1 : ℝ) * (-(spectrum integ S A A l i i + 1) / (2 * spectrum integ S A B l i j)) *
          spectrum integ S A B l i j = -(spectrum integ S A A l i i + 1) := by field_simp
      rw [e] at ha
      linarith
  · have := hform (spectrum integ S B B l j j) (-spectrum integ S A B l i j)
    have e : spectrum integ S B B l j j ^ 2 * spectrum integ S A A l i i +
        2 * spectrum integ S B B l j j * -spectrum integ S A B l i j * spectrum integ S A B l i j +
        (-spectrum integ S A B l i j) ^ 2 * spectrum integ S B B l j j =
        spectrum integ S B B l j j *
          (spectrum integ S A A l i i * spectrum integ S B B l j j - spectrum integ S A B l i j ^ 2) := by ring
    rw [e] at this
    have := nonneg_of_mul_nonneg_right this h0
    linarith

/-! ### With noise the covariance can be inverted -/

/-- With positive noise the covariance matrix of every data vector without repetitions is positive definite. -/
theorem covariance_invertible {integ : (Nat → ℝ) → ℝ} (hq : Positive integ) (S : Setup P) (hS : Sound S)
    (hoff : ∀ A, S.offDiag A = true) (l : Nat) (noise : P → Nat → ℝ) (hn : ∀ A i, i < S.nb A → 0 < noise A i)
    (s : ℝ) (hs : 0 < s) (dv : List (P × P)) (hr : Cov.NoRepeats dv) (ℓ : ℝ) (hℓ : 0 < 2 * ℓ + 1) :
    (Cov.joint S.nb (noisy integ S noise s l) dv ℓ).PosDef ∧
    (Cov.covAt S.nb (noisy integ S noise s l) dv ℓ).PosDef := by
  have h : (Cov.joint S.nb (noisy integ S noise s l) dv ℓ).PosDef := by
    have hb : ∀ x : Cov.bins S.nb dv, x.1.2 < S.nb x.1.1 := fun x => (Cov.mem_bins.mp x.2).2
    have h1 := spectra_posSemidef_partial hq S hS hoff l (fun x : Cov.bins S.nb dv => x.1) hb
    have h2 : (Matrix.diagonal fun x : Cov.bins S.nb dv => noise x.1.1 x.1.2).PosDef :=
      Matrix.PosDef.diagonal fun x => hn _ _ (hb x)
    have h3 := (h2.posSemidef_add h1).smul hs
    convert h3 using 1
    ext x y
    simp only [Cov.joint, noisy, Matrix.of_apply, Matrix.smul_apply, Matrix.add_apply, smul_eq_mul,
      Matrix.diagonal_apply]
    congr 2
    by_cases hxy : x = y
    · subst hxy; rw [if_pos ⟨rfl, rfl⟩, if_pos rfl]
    · rw [if_neg hxy, if_neg]
      rintro ⟨ha, hb'⟩
      exact hxy (Subtype.ext (Prod.ext ha hb'))
  exact ⟨h, Cov.covariance_posDef hr hℓ h⟩

/-! ### Leaving out spectra between different bins -/

/-- Two bins of spectroscopic galaxies (`true`) and one of photometric galaxies, all with the same weight. -/
noncomputable def exSetup : Setup Bool :=
  { nb := fun A => if A then 2 else 1, W := fun _ _ _ => 1, co := ⟨fun _ => 1, fun _ => 1, 1⟩,
    matter := fun _ _ => 1, cut := fun _ _ => 1, void := fun _ => false, offDiag := fun A => !A }

/-- When the spectra between different bins of one probe are left out but those with another probe are not, the
matrix need not be positive: a combination of the bins has negative variance, even with noise. -/
theorem skipping_breaks : Positive (fun f => f 0) ∧ Sound exSetup ∧
    let M := fun x y : Bool × Nat => noisy (fun f => f 0) exSetup (fun _ _ => 1 / 10) 1 0 x.1 y.1 0 x.2 y.2
    let b := [((true, 0), (1 : ℝ)), ((true, 1), 1), ((false, 0), -1)]
    (b.map fun x => (b.map fun y => x.2 * y.2 * M x.1 y.1).sum).sum < 0 := by
  refine ⟨⟨fun _ _ _ _ => rfl, fun f hf => hf 0⟩, ⟨fun z => by norm_num [exSetup], fun _ _ => by norm_num [exSetup],
    fun _ _ => by norm_num [exSetup], fun _ _ => le_rfl⟩, ?_⟩
  have tt : ∀ i j, i < 2 → j < 2 → spectrum (fun f => f 0) exSetup true true 0 i j = if i = j then 1 else 0 := by
    intro i j hi hj
    unfold spectrum
    rw [if_pos rfl, autoCl_value _ _ _ _ _ _ _ _ (show i < exSetup.nb true from hi) (show j < exSetup.nb true from hj)]
    simp [exSetup, integral, product, limber, cutFactor]
  have tf : ∀ i, i < 2 → spectrum (fun f => f 0) exSetup true false 0 i 0 = 1 := by
    intro i hi
    unfold spectrum
    rw [if_neg (by decide), crossCl_value _ _ _ _ _ _ _ _ (show i < exSetup.nb true from hi)
      (show 0 < exSetup.nb false by simp [exSetup])]
    simp [exSetup, integral, product, limber, cutFactor]
  have ft : ∀ i, i < 2 → spectrum (fun f => f 0) exSetup false true 0 0 i = 1 := by
    intro i hi
    unfold spectrum
    rw [if_neg (by decide), crossCl_value _ _ _ _ _ _ _ _ (show 0 < exSetup.nb false by simp [exSetup])
      (show i < exSetup.nb true from hi)]
    simp [exSetup, integral, product, limber, cutFactor]
  have ff : spectrum (fun f => f 0) exSetup false false 0 0 0 = 1 := by
    unfold spectrum
    rw [if_pos rfl, autoCl_value _ _ _ _ _ _ _ _ (show 0 < exSetup.nb false by simp [exSetup])
      (show 0 < exSetup.nb false by simp [exSetup])]
    simp [exSetup, integral, product, limber, cutFactor]
  simp only [noisy, List.map_cons, List.map_nil, List.sum_cons, List.sum_nil, tt 0 0 (by omega) (by omega),
    tt 0 1 (by omega) (by omega), tt 1 0 (by omega) (by omega), tt 1 1 (by omega) (by omega), tf 0 (by omega),
    tf 1 (by omega), ft 0 (by omega), ft 1 (by omega), ff]
  norm_num

/-- All bins with the same factor on their weights: the spectra get its square. -/
theorem spectrum_scale {integ : (Nat → ℝ) → ℝ} (hq : Positive integ) (S : Setup P) (A B : P)
    (hoff : S.offDiag A = true) (t : P → ℝ) (l i j : Nat) (hi : i < S.nb A) (hj : j < S.nb B) :
    spectrum integ { S with W := fun A i z => t A * S.W A i z } A B l i j = t A * t B * spectrum integ S A B l i j := by
  rw [spectrum_value integ S A B hoff l i j hi hj,
    spectrum_value integ { S with W := fun A i z => t A * S.W A i z } A B hoff l i j hi hj]
  have := hq.linear (fun z => S.matter l z * cutFactor (S.cut l) (S.void A) (S.void B) z *
        (S.W A i z * S.W B j z * S.co.c / (S.co.H z * S.co.r z ^ 2))) (fun _ => 0) (t A * t B) 0
  simp only [zero_mul, add_zero] at this
  rw [← this]
  congr 1
  funext z
  simp only
  ring

example : ∃ S : Setup Bool, Sound S ∧ (∀ A, S.offDiag A = true) ∧ 0 < S.nb true ∧
    spectrum (Numeric.doIntegrate 2 3 (1 / 2)) S true false 0 0 0 = 1 := by
  refine ⟨{ exSetup with offDiag := fun _ => true }, ⟨fun z => by norm_num [exSetup], fun _ _ => by norm_num [exSetup],
    fun _ _ => by norm_num [exSetup], fun _ _ => le_rfl⟩, fun _ => rfl, by simp [exSetup], ?_⟩
  rw [spectrum_value _ _ _ _ rfl 0 0 0 (by simp [exSetup]) (by simp [exSetup])]
  norm_num [exSetup, cutFactor, Numeric.doIntegrate, Numeric.ncWeight, sum_range_succ]

end Seyfert.Spectra
