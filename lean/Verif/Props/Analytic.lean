import Verif.Model.Stem
import Verif.Lemmas.PyNum
import Verif.Lemmas.PyStr
import Mathlib.Analysis.Calculus.Deriv.Mul
import Mathlib.Analysis.Calculus.Deriv.Pow
import Mathlib.Analysis.Calculus.Deriv.Add
import Mathlib.Algebra.BigOperators.Group.Finset.Basic

/-!
C26: analytic derivatives with respect to galaxy biases.
-/

set_option linter.unusedSectionVars false

namespace Seyfert.Stem

/-- A spectrum proportional to the bias of the bin on each side that belongs to the probe: `b` is the list
of biases, `g` the rest. -/
def product (st : Setting) (g : Nat → Nat → Nat → ℝ) (b : Nat → ℝ) (l i j : Nat) : ℝ :=
  (if st.probe = st.p1 then b i else 1) * (if st.probe = st.p2 then b j else 1) * g l i j

/-- How many of the two sides belong to the probe. -/
def sides (st : Setting) : Nat := (if st.probe = st.p1 then 1 else 0) + (if st.probe = st.p2 then 1 else 0)

/-- A spectrum that is a sum of integrals over `n` redshift bins, with the bias of the redshift bin on each
side that belongs to the probe. -/
def piecewiseSum (st : Setting) (n : Nat) (part : Nat → Nat → Nat → Nat → ℝ) (b : Nat → ℝ)
    (l i j : Nat) : ℝ :=
  ∑ m ∈ Finset.range n, b m ^ sides st * part m l i j

/-- The name of the bias of bin `k`: any text starting with `bg`, then the number. -/
def biasName (mid : Str) (k : Nat) : Str := "bg".toList ++ mid ++ decStr k

theorem biasName_galaxy (st : Setting) (mid : Str) (k : Nat) (hn : st.name = biasName mid k)
    (hnu : st.nuisance = true) : galaxyBias st = true := by
  unfold galaxyBias
  rw [hnu, hn, biasName, List.append_assoc, Bool.true_and]
  rfl

theorem lastDigit_name (mid : Str) (k : Nat) : lastDigit (biasName mid k) = .ok (k % 10) := by
  unfold lastDigit biasName
  have hl : ("bg".toList ++ mid ++ decStr k).getLast? = some (digitChar (k % 10)) := by
    rw [List.getLast?_append, decStr_getLast]; rfl
  rw [hl]
  simp only
  rw [if_pos (isDigit_digitChar (by omega)), digitVal_digitChar (by omega)]

/-- C26. What the code computes for bin `k`, for either model of the bias: the formula for bin `k mod 10`. -/
theorem computeDerivative_eq (st : Setting) (mid : Str) (k : Nat) (hn : st.name = biasName mid k)
    (hnu : st.nuisance = true) (hp : st.probe = st.p1 ∨ st.probe = st.p2) (bk : ℝ)
    (c : Nat → Nat → Nat → ℝ) (integral : Nat → Nat → Nat → Nat → ℝ) :
    (st.model = .constant → computeDerivative st bk c integral = .ok (constantEntry st (k % 10) bk c)) ∧
    (st.model = .piecewise →
      computeDerivative st bk c integral = .ok (piecewiseEntry st (k % 10) bk integral)) ∧
    (st.model = .other → computeDerivative st bk c integral = .error .notImplemented) := by
  have hg := biasName_galaxy st mid k hn hnu
  unfold computeDerivative analytic
  rw [if_neg (by rintro ⟨_, h1, h2⟩; rcases hp with hp | hp; exacts [h1 hp, h2 hp]),
    if_neg (by rw [hg]; decide),
    if_neg (by rintro ⟨h1, h2⟩; rcases hp with hp | hp; exacts [h1 hp, h2 hp]), hn, lastDigit_name]
  refine ⟨fun h => ?_, fun h => ?_, fun h => ?_⟩ <;> rw [h]

/-- C26 (partial). For the constant bias the computed derivative with respect to the bias of bin `k` is the
derivative of the spectrum, for every entry. Missing: bins from 10 on, see `wrong_bin`. -/
theorem constant_derivative_partial (st : Setting) (mid : Str) {k : Nat} (hk : k < 10)
    (hn : st.name = biasName mid k) (hnu : st.nuisance = true)
    (hp : st.probe = st.p1 ∨ st.probe = st.p2) (hm : st.model = .constant)
    (g : Nat → Nat → Nat → ℝ) (b : Nat → ℝ) (hb : b k ≠ 0)
    (integral : Nat → Nat → Nat → Nat → ℝ) :
    ∃ d, computeDerivative st (b k) (product st g b) integral = .ok d ∧
      ∀ l i j, HasDerivAt (fun t => product st g (Function.update b k t) l i j) (d l i j) (b k) := by
  refine ⟨_, (computeDerivative_eq st mid k hn hnu hp (b k) _ integral).1 hm, ?_⟩
  intro l i j
  rw [Nat.mod_eq_of_lt hk]
  have side : ∀ (P : Prop) [Decidable P] (i : Nat),
      HasDerivAt (fun t => if P then Function.update b k t i else 1)
        (if P then (if i = k then 1 else 0) else 0) (b k) := by
    intro P _ i
    by_cases hP : P
    · simp only [hP, if_true]
      by_cases hi : i = k
      · subst hi
        simp only [Function.update_self, if_true]
        exact hasDerivAt_id _
      · simp only [Function.update_of_ne hi, hi, if_false]
        exact hasDerivAt_const _ _
    · simp only [hP, if_false]
      exact hasDerivAt_const _ _
  have h := ((side (st.probe = st.p1) i).mul (side (st.probe = st.p2) j)).mul_const (g l i j)
  unfold product
  refine h.congr_deriv ?_
  simp only [Function.update_eq_self]
  unfold constantEntry deltaTerm
  simp only [decide_eq_true_eq]
  by_cases h1 : st.probe = st.p1 <;> by_cases h2 : st.probe = st.p2 <;>
    by_cases hi : i = k <;> by_cases hj : j = k <;> simp_all <;> field_simp

/-- C26 (partial). The same for the piecewise bias, when the spectrum is the sum of the integrals over the
redshift bins. Missing: bins from 10 on; the Simpson integral over the whole grid is such a sum only up to
the quadrature error. -/
theorem piecewise_derivative_partial (st : Setting) (mid : Str) {k n : Nat} (hk : k < 10) (hkn : k < n)
    (hn : st.name = biasName mid k) (hnu : st.nuisance = true)
    (hp : st.probe = st.p1 ∨ st.probe = st.p2) (hm : st.model = .piecewise)
    (part : Nat → Nat → Nat → Nat → ℝ) (b : Nat → ℝ) (hb : b k ≠ 0) (c : Nat → Nat → Nat → ℝ) :
    ∃ d, computeDerivative st (b k) c (fun m l i j => b m ^ sides st * part m l i j) = .ok d ∧
      ∀ l i j, HasDerivAt (fun t => piecewiseSum st n part (Function.update b k t) l i j) (d l i j)
        (b k) := by
  refine ⟨_, (computeDerivative_eq st mid k hn hnu hp (b k) c _).2.1 hm, ?_⟩
  intro l i j
  rw [Nat.mod_eq_of_lt hk]
  have hsum : (fun t => piecewiseSum st n part (Function.update b k t) l i j) = fun t =>
      t ^ sides st * part k l i j
        + ∑ m ∈ (Finset.range n).erase k, b m ^ sides st * part m l i j := by
    funext t
    unfold piecewiseSum
    rw [← Finset.add_sum_erase _ _ (Finset.mem_range.mpr hkn), Function.update_self]
    congr 1
    apply Finset.sum_congr rfl
    intro m hm'
    rw [Function.update_of_ne (Finset.ne_of_mem_erase hm')]
  rw [hsum]
  have h := ((hasDerivAt_pow (sides st) (b k)).mul_const (part k l i j)).add_const
    (∑ m ∈ (Finset.range n).erase k, b m ^ sides st * part m l i j)
  refine h.congr_deriv ?_
  unfold piecewiseEntry sides
  by_cases h1 : st.probe = st.p1 <;> by_cases h2 : st.probe = st.p2
  · simp only [h1, h2, if_true]
    have : st.p1 = st.p2 := by rw [← h1, h2]
    simp only [this, if_true]
    norm_num
    field_simp
    ring
  · have : ¬ st.p1 = st.p2 := fun e => h2 (h1.trans e)
    simp only [h1, this, if_true, if_false]
    norm_num
    field_simp
  · have : ¬ st.p2 = st.p1 := fun e => h1 (h2.trans e)
    simp only [h2, this, if_true, if_false]
    norm_num
    field_simp
  · rcases hp with hp | hp
    · exact absurd hp h1
    · exact absurd hp h2

/-- C26. A nuisance parameter of another probe has derivative zero, which is its derivative. -/
theorem other_probe_derivative (st : Setting) (hnu : st.nuisance = true) (h1 : st.probe ≠ st.p1)
    (h2 : st.probe ≠ st.p2) (g : Nat → Nat → Nat → ℝ) (b : Nat → ℝ) (k : Nat)
    (integral : Nat → Nat → Nat → Nat → ℝ) :
    ∃ d, computeDerivative st (b k) (product st g b) integral = .ok d ∧
      ∀ l i j, HasDerivAt (fun t => product st g (Function.update b k t) l i j) (d l i j) (b k) := by
  refine ⟨fun _ _ _ => 0, by unfold computeDerivative; rw [if_pos ⟨hnu, h1, h2⟩], ?_⟩
  intro l i j
  unfold product
  simp only [h1, h2, if_false]
  exact hasDerivAt_const _ _

/-- C26 is false from bin 10 on: whatever the spectrum and the biases, the computed derivative of entry
`(l, i, j)` with respect to the bias of bin `k ≥ 10` is zero unless `i` or `j` is the last digit of `k`;
in particular it is zero on the diagonal entry of bin `k`, where the true derivative is
`2 b_k g`. -/
theorem wrong_bin (st : Setting) (mid : Str) {k : Nat} (hk : 10 ≤ k) (hn : st.name = biasName mid k)
    (hnu : st.nuisance = true) (h1 : st.probe = st.p1) (h2 : st.probe = st.p2)
    (hm : st.model = .constant) (g : Nat → Nat → Nat → ℝ) (b : Nat → ℝ)
    (integral : Nat → Nat → Nat → Nat → ℝ) :
    ∃ d, computeDerivative st (b k) (product st g b) integral = .ok d ∧ (∀ l, d l k k = 0) ∧
      ∀ l, HasDerivAt (fun t => product st g (Function.update b k t) l k k) (2 * b k * g l k k) (b k) := by
  refine ⟨_, (computeDerivative_eq st mid k hn hnu (Or.inl h1) (b k) _ integral).1 hm, ?_, ?_⟩
  · intro l
    have : ¬ k = k % 10 := by omega
    simp [constantEntry, deltaTerm, this]
  · intro l
    unfold product
    simp only [h1.symm.trans h2, h2, if_true, Function.update_self]
    have h := ((hasDerivAt_id (b k)).mul (hasDerivAt_id (b k))).mul_const (g l k k)
    refine (h.congr_deriv ?_)
    simp only [id]; ring

/-- A setting that meets the hypotheses. -/
def exSetting (k : Nat) : Setting :=
  ⟨biasName "PhotometricGalaxy".toList k, true, "p".toList, "p".toList, "p".toList, .constant⟩

example : ∃ d, computeDerivative (exSetting 3) 2 (product (exSetting 3) (fun _ _ _ => 1) (fun _ => 2))
    (fun _ _ _ _ => 0) = .ok d ∧ ∀ l i j, HasDerivAt (fun t => product (exSetting 3) (fun _ _ _ => 1)
      (Function.update (fun _ => 2) 3 t) l i j) (d l i j) 2 :=
  constant_derivative_partial (exSetting 3) _ (by norm_num) rfl rfl (Or.inl rfl) rfl _ (fun _ => 2)
    (by norm_num) _

end Seyfert.Stem
