import Verif.Model.IstErrors
import Verif.Props.Reparam
import Mathlib.LinearAlgebra.Matrix.PosDef
import Mathlib.Analysis.Matrix.PosDef

/-!
C95: the errors of external Fisher matrices, before and after the change of parameters.
-/

namespace Seyfert.Reparam

open Matrix

variable {n : ℕ} {nm : Fin n → Str} {fid : Str → Option ℝ}

theorem codeErrs_eq {F : Matrix (Fin n) (Fin n) ℝ} (h : F.det ≠ 0) :
    codeErrs F = some (fun i => √(F⁻¹ i i), fun i => 1 / √(F i i)) := by
  unfold codeErrs
  exact if_neg h

theorem codeErrs_none {F : Matrix (Fin n) (Fin n) ℝ} (h : F.det = 0) : codeErrs F = none := by
  unfold codeErrs
  exact if_pos h

theorem computeErrs_cons (p : Str × Matrix (Fin n) (Fin n) ℝ) (l : Dict Str (Matrix (Fin n) (Fin n) ℝ)) :
    computeErrs (p :: l) = (codeErrs p.2).bind fun e => (computeErrs l).map fun r => (p.1, e) :: r := by
  unfold computeErrs
  rw [List.mapM_cons]
  cases codeErrs p.2 with
  | none => rfl
  | some e =>
    cases h : List.mapM (fun p : Str × Matrix (Fin n) (Fin n) ℝ => (codeErrs p.2).map fun e => (p.1, e)) l with
    | none => simp [h]
    | some r => simp [h]

/-- **C95, errors.** The table is made exactly when no matrix is singular, one singular matrix stops all, and it then has the errors of
every code under its name. -/
theorem table_errors (l : Dict Str (Matrix (Fin n) (Fin n) ℝ)) :
    ((∃ t, computeErrs l = some t) ↔ ∀ p ∈ l, p.2.det ≠ 0) ∧
    ∀ t, computeErrs l = some t → ∀ c, t.lookup c =
      (l.lookup c).map fun F => (fun i => √(F⁻¹ i i), fun i => 1 / √(F i i)) := by
  induction l with
  | nil =>
    refine ⟨⟨fun _ p hp => (by cases hp), fun _ => ⟨[], rfl⟩⟩, fun t h c => ?_⟩
    cases h
    rfl
  | cons p l ih =>
    rw [computeErrs_cons]
    by_cases hp : p.2.det = 0
    · rw [codeErrs_none hp]
      exact ⟨⟨fun ⟨t, h⟩ => (by cases h), fun h => absurd hp (h p (.head _))⟩, fun t h => (by cases h)⟩
    · rw [codeErrs_eq hp]
      cases hl : computeErrs l with
      | none =>
        refine ⟨⟨fun ⟨t, h⟩ => (by cases h), fun h => ?_⟩, fun t h => (by cases h)⟩
        obtain ⟨t, ht⟩ := ih.1.mpr fun q hq => h q (.tail _ hq)
        rw [hl] at ht
        cases ht
      | some r =>
        refine ⟨⟨fun _ q hq => ?_, fun _ => ⟨_, rfl⟩⟩, fun t h c => ?_⟩
        · rcases List.mem_cons.mp hq with rfl | hq
          · exact hp
          · exact ih.1.mp ⟨r, hl⟩ q hq
        · have ht : t = (p.1, (fun i => √(p.2⁻¹ i i), fun i => 1 / √(p.2 i i))) :: r := by
            cases h
            rfl
          rw [ht]
          obtain ⟨k, F⟩ := p
          by_cases hc : c = k
          · subst hc
            rw [List.lookup_cons_self, List.lookup_cons_self]
            rfl
          · have hb : (c == k) = false := by simpa using hc
            rw [List.lookup_cons, List.lookup_cons, hb]
            exact ih.2 r hl c

theorem T1_det {F F1 : Matrix (Fin n) (Fin n) ℝ} (h : T1 nm fid F = .ok F1) (hF : F.det ≠ 0) : F1.det ≠ 0 := by
  obtain ⟨-, hd, rfl⟩ := T1_inv h
  rw [Matrix.det_mul, Matrix.det_mul, Matrix.det_transpose]
  have : ((jac nm fid)⁻¹).det ≠ 0 := by
    rw [Matrix.det_nonsing_inv]
    simpa using hd
  exact mul_ne_zero (mul_ne_zero this hF) this

/-- The diagonal of the changed matrix, but for `sigma8`. -/
theorem T1_diagonal {F F1 : Matrix (Fin n) (Fin n) ℝ} (h : T1 nm fid F = .ok F1) {v : Fin n → ℝ}
    (hv : ∀ i, fid (nm i) = some (v i)) {s : Fin n} (hs : nm s = sigma8) (i : Fin n) (hi : i ≠ s) :
    (isBias (nm i) = false → F1 i i = F i i) ∧ (isBias (nm i) = true → F1 i i * v s ^ 2 = F i i) := by
  have q := T1_information h hv hs (Pi.single i 1) (Pi.single i 1)
  have hsi : (Pi.single i 1 : Fin n → ℝ) s = 0 := Pi.single_eq_of_ne' hi 1
  have e : firstOrder nm s v (Pi.single i 1) = Pi.single i (if isBias (nm i) then v s else 1) := by
    funext k
    unfold firstOrder
    rw [hsi]
    by_cases hk : k = i
    · subst hk
      simp
    · rw [Pi.single_eq_of_ne hk, Pi.single_eq_of_ne hk]
      simp
  rw [e] at q
  simp only [Matrix.mulVec_single, single_dotProduct, Matrix.col_apply, Pi.smul_apply, MulOpposite.smul_eq_mul_unop,
    MulOpposite.unop_op, one_mul, mul_one] at q
  constructor
  · intro hb
    rw [hb] at q
    simpa using q
  · intro hb
    rw [hb] at q
    simp only [if_true] at q
    rw [← q]
    ring

/-- **C95, errors.** After the change of parameters the errors with all parameters free are those of before for every parameter but the
biases, and follow from the propagation of errors for the products of biases and `sigma8`; the errors with the others fixed are
those of before for the cosmological parameters but `sigma8`, and `sigma8` times as large for the products. -/
theorem changed_errors {F F1 : Matrix (Fin n) (Fin n) ℝ} (h : T1 nm fid F = .ok F1) (hF : F.det ≠ 0) {v : Fin n → ℝ}
    (hv : ∀ i, fid (nm i) = some (v i)) {s : Fin n} (hs : nm s = sigma8) :
    ∃ m u m' u', codeErrs F = some (m, u) ∧ codeErrs F1 = some (m', u') ∧
      (∀ i, isBias (nm i) = false → m' i = m i) ∧
      (∀ i, isBias (nm i) = true →
        m' i = √(v s * v s * F⁻¹ i i + v s * v i * F⁻¹ i s + v i * v s * F⁻¹ s i + v i * v i * F⁻¹ s s)) ∧
      (∀ i, isBias (nm i) = false → i ≠ s → u' i = u i) ∧
      ∀ i, isBias (nm i) = true → u' i = |v s| * u i := by
  refine ⟨_, _, _, _, codeErrs_eq hF, codeErrs_eq (T1_det h hF), fun i hb => ?_, fun i hb => ?_, fun i hb hi => ?_, fun i hb => ?_⟩
  · show √(F1⁻¹ i i) = √(F⁻¹ i i)
    rw [T1_cosmology h hF i i hb hb]
  · show √(F1⁻¹ i i) = _
    rw [T1_covariance h hF hv hs i i, hb]
  · show 1 / √(F1 i i) = 1 / √(F i i)
    rw [(T1_diagonal h hv hs i hi).1 hb]
  · have hi : i ≠ s := by
      rintro rfl
      rw [hs] at hb
      revert hb
      decide
    show 1 / √(F1 i i) = |v s| * (1 / √(F i i))
    have hz : v s ≠ 0 := by
      intro hz
      have hd := (T1_inv h).2.1
      have hinj := sym_injective_of_det hd
      apply hd
      refine Matrix.det_eq_zero_of_column_eq_zero i fun k => ?_
      have := congrFun (jac_mulVec hinj hv hs (Pi.single i 1)) k
      rw [Matrix.mulVec_single_one, Matrix.col_apply] at this
      rw [this]
      unfold firstOrder
      rw [hz, Pi.single_eq_of_ne' hi]
      by_cases hk : k = i
      · subst hk
        rw [hb]
        simp
      · rw [Pi.single_eq_of_ne hk]
        simp
    rw [← (T1_diagonal h hv hs i hi).2 hb, Real.sqrt_mul' _ (sq_nonneg _), Real.sqrt_sq_eq_abs]
    have : |v s| ≠ 0 := abs_ne_zero.mpr hz
    by_cases hq : √(F1 i i) = 0
    · rw [hq]
      simp
    · field_simp

/-! ### Examples -/

/-- The fiducial values of the example of `Verif.Props.Reparam`. -/
noncomputable def exFidR (t : Str) : Option ℝ := (exFid t).map fun q : ℚ => (q : ℝ)

example : ∃ t, computeErrs [("a".toList, !![2, 1; 1, 2]), ("b".toList, (1 : Matrix (Fin 2) (Fin 2) ℝ))] = some t :=
  (table_errors _).1.mpr fun p hp => by
    simp only [List.mem_cons, List.not_mem_nil, or_false] at hp
    rcases hp with rfl | rfl
    · rw [Matrix.det_fin_two_of]
      norm_num
    · rw [Matrix.det_one]
      norm_num

example : computeErrs [("a".toList, (1 : Matrix (Fin 2) (Fin 2) ℝ)), ("b".toList, 0)] = none := by
  cases h : computeErrs [("a".toList, (1 : Matrix (Fin 2) (Fin 2) ℝ)), ("b".toList, 0)] with
  | none => rfl
  | some t =>
    refine absurd ?_ ((table_errors _).1.mp ⟨t, h⟩ ("b".toList, 0) (.tail _ (.head _)))
    exact Matrix.det_zero

/-- The values of the three parameters of that example. -/
noncomputable def exV : Fin 3 → ℝ := ![4 / 5, 3 / 10, 2]

theorem exFidR_val : ∀ i, exFidR (exNames i) = some (exV i) := by
  intro i
  have h : ∀ i, exFid (exNames i) = some ((![4 / 5, 3 / 10, 2] : Fin 3 → ℚ) i) := by decide +kernel
  unfold exFidR
  rw [h i, Option.map_some]
  congr 1
  fin_cases i <;> norm_num [exV]

example : ∃ F1 m' u', T1 exNames exFidR 1 = .ok F1 ∧ codeErrs F1 = some (m', u') ∧ m' 1 = 1 ∧ u' 2 = 4 / 5 := by
  have hok : ∃ F1, T1 exNames exFidR 1 = .ok F1 := by
    refine (T1_ok_iff _).mpr ⟨by decide +kernel, by decide +kernel, fun i => by rw [exFidR_val i]; exact nofun, ⟨0, rfl⟩, Or.inl ?_⟩
    have := exFidR_val 0
    rw [show exNames 0 = sigma8 from rfl] at this
    rw [this]
    norm_num [exV]
  obtain ⟨F1, h1⟩ := hok
  obtain ⟨m, u, m', u', e, e', a, -, -, b⟩ := changed_errors h1 (by rw [Matrix.det_one]; exact one_ne_zero) exFidR_val (s := 0) rfl
  rw [codeErrs_eq (by rw [Matrix.det_one]; exact one_ne_zero)] at e
  cases e
  refine ⟨F1, m', u', h1, e', ?_, ?_⟩
  · rw [a 1 (by decide +kernel)]
    simp
  · rw [b 2 (by decide +kernel)]
    norm_num [exV]

end Seyfert.Reparam
