import Verif.Model.Reparam
import Verif.Lemmas.PyDict
import Verif.Lemmas.PyStr
import Mathlib.Data.Matrix.Mul
import Mathlib.LinearAlgebra.Matrix.Determinant.Basic
import Mathlib.LinearAlgebra.Matrix.NonsingularInverse
import Mathlib.Tactic.FieldSimp
import Mathlib.Tactic.Ring
import Mathlib.Tactic.LinearCombination
import Mathlib.Tactic.Linarith
import Mathlib.Data.List.Sort
import Mathlib.Algebra.Order.Field.Rat

/-!
C95: the change of parameters from `b_i, sigma8` to `b_i * sigma8` of external Fisher matrices.
-/

namespace Seyfert.Reparam

open Matrix

variable {K : Type} [Field K] [DecidableEq K] {n : ℕ} {nm : Fin n → Str} {fid : Str → Option K}

/-! ### What a successful run says about the input -/

theorem refused_none (h : refused nm fid = none) :
    (∀ i, symText (nm i) ≠ none) ∧ (∀ i, fid (nm i) ≠ none) ∧ (∃ s, nm s = sigma8) ∧ Function.Injective nm := by
  unfold refused at h
  split at h
  · cases h
  rename_i h1
  split at h
  · cases h
  rename_i h2
  split at h
  · cases h
  rename_i h3
  split at h
  · cases h
  rename_i h4
  push Not at h1 h2 h3 h4
  refine ⟨h1, h2, h3, fun i j e => ?_⟩
  by_contra hne
  exact h4 i j hne e

theorem T1_inv {F F1 : Matrix (Fin n) (Fin n) K} (h : T1 nm fid F = .ok F1) :
    refused nm fid = none ∧ (jac nm fid).det ≠ 0 ∧ F1 = ((jac nm fid)⁻¹).transpose * F * (jac nm fid)⁻¹ := by
  unfold T1 at h
  split at h
  · cases h
  rename_i hr
  split at h
  · cases h
  rename_i hd
  exact ⟨hr, hd, (Except.ok.inj h).symm⟩

theorem sym_injective_of_det (hd : (jac nm fid).det ≠ 0) : Function.Injective (sym nm) := by
  intro i j e
  by_contra hne
  refine hd (Matrix.det_zero_of_column_eq hne fun k => ?_)
  simp only [jac, Matrix.of_apply, e]

theorem fidTheta_sym (hi : Function.Injective (sym nm)) {v : Fin n → K} (hv : ∀ i, fid (nm i) = some (v i))
    (i : Fin n) : fidTheta nm fid (sym nm i) = v i := by
  unfold fidTheta
  have hn : (((List.finRange n).map fun i => (sym nm i, (fid (nm i)).getD 0)).map (·.1)).Nodup := by
    rw [List.map_map]
    exact (List.nodup_finRange n).map hi
  rw [PyDict.ofItems_nodup _ hn]
  have hm : (sym nm i, (fid (nm i)).getD 0) ∈ (List.finRange n).map fun i => (sym nm i, (fid (nm i)).getD 0) :=
    List.mem_map.mpr ⟨i, List.mem_finRange i, rfl⟩
  have := PyDict.lookup_of_mem _ hn hm
  simp only at this
  rw [this, hv i]
  rfl

theorem sigma8_not_bias : isBias sigma8 = false := by decide +kernel

theorem jac_entry (hi : Function.Injective (sym nm)) {v : Fin n → K} (hv : ∀ i, fid (nm i) = some (v i))
    {s : Fin n} (hs : nm s = sigma8) (i j : Fin n) :
    jac nm fid i j = if isBias (nm i) then (if i = j then v s else 0) + (if s = j then v i else 0)
      else if i = j then 1 else 0 := by
  have h8 : (symText sigma8).getD [] = sym nm s := by unfold sym; rw [hs]
  simp only [jac, Matrix.of_apply, thetap, h8]
  split
  · simp only [Expr.diff, fidTheta_sym hi hv, hi.eq_iff]
  · simp only [Expr.diff, hi.eq_iff]

/-- The inverse of the Jacobian, written out. -/
def inverseJac (nm : Fin n → Str) (v : Fin n → K) (s : Fin n) : Matrix (Fin n) (Fin n) K :=
  Matrix.of fun i j => if isBias (nm i) then (if i = j then (v s)⁻¹ else 0) - (if s = j then v i * (v s)⁻¹ else 0)
    else if i = j then 1 else 0

theorem inverseJac_mul (hi : Function.Injective (sym nm)) {v : Fin n → K} (hv : ∀ i, fid (nm i) = some (v i))
    {s : Fin n} (hs : nm s = sigma8) (h0 : v s ≠ 0 ∨ ∀ i, isBias (nm i) = false) :
    inverseJac nm v s * jac nm fid = 1 := by
  have hsb : isBias (nm s) = false := by rw [hs]; exact sigma8_not_bias
  ext i j
  rw [Matrix.mul_apply]
  simp only [inverseJac, Matrix.of_apply]
  cases hb : isBias (nm i) with
  | true =>
    have hv0 : v s ≠ 0 := h0.resolve_right fun h => by rw [h i] at hb; cases hb
    simp only [if_true, sub_mul, Finset.sum_sub_distrib, ite_mul, zero_mul, Finset.sum_ite_eq, Finset.mem_univ]
    rw [jac_entry hi hv hs i j, jac_entry hi hv hs s j, hb, hsb, Matrix.one_apply]
    simp only [if_true, Bool.false_eq_true, if_false]
    split <;> split <;> field_simp <;> ring
  | false =>
    simp only [Bool.false_eq_true, if_false, ite_mul, zero_mul, one_mul, Finset.sum_ite_eq, Finset.mem_univ, if_true]
    rw [jac_entry hi hv hs i j, hb, Matrix.one_apply]
    simp only [Bool.false_eq_true, if_false]

theorem det_iff (hi : Function.Injective (sym nm)) {v : Fin n → K} (hv : ∀ i, fid (nm i) = some (v i))
    {s : Fin n} (hs : nm s = sigma8) :
    (jac nm fid).det ≠ 0 ↔ v s ≠ 0 ∨ ∀ i, isBias (nm i) = false := by
  constructor
  · intro hd
    by_contra hc
    push Not at hc
    obtain ⟨h0, i, hb⟩ := hc
    have hb : isBias (nm i) = true := by simpa using hb
    refine hd (Matrix.det_eq_zero_of_column_eq_zero i fun k => ?_)
    rw [jac_entry hi hv hs k i]
    have hsi : s ≠ i := by
      rintro rfl
      rw [hs, sigma8_not_bias] at hb
      cases hb
    rw [if_neg hsi, h0]
    split
    · simp
    · rename_i hk
      rw [if_neg]
      rintro rfl
      exact hk hb
  · intro h0 hd
    have := congrArg Matrix.det (inverseJac_mul hi hv hs h0)
    rw [Matrix.det_mul, hd, mul_zero, Matrix.det_one] at this
    exact zero_ne_one this

theorem refused_iff : refused nm fid = none ↔
    (∀ i, symText (nm i) ≠ none) ∧ (∀ i, fid (nm i) ≠ none) ∧ (∃ s, nm s = sigma8) ∧ Function.Injective nm := by
  constructor
  · exact refused_none
  · rintro ⟨h1, h2, ⟨s, hs⟩, h4⟩
    unfold refused
    rw [if_neg (show ¬ (∃ i, symText (nm i) = none) from fun ⟨i, h⟩ => h1 i h),
      if_neg (show ¬ (∃ i, fid (nm i) = none) from fun ⟨i, h⟩ => h2 i h),
      if_neg (show ¬ (∀ i, nm i ≠ sigma8) from fun h => h s hs),
      if_neg (show ¬ (∃ i j, i ≠ j ∧ nm i = nm j) from fun ⟨i, j, hne, e⟩ => hne (h4 e))]

/-! ### When the change succeeds -/

/-- The change of parameters succeeds exactly if every name has a symbol of its own and a fiducial value, `sigma8` is
among them, and its fiducial value is not zero unless there is no bias parameter. -/
theorem T1_ok_iff (F : Matrix (Fin n) (Fin n) K) :
    (∃ F1, T1 nm fid F = .ok F1) ↔
      (∀ i, symText (nm i) ≠ none) ∧ (∀ i j, symText (nm i) = symText (nm j) → i = j) ∧
      (∀ i, fid (nm i) ≠ none) ∧ (∃ s, nm s = sigma8) ∧
      (fid sigma8 ≠ some 0 ∨ ∀ i, isBias (nm i) = false) := by
  have symInj : (∀ i, symText (nm i) ≠ none) → (Function.Injective (sym nm) ↔
      ∀ i j, symText (nm i) = symText (nm j) → i = j) := by
    intro h1
    constructor
    · intro hi i j e
      exact hi (by unfold sym; rw [e])
    · intro hi i j e
      refine hi i j ?_
      obtain ⟨a, ha⟩ := Option.ne_none_iff_exists'.mp (h1 i)
      obtain ⟨b, hb⟩ := Option.ne_none_iff_exists'.mp (h1 j)
      unfold sym at e
      rw [ha, hb] at e ⊢
      exact congrArg some e
  constructor
  · rintro ⟨F1, h⟩
    obtain ⟨hr, hd, -⟩ := T1_inv h
    obtain ⟨h1, h2, ⟨s, hs⟩, h4⟩ := refused_none hr
    have hi := sym_injective_of_det hd
    choose v hv using fun i => Option.ne_none_iff_exists'.mp (h2 i)
    refine ⟨h1, (symInj h1).mp hi, h2, ⟨s, hs⟩, ?_⟩
    rcases (det_iff hi hv hs).mp hd with h0 | h0
    · refine Or.inl ?_
      rw [← hs, hv s]
      exact fun e => h0 (Option.some.inj e)
    · exact Or.inr h0
  · rintro ⟨h1, h2, h3, ⟨s, hs⟩, h5⟩
    have hi := (symInj h1).mpr h2
    choose v hv using fun i => Option.ne_none_iff_exists'.mp (h3 i)
    have hr : refused nm fid = none :=
      refused_iff.mpr ⟨h1, h3, ⟨s, hs⟩, fun i j e => h2 i j (by rw [e])⟩
    have hd := (det_iff hi hv hs).mpr (h5.imp_left fun h e => h (by rw [← hs, hv s, e]))
    unfold T1
    rw [hr]
    simp only
    rw [if_neg hd]
    exact ⟨_, rfl⟩

/-- Eleven or more photometric bins: the second bin and the eleventh have the same symbol, and the change fails. -/
theorem many_bins_refused {i j : Fin n} (hi : nm i = "bgph1".toList) (hj : nm j = "bgph10".toList)
    (F : Matrix (Fin n) (Fin n) K) : ¬ ∃ F1, T1 nm fid F = .ok F1 := by
  intro h
  have := ((T1_ok_iff F).mp h).2.1 i j (by rw [hi, hj]; decide +kernel)
  rw [this, hj] at hi
  exact absurd hi (by decide +kernel)

/-- The parameters of intrinsic alignment have a blank in their TeX names, which makes two symbols: the change fails. -/
theorem alignment_refused {i : Fin n} (hi : nm i ∈ ["aIA".toList, "etaIA".toList, "betaIA".toList])
    (F : Matrix (Fin n) (Fin n) K) : ¬ ∃ F1, T1 nm fid F = .ok F1 := by
  intro h
  have hn : ∀ s ∈ ["aIA".toList, "etaIA".toList, "betaIA".toList], symText s = none := by decide +kernel
  exact ((T1_ok_iff F).mp h).1 i (hn _ hi)

/-- Exactly the parameters whose names begin with `bg` are bias parameters. -/
theorem isBias_iff (s : Str) : isBias s = true ↔ ∃ r, s = 'b' :: 'g' :: r := by
  unfold isBias
  rw [List.isPrefixOf_iff_prefix]
  exact ⟨fun ⟨r, h⟩ => ⟨r, h.symm⟩, fun ⟨r, h⟩ => ⟨r, h.symm⟩⟩

/-- C95. The label of a bias parameter gets the ending `_sigma8`; the other labels stay. -/
theorem newLabel_spec (s : Str) :
    (∀ r, s = 'b' :: 'g' :: r → newLabel s = s ++ ['_', 's', 'i', 'g', 'm', 'a', '8']) ∧
    ((∀ r, s ≠ 'b' :: 'g' :: r) → newLabel s = s) := by
  unfold newLabel
  refine ⟨fun r h => if_pos ((isBias_iff s).mpr ⟨r, h⟩), fun h => if_neg fun hb => ?_⟩
  obtain ⟨r, hr⟩ := (isBias_iff s).mp hb
  exact h r hr

example : newLabel "bg2".toList = "bg2_sigma8".toList ∧ newLabel "h".toList = "h".toList :=
  ⟨(newLabel_spec _).1 _ rfl, (newLabel_spec _).2 nofun⟩

/-- The labels of the changed matrix are different for different names. -/
theorem newLabel_injective {s t : Str} (h : newLabel s = newLabel t) : s = t := by
  have pre : ∀ (x y : Str), isBias x = true → isBias (x ++ y) = true := by
    intro x y hx
    unfold isBias at hx ⊢
    rw [List.isPrefixOf_iff_prefix] at hx ⊢
    exact hx.trans (List.prefix_append x y)
  unfold newLabel at h
  split at h <;> split at h
  · exact List.append_cancel_right h
  · rename_i h1 h2
    exact absurd (h ▸ pre _ _ h1) h2
  · rename_i h1 h2
    exact absurd (h.symm ▸ pre _ _ h2) h1
  · exact h

/-! ### What the changed matrix is -/

/-- The new parameters as functions of the old ones. -/
def coords (nm : Fin n → Str) (s : Fin n) (x : Fin n → K) (i : Fin n) : K :=
  if isBias (nm i) then x i * x s else x i

/-- The change of the new parameters to first order when the old ones change by `d` from `v`. -/
def firstOrder (nm : Fin n → Str) (s : Fin n) (v d : Fin n → K) (i : Fin n) : K :=
  if isBias (nm i) then v s * d i + v i * d s else d i

/-- The rest is of second order. -/
theorem coords_add (s : Fin n) (v d : Fin n → K) (i : Fin n) :
    coords nm s (v + d) i = coords nm s v i + firstOrder nm s v d i + (if isBias (nm i) then d i * d s else 0) := by
  unfold coords firstOrder
  split
  · simp only [Pi.add_apply]; ring
  · simp only [Pi.add_apply, add_zero]

theorem jac_mulVec (hi : Function.Injective (sym nm)) {v : Fin n → K} (hv : ∀ i, fid (nm i) = some (v i))
    {s : Fin n} (hs : nm s = sigma8) (d : Fin n → K) : jac nm fid *ᵥ d = firstOrder nm s v d := by
  ext i
  simp only [Matrix.mulVec, dotProduct, jac_entry hi hv hs, firstOrder]
  cases hb : isBias (nm i) with
  | true =>
    simp only [if_true, add_mul, Finset.sum_add_distrib, ite_mul, zero_mul, Finset.sum_ite_eq, Finset.mem_univ]
  | false =>
    simp only [Bool.false_eq_true, if_false, ite_mul, one_mul, zero_mul, Finset.sum_ite_eq, Finset.mem_univ, if_true]

/-- The changed matrix has the same information: the quadratic form of any change of the parameters has the same value
before and after. -/
theorem T1_information {F F1 : Matrix (Fin n) (Fin n) K} (h : T1 nm fid F = .ok F1) {v : Fin n → K}
    (hv : ∀ i, fid (nm i) = some (v i)) {s : Fin n} (hs : nm s = sigma8) (d e : Fin n → K) :
    firstOrder nm s v d ⬝ᵥ F1 *ᵥ firstOrder nm s v e = d ⬝ᵥ F *ᵥ e := by
  obtain ⟨-, hd, rfl⟩ := T1_inv h
  have hi := sym_injective_of_det hd
  have hu : IsUnit (jac nm fid).det := isUnit_iff_ne_zero.mpr hd
  rw [← jac_mulVec hi hv hs, ← jac_mulVec hi hv hs, ← Matrix.mulVec_mulVec, ← Matrix.mulVec_mulVec,
    Matrix.mulVec_mulVec e, Matrix.nonsing_inv_mul _ hu, Matrix.one_mulVec, Matrix.dotProduct_mulVec,
    ← Matrix.mulVec_transpose, Matrix.transpose_transpose, Matrix.mulVec_mulVec, Matrix.nonsing_inv_mul _ hu,
    Matrix.one_mulVec]

/-- The covariance of the new parameters is the propagated covariance of the old ones. -/
theorem T1_covariance {F F1 : Matrix (Fin n) (Fin n) K} (h : T1 nm fid F = .ok F1) (hF : F.det ≠ 0)
    {v : Fin n → K} (hv : ∀ i, fid (nm i) = some (v i)) {s : Fin n} (hs : nm s = sigma8) (i j : Fin n) :
    F1⁻¹ i j =
      match isBias (nm i), isBias (nm j) with
      | false, false => F⁻¹ i j
      | true, false => v s * F⁻¹ i j + v i * F⁻¹ s j
      | false, true => v s * F⁻¹ i j + v j * F⁻¹ i s
      | true, true => v s * v s * F⁻¹ i j + v s * v j * F⁻¹ i s + v i * v s * F⁻¹ s j + v i * v j * F⁻¹ s s := by
  obtain ⟨-, hd, rfl⟩ := T1_inv h
  have hi := sym_injective_of_det hd
  have hu : IsUnit (jac nm fid).det := isUnit_iff_ne_zero.mpr hd
  have hFu : IsUnit F.det := isUnit_iff_ne_zero.mpr hF
  have e : (((jac nm fid)⁻¹).transpose * F * (jac nm fid)⁻¹)⁻¹ =
      jac nm fid * F⁻¹ * (jac nm fid).transpose := by
    refine Matrix.inv_eq_left_inv ?_
    calc jac nm fid * F⁻¹ * (jac nm fid)ᵀ * ((jac nm fid)⁻¹ᵀ * F * (jac nm fid)⁻¹)
        = jac nm fid * F⁻¹ * ((jac nm fid)⁻¹ * jac nm fid)ᵀ * F * (jac nm fid)⁻¹ := by
          rw [Matrix.transpose_mul]; simp only [Matrix.mul_assoc]
      _ = jac nm fid * (F⁻¹ * F) * (jac nm fid)⁻¹ := by
          rw [Matrix.nonsing_inv_mul _ hu, Matrix.transpose_one, Matrix.mul_one]; simp only [Matrix.mul_assoc]
      _ = 1 := by rw [Matrix.nonsing_inv_mul _ hFu, Matrix.mul_one, Matrix.mul_nonsing_inv _ hu]
  rw [e]
  have row : ∀ (M : Matrix (Fin n) (Fin n) K) (a b : Fin n), (jac nm fid * M) a b =
      if isBias (nm a) then v s * M a b + v a * M s b else M a b := by
    intro M a b
    have := congrFun (jac_mulVec hi hv hs (fun k => M k b)) a
    simpa only [Matrix.mulVec, dotProduct, Matrix.mul_apply, firstOrder] using this
  have col : ∀ (M : Matrix (Fin n) (Fin n) K) (a b : Fin n), (M * (jac nm fid)ᵀ) a b =
      if isBias (nm b) then v s * M a b + v b * M a s else M a b := by
    intro M a b
    have := row Mᵀ b a
    rw [← Matrix.transpose_apply (jac nm fid * Mᵀ), Matrix.transpose_mul, Matrix.transpose_transpose] at this
    simpa only [Matrix.transpose_apply] using this
  rw [col, row, row]
  cases isBias (nm i) <;> cases isBias (nm j) <;> simp <;> ring

/-- The errors of the cosmological parameters, `sigma8` among them, and their correlations do not change. -/
theorem T1_cosmology {F F1 : Matrix (Fin n) (Fin n) K} (h : T1 nm fid F = .ok F1) (hF : F.det ≠ 0)
    (i j : Fin n) (hbi : isBias (nm i) = false) (hbj : isBias (nm j) = false) : F1⁻¹ i j = F⁻¹ i j := by
  obtain ⟨hr, -, -⟩ := T1_inv h
  obtain ⟨-, h2, ⟨s, hs⟩, -⟩ := refused_none hr
  choose v hv using fun i => Option.ne_none_iff_exists'.mp (h2 i)
  rw [T1_covariance h hF hv hs, hbi, hbj]

theorem inv_entry (hd : (jac nm fid).det ≠ 0) {v : Fin n → K} (hv : ∀ i, fid (nm i) = some (v i))
    {s : Fin n} (hs : nm s = sigma8) (k i : Fin n) (hi : nm i ≠ sigma8) :
    (jac nm fid)⁻¹ k i = if k = i then (if isBias (nm i) then (v s)⁻¹ else 1) else 0 := by
  have hinj := sym_injective_of_det hd
  have h0 := (det_iff hinj hv hs).mp hd
  rw [Matrix.inv_eq_left_inv (inverseJac_mul hinj hv hs h0)]
  have hsi : s ≠ i := by rintro rfl; exact hi hs
  simp only [inverseJac, Matrix.of_apply, if_neg hsi, sub_zero]
  by_cases hk : k = i
  · subst hk; simp
  · simp [hk]

/-- Dropping `sigma8` after the change keeps `sigma8` fixed: the result is the old matrix without `sigma8`, each bias
parameter counted in units of `sigma8`. -/
theorem drop_spec {F : Matrix (Fin n) (Fin n) K} {G : Matrix (Kept nm) (Kept nm) K}
    (h : applyT1Drop nm fid F = .ok G) {v : Fin n → K} (hv : ∀ i, fid (nm i) = some (v i))
    {s : Fin n} (hs : nm s = sigma8) (i j : Kept nm) :
    G i j = (if isBias (nm i.1) then (v s)⁻¹ else 1) * F i.1 j.1 * (if isBias (nm j.1) then (v s)⁻¹ else 1) := by
  unfold applyT1Drop at h
  split at h
  · cases h
  rename_i F1 h1
  cases h
  obtain ⟨-, hd, rfl⟩ := T1_inv h1
  simp only [Matrix.submatrix_apply, Matrix.mul_apply, Matrix.transpose_apply, inv_entry hd hv hs _ i.1 i.2,
    inv_entry hd hv hs _ j.1 j.2, ite_mul, zero_mul, mul_ite, mul_zero, Finset.sum_ite_eq', Finset.mem_univ, if_true]

/-- The change of the old parameters that the final matrix takes for a change of parameter `a`: for `sigma8` it is a
change of the bias parameters in proportion to their values. -/
def direction (nm : Fin n → Str) (v : Fin n → K) (s a : Fin n) (i : Fin n) : K :=
  if a = s then (if isBias (nm i) then v i / v s else 0) else if i = a then 1 else 0

/-- The final matrix of the two changes. The bias parameters are fixed, not marginalised. -/
theorem final_spec {F : Matrix (Fin n) (Fin n) K} {G : Matrix (Cosmo nm) (Cosmo nm) K}
    (h : applyT1DropT2 nm fid F = .ok G) {v : Fin n → K} (hv : ∀ i, fid (nm i) = some (v i))
    {s : Fin n} (hs : nm s = sigma8) (a b : Cosmo nm) :
    G a b = direction nm v s a.1 ⬝ᵥ F *ᵥ direction nm v s b.1 := by
  unfold applyT1DropT2 at h
  split at h
  · cases h
  rename_i F1 h1
  cases h
  unfold applyT1Drop at h1
  split at h1
  · cases h1
  rename_i F1 h1'
  cases h1
  obtain ⟨hr, hd, rfl⟩ := T1_inv h1'
  obtain ⟨-, -, -, hinj⟩ := refused_none hr
  have hi := sym_injective_of_det hd
  have key : ∀ (k : Fin n) (c : Cosmo nm),
      ((jac nm fid)⁻¹.submatrix id (fun i : Kept nm => i.1) * jac2 nm fid) k c = direction nm v s c.1 k := by
    intro k c
    have j2 : ∀ x : Kept nm, jac2 nm fid x c = jac nm fid x.1 c.1 := fun _ => rfl
    simp only [Matrix.mul_apply, Matrix.submatrix_apply, id, j2]
    unfold direction
    by_cases hk : nm k = sigma8
    · have hks : k = s := hinj (hk.trans hs.symm)
      rw [Finset.sum_eq_zero]
      · subst hks
        rw [hk, sigma8_not_bias]
        by_cases hc : c.1 = k
        · simp [hc]
        · simp [hc, Ne.symm hc]
      · intro x _
        rw [inv_entry hd hv hs k x.1 x.2, if_neg (show ¬ (k = x.1) from fun e => x.2 (e ▸ hk)), zero_mul]
    · have hsk : s ≠ k := by rintro rfl; exact hk hs
      rw [Finset.sum_eq_single (⟨k, hk⟩ : Kept nm)]
      · rw [inv_entry hd hv hs k k hk, jac_entry hi hv hs, if_pos rfl]
        cases hb : isBias (nm k) with
        | true =>
          have hkc : k ≠ c.1 := by rintro rfl; rw [c.2] at hb; cases hb
          by_cases hc : c.1 = s
          · simp [hc, hsk.symm, div_eq_inv_mul]
          · simp [hc, Ne.symm hc, hkc]
        | false =>
          by_cases hc : c.1 = s
          · simp [hc, hsk.symm]
          · simp [hc]
      · intro x _ hx
        rw [inv_entry hd hv hs k x.1 x.2, if_neg (show ¬ (k = x.1) from fun e => hx (Subtype.ext e.symm)), zero_mul]
      · intro hx
        exact absurd (Finset.mem_univ _) hx
  have e : (jac2 nm fid)ᵀ * ((jac nm fid)⁻¹ᵀ * F * (jac nm fid)⁻¹).submatrix (fun i : Kept nm => i.1) (fun i => i.1) *
        jac2 nm fid =
      ((jac nm fid)⁻¹.submatrix id (fun i : Kept nm => i.1) * jac2 nm fid)ᵀ * F *
        ((jac nm fid)⁻¹.submatrix id (fun i : Kept nm => i.1) * jac2 nm fid) := by
    rw [Matrix.transpose_mul, ← Matrix.submatrix_mul_equiv _ _ _ (Equiv.refl _) _,
      ← Matrix.submatrix_mul_equiv _ _ _ (Equiv.refl _) _]
    simp only [Matrix.mul_assoc]
    rfl
  rw [e, Matrix.mul_assoc, Matrix.mul_apply]
  simp only [Matrix.transpose_apply, key, dotProduct]
  refine Finset.sum_congr rfl fun k _ => ?_
  rw [Matrix.mul_apply]
  simp only [key, Matrix.mulVec, dotProduct]

/-- If the data only know the products, so that a change of `sigma8` is undone by a change of the bias parameters, then
the final matrix is the old matrix without the bias parameters. -/
theorem final_degenerate {F : Matrix (Fin n) (Fin n) K} {G : Matrix (Cosmo nm) (Cosmo nm) K}
    (h : applyT1DropT2 nm fid F = .ok G) (hsym : F.transpose = F) {v : Fin n → K}
    (hv : ∀ i, fid (nm i) = some (v i)) {s : Fin n} (hs : nm s = sigma8)
    (hdeg : F *ᵥ (Pi.single s 1 - fun i => if isBias (nm i) then v i / v s else 0) = 0) (a b : Cosmo nm) :
    G a b = F a.1 b.1 := by
  rw [final_spec h hv hs]
  set u : Fin n → K := Pi.single s 1 - fun i => if isBias (nm i) then v i / v s else 0 with hu
  have hdir : ∀ c : Fin n, direction nm v s c = Pi.single c 1 - (if c = s then u else 0) := by
    intro c
    ext i
    unfold direction
    by_cases hc : c = s
    · subst hc
      simp only [if_true, hu, sub_sub_cancel]
    · simp only [if_neg hc, sub_zero, Pi.single_apply]
  have h1 : ∀ c : Fin n, F *ᵥ direction nm v s c = F *ᵥ Pi.single c 1 := by
    intro c
    rw [hdir, Matrix.mulVec_sub]
    split
    · rw [hdeg, sub_zero]
    · rw [Matrix.mulVec_zero, sub_zero]
  have h2 : ∀ (c : Fin n) (w : Fin n → K), direction nm v s c ⬝ᵥ F *ᵥ w = Pi.single c 1 ⬝ᵥ F *ᵥ w := by
    intro c w
    have tr : ∀ x : Fin n → K, x ⬝ᵥ F *ᵥ w = (F *ᵥ x) ⬝ᵥ w := by
      intro x
      rw [Matrix.dotProduct_mulVec, ← Matrix.mulVec_transpose, hsym]
    rw [tr, h1, ← tr]
  rw [h2, h1]
  simp

/-! ### A case -/

/-- Three parameters. -/
def exNames : Fin 3 → Str := ![sigma8, "Omm".toList, "bgph0".toList]

def exFid (s : Str) : Option ℚ := if s = sigma8 then some (4 / 5) else if s = "Omm".toList then some (3 / 10) else some 2

example (F : Matrix (Fin 3) (Fin 3) ℚ) : ∃ F1, T1 exNames exFid F = .ok F1 := by
  refine (T1_ok_iff F).mpr ⟨by decide +kernel, by decide +kernel, by decide +kernel, ⟨0, rfl⟩, Or.inl ?_⟩
  decide +kernel

/-! ### The files and the differences -/

theorem collect_go (legend : Dict Str Str) (code : Str → Str) (files : List Str)
    (h : ∀ f ∈ files, ∃ k, codeKey f = some k ∧ legend.lookup k = some (code f)) (acc : Dict Str Str) :
    collect.go legend files acc = .ok (PyDict.update acc (files.map fun f => (code f, f))) := by
  induction files generalizing acc with
  | nil => rfl
  | cons f rest ih =>
    obtain ⟨k, hk, hl⟩ := h f (List.mem_cons_self ..)
    rw [collect.go, hk]
    simp only [hl]
    rw [ih (fun g hg => h g (List.mem_cons_of_mem _ hg))]
    rfl

/-- Each code is given the last of its files in the order of the listing. -/
theorem collect_spec (legend : Dict Str Str) (code : Str → Str) (files : List Str)
    (h : ∀ f ∈ files, ∃ k, codeKey f = some k ∧ legend.lookup k = some (code f)) :
    ∃ d, collect legend files = .ok d ∧
      ∀ c, d.lookup c = (files.reverse.find? (fun f => code f = c)) := by
  refine ⟨_, collect_go legend code files h [], fun c => ?_⟩
  rw [PyDict.lookup_update]
  have : ∀ l : List Str, (l.map fun f => (code f, f)).lookup c = l.find? (fun f => code f = c) := by
    intro l
    induction l with
    | nil => rfl
    | cons f l ih =>
      rw [List.map_cons, List.lookup_cons, List.find?_cons]
      by_cases hc : code f = c
      · simp [hc]
      · have : (c == code f) = false := by simpa using Ne.symm hc
        simp [this, hc, ih]
  rw [← List.map_reverse, this]
  cases List.find? (fun f => decide (code f = c)) files.reverse <;> rfl

/-- Every file is read if no two of them belong to the same code. -/
theorem collect_all (legend : Dict Str Str) (code : Str → Str) (files : List Str)
    (h : ∀ f ∈ files, ∃ k, codeKey f = some k ∧ legend.lookup k = some (code f))
    (hd : ∀ f ∈ files, ∀ g ∈ files, code f = code g → f = g) :
    ∃ d, collect legend files = .ok d ∧ ∀ c f, d.lookup c = some f ↔ f ∈ files ∧ code f = c := by
  obtain ⟨d, hc, hl⟩ := collect_spec legend code files h
  refine ⟨d, hc, fun c f => ?_⟩
  rw [hl]
  constructor
  · intro e
    exact ⟨List.mem_reverse.mp (List.mem_of_find?_eq_some e), by simpa using List.find?_some e⟩
  · rintro ⟨hf, rfl⟩
    cases e : List.find? (fun g => decide (code g = code f)) files.reverse with
    | none =>
      have := List.find?_eq_none.mp e f (List.mem_reverse.mpr hf)
      exact absurd this (by simp)
    | some g =>
      have hg : g ∈ files := List.mem_reverse.mp (List.mem_of_find?_eq_some e)
      have hgc : code g = code f := by simpa using List.find?_some e
      rw [hd g hg f hf hgc]

/-- A file with another name, or of a code that the legend does not know, makes the reading fail. -/
theorem collect_refused (legend : Dict Str Str) (files : List Str) (f : Str) (hf : f ∈ files)
    (h : codeKey f = none ∨ ∃ k, codeKey f = some k ∧ legend.lookup k = none) (d : Dict Str Str) :
    collect legend files ≠ .ok d := by
  have : ∀ acc, collect.go legend files acc ≠ .ok d := by
    induction files with
    | nil => cases hf
    | cons g rest ih =>
      intro acc
      rw [collect.go]
      rcases List.mem_cons.mp hf with rfl | hm
      · rcases h with h | ⟨k, hk, hl⟩
        · rw [h]; simp
        · rw [hk]; simp [hl]
      · split
        · simp
        · split
          · simp
          · exact ih hm _
  exact this []

/-- The code of a file is the two capital letters after the prefix. -/
theorem codeKey_iff (name k : Str) : codeKey name = some k ↔
    ∃ a b rest, name = filePrefix ++ a :: b :: (rest ++ ".txt".toList) ∧ k = [a, b] ∧
      isUpper a = true ∧ isUpper b = true := by
  unfold codeKey
  constructor
  · intro h
    split at h
    · rename_i a b rest hp
      split at h
      · rename_i hc
        rw [Bool.and_eq_true, Bool.and_eq_true] at hc
        obtain ⟨⟨ha, hb⟩, hr⟩ := hc
        obtain ⟨t, ht⟩ := List.isSuffixOf_iff_suffix.mp hr
        refine ⟨a, b, t, ?_, (Option.some.inj h).symm, ha, hb⟩
        rw [ht]
        exact (stripPrefix_eq_some _ _ _).mp hp
      · cases h
    · cases h
  · rintro ⟨a, b, rest, rfl, rfl, ha, hb⟩
    rw [stripPrefix_append]
    simp only [ha, hb, Bool.true_and]
    rw [if_pos (List.isSuffixOf_iff_suffix.mpr (List.suffix_append _ _))]

/-- Witness against the claim that every file is read: of two files of the same code one is dropped in silence, and
which one depends on the order in which the directory is listed. -/
theorem file_dropped :
    let f := "fisher_matrices_results_baseline_GR_LP.txt".toList
    let g := "fisher_matrices_results_baseline_GR_LP_v2.txt".toList
    let legend : Dict Str Str := [("LP".toList, "SEYFERT".toList)]
    (collect legend [f, g]).toOption = some [("SEYFERT".toList, g)] ∧
      (collect legend [g, f]).toOption = some [("SEYFERT".toList, f)] := by
  decide +kernel

/-- Only two scenarios are known, and the directory tells scenario and curvature apart. -/
theorem subdir_spec (flat : Bool) (scenario d : Str) : subdir flat scenario = .ok d ↔
    (scenario = "optimistic".toList ∨ scenario = "pessimistic".toList) ∧
      d = (if flat then "Flat/".toList else "NonFlat/".toList) ++ scenario := by
  unfold subdir
  split
  · rename_i h
    constructor
    · intro e
      refine ⟨h, ?_⟩
      rw [← Except.ok.inj e]
      cases flat <;> simp
    · rintro ⟨-, rfl⟩
      cases flat <;> simp
  · rename_i h
    constructor
    · intro e; cases e
    · rintro ⟨h', -⟩; exact absurd h' h

/-- The differences of the codes from their mean cancel. -/
theorem deltas_mean_sum [CharZero K] (l : List K) (h : mean l ≠ 0) : (deltasMean l).sum = 0 := by
  have hl : (l.length : K) ≠ 0 := by
    intro e
    apply h
    unfold mean
    rw [e, div_zero]
  have key : ∀ (r : K) (m : List K), (m.map (delta r)).sum = 100 * (m.sum - m.length * r) / r := by
    intro r m
    induction m with
    | nil => simp
    | cons x m ih =>
      rw [List.map_cons, List.sum_cons, ih, List.sum_cons, List.length_cons, delta]
      push_cast
      ring
  unfold deltasMean
  rw [key]
  have : (l.length : K) * mean l = l.sum := by
    unfold mean
    field_simp
  rw [this, sub_self, mul_zero, zero_div]

/-- The differences do not depend on the units of the parameter. -/
theorem deltas_mean_units (l : List K) (c : K) (hc : c ≠ 0) : deltasMean (l.map (c * ·)) = deltasMean l := by
  have hm : mean (l.map (c * ·)) = c * mean l := by
    unfold mean
    rw [List.sum_map_mul_left, List.length_map, List.map_id', mul_div_assoc]
  unfold deltasMean
  rw [hm, List.map_map]
  refine List.map_congr_left fun x _ => ?_
  simp only [Function.comp, delta]
  rw [← mul_sub, mul_left_comm, mul_div_mul_left _ _ hc]

/-- The error of a code is found back from the difference and the reference. -/
theorem delta_back [CharZero K] (r x : K) (hr : r ≠ 0) : r * (1 + delta r x / 100) = x := by
  unfold delta
  have : (100 : K) ≠ 0 := by norm_num
  field_simp
  ring

theorem count_take {α : Type} (p : α → Bool) (s : List α) (a : ℕ) (ha : a ≤ s.length) (h : ∀ x ∈ s.take a, p x = true) :
    a ≤ s.countP p := by
  have h1 : (s.take a).countP p = a := by
    rw [List.countP_eq_length.mpr h, List.length_take, Nat.min_eq_left ha]
  calc a = (s.take a).countP p := h1.symm
    _ ≤ s.countP p := (List.take_sublist a s).countP_le

theorem count_drop {α : Type} (p : α → Bool) (s : List α) (a : ℕ) (h : ∀ x ∈ s.drop a, p x = true) :
    s.length - a ≤ s.countP p := by
  have h1 : (s.drop a).countP p = s.length - a := by
    rw [List.countP_eq_length.mpr h, List.length_drop]
  calc s.length - a = (s.drop a).countP p := h1.symm
    _ ≤ s.countP p := (List.drop_sublist a s).countP_le

/-- At least half of the codes have an error not above the median, and at least half not below it. -/
theorem median_spec (l : List ℚ) (hl : l ≠ []) :
    l.length ≤ 2 * l.countP (fun x => x ≤ median l) ∧ l.length ≤ 2 * l.countP (fun x => median l ≤ x) := by
  have hpos : 0 < l.length := List.length_pos_iff.mpr hl
  set s := l.mergeSort (fun a b => decide (a ≤ b)) with hs
  have hperm : s.Perm l := List.mergeSort_perm l _
  have hlen : s.length = l.length := hperm.length_eq
  have hsort : s.Pairwise (fun a b => decide (a ≤ b) = true) :=
    List.pairwise_mergeSort (fun a b c h1 h2 => by simp only [decide_eq_true_eq] at *; exact h1.trans h2)
      (fun a b => by simp only [Bool.or_eq_true, decide_eq_true_eq]; exact le_total a b) l
  have mono : ∀ (i j : ℕ) (hi : i < s.length) (hj : j < s.length), i ≤ j → s[i] ≤ s[j] := by
    intro i j hi hj hij
    rcases Nat.eq_or_lt_of_le hij with rfl | hlt
    · exact le_refl _
    · simpa using List.pairwise_iff_getElem.mp hsort i j hi hj hlt
  have up : ∀ (k : ℕ) (hk : k < s.length) (m : ℚ), s[k] ≤ m → k + 1 ≤ s.countP (fun x => x ≤ m) := by
    intro k hk m hm
    refine count_take _ s (k + 1) hk fun x hx => ?_
    obtain ⟨i, hi, rfl⟩ := List.getElem_of_mem hx
    rw [List.length_take] at hi
    rw [List.getElem_take]
    simpa using (mono i k (by omega) hk (by omega)).trans hm
  have down : ∀ (k : ℕ) (hk : k < s.length) (m : ℚ), m ≤ s[k] → s.length - k ≤ s.countP (fun x => m ≤ x) := by
    intro k hk m hm
    refine count_drop _ s k fun x hx => ?_
    obtain ⟨i, hi, rfl⟩ := List.getElem_of_mem hx
    rw [List.length_drop] at hi
    rw [List.getElem_drop]
    simpa using hm.trans (mono k (k + i) hk (by omega) (by omega))
  rw [← hperm.countP_eq, ← hperm.countP_eq]
  have hk : l.length / 2 < s.length := by omega
  by_cases hodd : l.length % 2 = 1
  · have hm : median l = s[l.length / 2] := by
      unfold median
      simp only [if_pos hodd, ← hs]
      rw [List.getD_eq_getElem?_getD, List.getElem?_eq_getElem hk, Option.getD_some]
    have h1 := up _ hk (median l) (le_of_eq hm.symm)
    have h2 := down _ hk (median l) (le_of_eq hm)
    constructor <;> omega
  · have hk' : l.length / 2 - 1 < s.length := by omega
    have hm : median l = (s[l.length / 2 - 1] + s[l.length / 2]) / 2 := by
      unfold median
      simp only [if_neg hodd, ← hs]
      rw [List.getD_eq_getElem?_getD, List.getElem?_eq_getElem hk', Option.getD_some, List.getD_eq_getElem?_getD,
        List.getElem?_eq_getElem hk, Option.getD_some]
    have hle := mono _ _ hk' hk (by omega)
    have h1 := up _ hk' (median l) (by rw [hm]; linarith)
    have h2 := down _ hk (median l) (by rw [hm]; linarith)
    constructor <;> omega

/-- For positive errors at least half of the differences from the median are not positive and at least half are not
negative. -/
theorem deltas_median_half (l : List ℚ) (hl : l ≠ []) (h : 0 < median l) :
    l.length ≤ 2 * (deltasMedian l).countP (fun x => x ≤ 0) ∧
      l.length ≤ 2 * (deltasMedian l).countP (fun x => 0 ≤ x) := by
  have e1 : ∀ x, delta (median l) x ≤ 0 ↔ x ≤ median l := by
    intro x
    unfold delta
    rw [div_le_iff₀ h]
    constructor <;> intro h <;> linarith
  have e2 : ∀ x, 0 ≤ delta (median l) x ↔ median l ≤ x := by
    intro x
    unfold delta
    rw [le_div_iff₀ h]
    constructor <;> intro h <;> linarith
  unfold deltasMedian
  rw [List.countP_map, List.countP_map]
  simp only [Function.comp_def, e1, e2]
  exact median_spec l hl

example : median [1, 2, 4] = 2 := by
  unfold median
  rw [List.mergeSort_of_pairwise (by decide +kernel)]
  decide +kernel

end Seyfert.Reparam
