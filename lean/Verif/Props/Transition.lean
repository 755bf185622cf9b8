import Verif.Model.Transition
import Verif.Props.Linalg
import Mathlib.Algebra.BigOperators.Field

/-! C154: the transition matrix. -/

namespace Seyfert.Linalg

/-- There is at most one pseudo-inverse. -/
theorem pinv_unique {r c : Nat} {A : Matrix (Fin r) (Fin c) ℝ} {P Q : Matrix (Fin c) (Fin r) ℝ} (hP : IsPinv A P)
    (hQ : IsPinv A Q) : P = Q := by
  have h1 : A * P = A * Q := by
    calc A * P = (A * Q * A) * P := by rw [hQ.left]
      _ = (A * Q) * (A * P) := by simp only [Matrix.mul_assoc]
      _ = (A * Q).transpose * (A * P).transpose := by rw [hQ.symm_left, hP.symm_left]
      _ = ((A * P) * (A * Q)).transpose := (Matrix.transpose_mul _ _).symm
      _ = ((A * P * A) * Q).transpose := by simp only [Matrix.mul_assoc]
      _ = A * Q := by rw [hP.left, hQ.symm_left]
  have h2 : P * A = Q * A := by
    calc P * A = P * (A * Q * A) := by rw [hQ.left]
      _ = (P * A) * (Q * A) := by simp only [Matrix.mul_assoc]
      _ = (P * A).transpose * (Q * A).transpose := by rw [hQ.symm_right, hP.symm_right]
      _ = ((Q * A) * (P * A)).transpose := (Matrix.transpose_mul _ _).symm
      _ = (Q * (A * P * A)).transpose := by simp only [Matrix.mul_assoc]
      _ = Q * A := by rw [hP.left, hQ.symm_right]
  calc P = P * A * P := hP.right.symm
    _ = Q * A * P := by rw [h2]
    _ = Q * (A * P) := Matrix.mul_assoc _ _ _
    _ = Q * (A * Q) := by rw [h1]
    _ = Q := by rw [← Matrix.mul_assoc, hQ.right]

section Indicator

variable {r c : Nat} (σ : Fin r → Fin c)

/-- The matrix with a one in each row. -/
def indicator : Matrix (Fin r) (Fin c) ℝ := fun a b => if σ a = b then 1 else 0

/-- Its rows, divided by how often each column occurs. -/
noncomputable def averaging : Matrix (Fin r) (Fin c) ℝ :=
  fun a b => if σ a = b then 1 / ((Finset.univ.filter fun x => σ x = b).card : ℝ) else 0

theorem fiber_card (hσ : Function.Surjective σ) (b : Fin c) : ((Finset.univ.filter fun x => σ x = b).card : ℝ) ≠ 0 := by
  obtain ⟨a, ha⟩ := hσ b
  exact Nat.cast_ne_zero.mpr (Finset.card_ne_zero_of_mem (Finset.mem_filter.mpr ⟨Finset.mem_univ a, ha⟩))

theorem indicator_averaging (hσ : Function.Surjective σ) : (indicator σ).transpose * averaging σ = 1 := by
  ext b b'
  rw [Matrix.mul_apply, Matrix.one_apply]
  simp only [Matrix.transpose_apply, indicator, averaging, ite_mul, one_mul, zero_mul]
  rw [← Finset.sum_filter]
  by_cases h : b = b'
  · subst h
    rw [if_pos rfl, Finset.sum_congr rfl (g := fun _ => 1 / ((Finset.univ.filter fun x => σ x = b).card : ℝ))
      fun a ha => if_pos (Finset.mem_filter.mp ha).2, Finset.sum_const, nsmul_eq_mul]
    exact mul_one_div_cancel (fiber_card σ hσ b)
  · rw [if_neg h]
    exact Finset.sum_eq_zero fun a ha => if_neg fun e => h ((Finset.mem_filter.mp ha).2.symm.trans e)

theorem indicator_pinv (hσ : Function.Surjective σ) : IsPinv (indicator σ).transpose (averaging σ) := by
  have h := indicator_averaging σ hσ
  refine ⟨by rw [h, Matrix.one_mul], by rw [Matrix.mul_assoc, h, Matrix.mul_one], by rw [h, Matrix.transpose_one], ?_⟩
  ext a a'
  rw [Matrix.transpose_apply, Matrix.mul_apply, Matrix.mul_apply]
  refine Finset.sum_congr rfl fun b _ => ?_
  simp only [Matrix.transpose_apply, indicator, averaging]
  by_cases h1 : σ a = b <;> by_cases h2 : σ a' = b <;> simp [h1, h2]

end Indicator

/-! ### The duplication matrix -/

theorem symPos_inj {n : Nat} {i j i' j' : Fin n} (hij : i ≤ j) (h : symPos i' j' = symPos i j) :
    (i' = i ∧ j' = j) ∨ (i' = j ∧ j' = i) := by
  have h0 : (triuIdxsByCol n)[symPos i j]? = some (i, j) := by
    unfold symPos; rw [if_pos hij]; exact triu_getElem? i j hij
  rw [← h] at h0
  unfold symPos at h0
  split at h0
  · next hle =>
    rw [triu_getElem? i' j' hle] at h0
    cases h0; exact Or.inl ⟨rfl, rfl⟩
  · next hle =>
    rw [triu_getElem? j' i' (le_of_lt (not_le.mp hle))] at h0
    cases h0; exact Or.inr ⟨rfl, rfl⟩

theorem symPos_comm {n : Nat} (i j : Fin n) : symPos i j = symPos j i := by
  unfold symPos
  rcases lt_trichotomy i j with h | h | h
  · rw [if_pos h.le, if_neg (not_le.mpr h)]
  · subst h; rfl
  · rw [if_neg (not_le.mpr h), if_pos h.le]

/-- The place of an entry of a square matrix among all entries, and back. -/
def rowOf {n : Nat} (a : Fin (n * n)) : Fin n := ⟨a.val / n, Nat.div_lt_of_lt_mul a.2⟩

def colOf {n : Nat} (a : Fin (n * n)) : Fin n :=
  ⟨a.val % n, Nat.mod_lt _ (Nat.pos_of_ne_zero (by rintro rfl; exact absurd a.2 (by simp)))⟩

def place {n : Nat} (i j : Fin n) : Fin (n * n) := ⟨i.val * n + j.val, by
  have hi := i.2
  calc i.val * n + j.val < i.val * n + n := Nat.add_lt_add_left j.2 _
    _ = (i.val + 1) * n := by ring
    _ ≤ n * n := Nat.mul_le_mul_right _ hi⟩

theorem rowOf_place {n : Nat} (i j : Fin n) : rowOf (place i j) = i := by
  apply Fin.ext
  show (i.val * n + j.val) / n = i.val
  rw [Nat.mul_comm, Nat.mul_add_div (Nat.pos_of_ne_zero (by rintro rfl; exact i.elim0)), Nat.div_eq_of_lt j.2, Nat.add_zero]

theorem colOf_place {n : Nat} (i j : Fin n) : colOf (place i j) = j := by
  apply Fin.ext
  show (i.val * n + j.val) % n = j.val
  rw [Nat.mul_comm, Nat.mul_add_mod, Nat.mod_eq_of_lt j.2]

theorem place_of {n : Nat} (a : Fin (n * n)) : place (rowOf a) (colOf a) = a := by
  apply Fin.ext
  exact Nat.div_add_mod' a.val n

/-- The place in `vecp` of each place in `vec`. -/
def sym (n : Nat) (a : Fin (n * n)) : Fin (n * (n + 1) / 2) := ⟨symPos (rowOf a) (colOf a), symPos_lt _ _⟩

theorem sym_surjective (n : Nat) : Function.Surjective (sym n) := by
  intro k
  have hk : k.val < (triuIdxsByCol n).length := by rw [triu_length]; exact k.2
  obtain ⟨⟨i, j⟩, hp⟩ : ∃ p, (triuIdxsByCol n)[k.val]? = some p := ⟨_, List.getElem?_eq_getElem hk⟩
  have hle : i ≤ j := (mem_triu (i, j)).mp (List.mem_of_getElem? hp)
  refine ⟨place i j, Fin.ext ?_⟩
  show symPos (rowOf (place i j)) (colOf (place i j)) = k.val
  rw [rowOf_place, colOf_place]
  have h0 : (triuIdxsByCol n)[symPos i j]? = some (i, j) := by
    unfold symPos; rw [if_pos hle]; exact triu_getElem? i j hle
  exact nodup_getElem?_inj (triu_nodup n) h0 hp

theorem duplication_indicator (n : Nat) : ∃ D, duplicationMatrix ℝ n = .ok D ∧
    toMat (n * n) (n * (n + 1) / 2) D = indicator (sym n) := by
  obtain ⟨D, hD, _, hrow⟩ := duplicationMatrix_eq (K := ℝ) n
  refine ⟨D, hD, ?_⟩
  ext a b
  obtain ⟨row, h1, h2⟩ := hrow (rowOf a) (colOf a)
  have ha : (rowOf a).val * n + (colOf a).val = a.val := Nat.div_add_mod' a.val n
  rw [ha] at h1
  unfold toMat indicator
  have hg : D.getD a.val [] = row := by rw [List.getD_eq_getElem?_getD, h1, Option.getD_some]
  rw [hg, List.getD_eq_getElem?_getD, h2, eyeRow_getElem? (tri n) _ b.val b.2, Option.getD_some]
  have : b.val = symPos (rowOf a) (colOf a) ↔ sym n a = b := by
    constructor
    · intro h; exact Fin.ext h.symm
    · rintro rfl; rfl
  simp only [this]

/-- C154. There is exactly one transition matrix of each order but zero. -/
theorem transition_exists {n : Nat} (hn : 0 < n) : ∃! B, IsTransition n B := by
  obtain ⟨D, hD, hd⟩ := duplication_indicator n
  refine ⟨averaging (sym n), ⟨hn, D, hD, by rw [hd]; exact indicator_pinv _ (sym_surjective n)⟩, ?_⟩
  rintro B ⟨_, D', hD', hB⟩
  rw [hD] at hD'
  cases hD'
  rw [hd] at hB
  exact pinv_unique hB (indicator_pinv _ (sym_surjective n))

/-- C154. For every square matrix `A`, the transposed transition matrix gives the upper triangle of `(A + Aᵀ) / 2` from
`vec(A)`; for a symmetric one this is `vecp(A)`. -/
theorem transition_spec {n : Nat} {B : Matrix (Fin (n * n)) (Fin (n * (n + 1) / 2)) ℝ} (hB : IsTransition n B)
    (A : Arr2 n n ℝ) : ∃ v, vecp (fun i j => (A i j + A j i) / 2) = .ok v ∧ v.length = n * (n + 1) / 2 ∧
      ∀ k : Fin (n * (n + 1) / 2), v[k.val]? = some (B.transpose.mulVec (fun a => (vec A).getD a 0) k) := by
  obtain ⟨_, _, hu⟩ := transition_exists hB.1
  obtain ⟨D, hD, hd⟩ := duplication_indicator n
  have hB' : B = averaging (sym n) := by
    rw [hu B hB, hu (averaging (sym n)) ⟨hB.1, D, hD, by rw [hd]; exact indicator_pinv _ (sym_surjective n)⟩]
  refine ⟨_, vecp_square _, by simp only [fancy, List.length_map, triu_length]; rfl, fun k => ?_⟩
  have hk : k.val < (triuIdxsByCol n).length := by rw [triu_length]; exact k.2
  obtain ⟨⟨i, j⟩, hp⟩ : ∃ p, (triuIdxsByCol n)[k.val]? = some p := ⟨_, List.getElem?_eq_getElem hk⟩
  have hle : i ≤ j := (mem_triu (i, j)).mp (List.mem_of_getElem? hp)
  rw [fancy_getElem? _ _ _ i j hp, hB']
  congr 1
  have h0 : (triuIdxsByCol n)[symPos i j]? = some (i, j) := by
    unfold symPos; rw [if_pos hle]; exact triu_getElem? i j hle
  have hkey : symPos i j = k.val := nodup_getElem?_inj (triu_nodup n) h0 hp
  have hfib : (Finset.univ.filter fun a => sym n a = k) = {place i j, place j i} := by
    ext a
    rw [Finset.mem_filter, Finset.mem_insert, Finset.mem_singleton]
    constructor
    · rintro ⟨_, h⟩
      have : symPos (rowOf a) (colOf a) = symPos i j := by rw [hkey, ← h]; rfl
      rcases symPos_inj hle this with ⟨h1, h2⟩ | ⟨h1, h2⟩
      · left; rw [← place_of a, h1, h2]
      · right; rw [← place_of a, h1, h2]
    · rintro (rfl | rfl)
      · refine ⟨Finset.mem_univ _, Fin.ext ?_⟩
        show symPos (rowOf (place i j)) (colOf (place i j)) = k.val
        rw [rowOf_place, colOf_place, hkey]
      · refine ⟨Finset.mem_univ _, Fin.ext ?_⟩
        show symPos (rowOf (place j i)) (colOf (place j i)) = k.val
        rw [rowOf_place, colOf_place, symPos_comm, hkey]
  have hvec : ∀ i j : Fin n, (vec A).getD (place i j).val 0 = A j i := by
    intro i j
    have h3 := vec_getElem? A j i
    rw [List.getD_eq_getElem?_getD, show (place i j).val = j.val + n * i.val from by show i.val * n + j.val = _; ring, h3]
    rfl
  simp only [Matrix.mulVec, dotProduct, Matrix.transpose_apply, averaging, ite_mul, zero_mul]
  rw [← Finset.sum_filter, hfib]
  by_cases hij : i = j
  · subst hij
    simp only [Finset.insert_eq_of_mem, Finset.mem_singleton, Finset.sum_singleton, Finset.card_singleton]
    rw [hvec]
    push_cast
    ring
  · have hne : place i j ≠ place j i := by
      intro e
      have := congrArg rowOf e
      rw [rowOf_place, rowOf_place] at this
      exact hij this
    rw [Finset.sum_pair hne, Finset.card_pair hne, hvec, hvec]
    push_cast
    ring

/-- C154. For symmetric matrices the transposed transition matrix undoes the duplication matrix. -/
theorem transition_symmetric {n : Nat} {B : Matrix (Fin (n * n)) (Fin (n * (n + 1) / 2)) ℝ} (hB : IsTransition n B)
    (A : Arr2 n n ℝ) (hA : ∀ i j, A i j = A j i) : ∃ v, vecp A = .ok v ∧
      ∀ k : Fin (n * (n + 1) / 2), v[k.val]? = some (B.transpose.mulVec (fun a => (vec A).getD a 0) k) := by
  obtain ⟨v, h1, _, h2⟩ := transition_spec hB A
  rw [show (fun i j => (A i j + A j i) / 2) = A from by funext i j; rw [← hA i j]; ring] at h1
  exact ⟨v, h1, h2⟩

/-- C154. The transition matrix from the other side: its columns are combinations of the columns of the duplication
matrix, so that the duplication matrix of what it gives is the symmetric part. -/
theorem transition_duplication {n : Nat} {B : Matrix (Fin (n * n)) (Fin (n * (n + 1) / 2)) ℝ} (hB : IsTransition n B) :
    ∃ D, duplicationMatrix ℝ n = .ok D ∧
      B.transpose * toMat (n * n) (n * (n + 1) / 2) D = 1 ∧
      ∀ (A : Arr2 n n ℝ) (i j : Fin n), (toMat (n * n) (n * (n + 1) / 2) D * B.transpose).mulVec
        (fun a => (vec A).getD a 0) ⟨i.val * n + j.val, (place i j).2⟩ = (A i j + A j i) / 2 := by
  obtain ⟨_, _, hu⟩ := transition_exists hB.1
  obtain ⟨D, hD, hd⟩ := duplication_indicator n
  have hB' : B = averaging (sym n) := by
    rw [hu B hB, hu (averaging (sym n)) ⟨hB.1, D, hD, by rw [hd]; exact indicator_pinv _ (sym_surjective n)⟩]
  refine ⟨D, hD, ?_, fun A i j => ?_⟩
  · rw [hd, hB', ← Matrix.transpose_one, ← indicator_averaging (sym n) (sym_surjective n), Matrix.transpose_mul,
      Matrix.transpose_transpose]
  · obtain ⟨v, h1, _, h2⟩ := transition_spec hB A
    rw [vecp_square] at h1
    cases h1
    rw [← Matrix.mulVec_mulVec, hd]
    show dotProduct _ _ = _
    have hrow : ∀ w : Fin (n * (n + 1) / 2) → ℝ,
        dotProduct (fun b => indicator (sym n) (place i j) b) w = w (sym n (place i j)) := by
      intro w
      simp only [dotProduct, indicator, ite_mul, one_mul, zero_mul, Finset.sum_ite_eq, Finset.mem_univ, if_true]
    refine (hrow _).trans ?_
    have h3 := h2 (sym n (place i j))
    have h4 : (sym n (place i j)).val = symPos i j := by
      show symPos (rowOf (place i j)) (colOf (place i j)) = _
      rw [rowOf_place, colOf_place]
    rw [h4] at h3
    unfold symPos at h3
    split at h3
    · next hle =>
      rw [fancy_getElem? _ _ _ i j (triu_getElem? i j hle)] at h3
      exact (Option.some.inj h3).symm
    · next hle =>
      rw [fancy_getElem? _ _ _ j i (triu_getElem? j i (le_of_lt (not_le.mp hle)))] at h3
      rw [← Option.some.inj h3]
      ring

/-- For a matrix that is not symmetric the upper triangle is not obtained. -/
example {B : Matrix (Fin (2 * 2)) (Fin (2 * (2 + 1) / 2)) ℝ} (hB : IsTransition 2 B) :
    B.transpose.mulVec (fun a => (vec (fun i j : Fin 2 => if i < j then (4 : ℝ) else 0)).getD a 0) 1 = 2 := by
  obtain ⟨v, h1, _, h2⟩ := transition_spec hB (fun i j : Fin 2 => if i < j then (4 : ℝ) else 0)
  have h3 := h2 1
  rw [vecp_square] at h1
  cases h1
  rw [fancy_getElem? _ _ _ (0 : Fin 2) (1 : Fin 2) (by decide)] at h3
  have h4 := Option.some.inj h3
  rw [← h4, if_pos (by decide), if_neg (by decide)]
  norm_num

/-- There is a transition matrix to speak of. -/
example : ∃! B, IsTransition 3 B := transition_exists (by decide)

end Seyfert.Linalg
