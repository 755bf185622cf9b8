import Verif.Lemmas.Linalg

/-!
Properties C01, C02, C03: enumeration maps, vectorisation round trips, duplication, elimination and
commutation matrices (`seyfert/fisher/linalg_tools.py`).
-/

namespace Seyfert.Linalg

variable {K : Type*}

/-! ### C01 -/

/-- C01, cross-correlations. The plain enumeration map exists for every shape; it gives each bin pair
`(i, j)` the position of `A[i, j]` in `vec(A)`, namely `i + n j`; pairs outside the shape have no
position; positions are distinct and are exactly `0 .. n m - 1`. -/
theorem enumeration_map_cross (n m : Nat) :
    ∃ mp, getEnumerationMap n m false = .ok mp ∧
      (∀ i j k, mp.lookup (i, j) = some k ↔ i < n ∧ j < m ∧ k = i + n * j) ∧
      (∀ (A : Arr2 n m K) (i : Fin n) (j : Fin m),
        ∃ k, mp.lookup (i.val, j.val) = some k ∧ (vec A)[k]? = some (A i j)) ∧
      (∀ k, k < n * m → ∃! p, mp.lookup p = some k) ∧
      (∀ p k, mp.lookup p = some k → k < n * m) ∧
      (∀ A : Arr2 n m K, (vec A).length = n * m) := by
  have key : ∀ i j k, ((((colMajor n m).map fun p => (p.1.val, p.2.val)).zipIdx).lookup (i, j) = some k
      ↔ i < n ∧ j < m ∧ k = i + n * j) := by
    intro i j k
    rw [lookup_enum _ (colMajor_nodup n m)]
    constructor
    · rintro ⟨a, b, h1, h2⟩
      simp at h1
      obtain ⟨rfl, rfl⟩ := h1
      exact ⟨a.isLt, b.isLt, nodup_getElem?_inj (colMajor_nodup n m) h2 (colMajor_getElem? a b)⟩
    · rintro ⟨hi, hj, rfl⟩
      exact ⟨⟨i, hi⟩, ⟨j, hj⟩, rfl, colMajor_getElem? ⟨i, hi⟩ ⟨j, hj⟩⟩
  refine ⟨_, rfl, key, ?_, ?_, ?_, ?_⟩
  · intro A i j
    exact ⟨i.val + n * j.val, (key _ _ _).mpr ⟨i.isLt, j.isLt, rfl⟩,
      fancy_getElem? A _ _ i j (colMajor_getElem? i j)⟩
  · intro k hk
    have hn : 0 < n := Nat.pos_of_ne_zero (by rintro rfl; simp at hk)
    refine ⟨(k % n, k / n), (key _ _ _).mpr ⟨Nat.mod_lt _ hn, Nat.div_lt_of_lt_mul hk,
      (Nat.mod_add_div k n).symm⟩, ?_⟩
    rintro ⟨i, j⟩ h
    obtain ⟨hi, _, rfl⟩ := (key _ _ _).mp h
    simp [Nat.add_mul_mod_self_left, Nat.mod_eq_of_lt hi, Nat.add_mul_div_left _ _ hn,
      Nat.div_eq_of_lt hi]
  · rintro ⟨i, j⟩ k h
    obtain ⟨hi, hj, rfl⟩ := (key _ _ _).mp h
    calc i + n * j < n + n * j := by omega
      _ = n * (j + 1) := by ring
      _ ≤ n * m := Nat.mul_le_mul_left n hj
  · intro A
    simp [vec, fancy, colMajor_length]

/-- C01, auto-correlations. The symmetric enumeration map of a square shape gives each pair with
`i ≤ j` the position of `A[i, j]` in `vecp(A)`, namely `j (j + 1) / 2 + i`; no other pair has a
position; positions are distinct and are exactly `0 .. n (n + 1) / 2 - 1`. -/
theorem enumeration_map_auto (n : Nat) :
    ∃ mp, getEnumerationMap n n true = .ok mp ∧
      (∀ i j k, mp.lookup (i, j) = some k ↔ i ≤ j ∧ j < n ∧ k = j * (j + 1) / 2 + i) ∧
      (∀ (A : Arr2 n n K), ∃ v, vecp A = .ok v ∧ v.length = n * (n + 1) / 2 ∧
        ∀ i j : Fin n, i ≤ j → ∃ k, mp.lookup (i.val, j.val) = some k ∧ v[k]? = some (A i j)) ∧
      (∀ k, k < n * (n + 1) / 2 → ∃! p, mp.lookup p = some k) ∧
      (∀ p k, mp.lookup p = some k → k < n * (n + 1) / 2) := by
  have key : ∀ i j k, ((((triuIdxsByCol n).map fun p => (p.1.val, p.2.val)).zipIdx).lookup (i, j) = some k
      ↔ i ≤ j ∧ j < n ∧ k = tri j + i) := by
    intro i j k
    rw [lookup_enum _ (triu_nodup n)]
    constructor
    · rintro ⟨a, b, h1, h2⟩
      simp at h1
      obtain ⟨rfl, rfl⟩ := h1
      have hle : a ≤ b := (mem_triu (a, b)).mp (List.mem_of_getElem? h2)
      exact ⟨hle, b.isLt, nodup_getElem?_inj (triu_nodup n) h2 (triu_getElem? a b hle)⟩
    · rintro ⟨hi, hj, rfl⟩
      exact ⟨⟨i, by omega⟩, ⟨j, hj⟩, rfl, triu_getElem? ⟨i, by omega⟩ ⟨j, hj⟩ hi⟩
  have hlen : ((triuIdxsByCol n)).length = n * (n + 1) / 2 := triu_length n
  refine ⟨((triuIdxsByCol n).map fun p => (p.1.val, p.2.val)).zipIdx, by simp [getEnumerationMap],
    key, ?_, ?_, ?_⟩
  · intro A
    refine ⟨_, vecp_square A, by simp [fancy, hlen], ?_⟩
    intro i j h
    exact ⟨tri j + i, (key _ _ _).mpr ⟨h, j.isLt, rfl⟩,
      fancy_getElem? A _ _ i j (triu_getElem? i j h)⟩
  · intro k hk
    have hk' : k < (triuIdxsByCol n).length := by rw [hlen]; exact hk
    have hget : (triuIdxsByCol n)[k]? = some ((triuIdxsByCol n)[k].1, (triuIdxsByCol n)[k].2) := by
      simp [hk']
    refine ⟨((triuIdxsByCol n)[k].1.val, (triuIdxsByCol n)[k].2.val),
      (lookup_enum _ (triu_nodup n) _ _).mpr ⟨_, _, rfl, hget⟩, ?_⟩
    intro p hp
    obtain ⟨i, j, rfl, h⟩ := (lookup_enum _ (triu_nodup n) _ _).mp hp
    rw [hget] at h
    have h := Option.some.inj h
    rw [(Prod.mk.inj h).1, (Prod.mk.inj h).2]
  · rintro ⟨i, j⟩ k h
    obtain ⟨hi, hj, rfl⟩ := (key _ _ _).mp h
    have : tri (j + 1) ≤ tri n := tri_mono hj
    rw [tri_succ] at this
    change tri j + i < tri n
    omega

/-- C01, refusal: the symmetric map is refused exactly for non-square shapes. -/
theorem enumeration_map_error (nA nB : Nat) (symm : Bool) :
    (∃ e, getEnumerationMap nA nB symm = .error e) ↔ symm = true ∧ nA ≠ nB := by
  unfold getEnumerationMap
  cases symm <;> by_cases h : nA = nB <;> simp [h]

example : getEnumerationMap 2 3 false =
    .ok [((0,0),0), ((1,0),1), ((0,1),2), ((1,1),3), ((0,2),4), ((1,2),5)] := by decide
example : getEnumerationMap 3 3 true =
    .ok [((0,0),0), ((0,1),1), ((1,1),2), ((0,2),3), ((1,2),4), ((2,2),5)] := by decide
example : getEnumerationMap 2 3 true = .error .notSquare := by decide

/-- C01. The index lists of the two triangles and of the diagonal hold exactly the pairs of their part, once each, and
the lower triangle lists the transposed pairs of the upper one. -/
theorem triangle_indices (n : Nat) (p : Fin n × Fin n) :
    (p ∈ triuIdxsByCol n ↔ p.1 ≤ p.2) ∧ (p ∈ trilIdxsByCol n ↔ p.2 ≤ p.1) ∧ (p ∈ diagIdxs n ↔ p.1 = p.2) ∧
      (triuIdxsByCol n).Nodup ∧ (trilIdxsByCol n).Nodup ∧ (diagIdxs n).Nodup ∧
      (p ∈ trilIdxsByCol n ↔ (p.2, p.1) ∈ triuIdxsByCol n) := by
  have hl : p ∈ trilIdxsByCol n ↔ p.2 ≤ p.1 := by simp [trilIdxsByCol, getIdxsBy, mem_colMajor]
  exact ⟨mem_triu p, hl, mem_diag p, triu_nodup n, (colMajor_nodup n n).filter _, (colMajor_nodup n n).filter _,
    by rw [hl, mem_triu]⟩

example : (trilIdxsByCol 2).map (fun p => (p.1.val, p.2.val)) = [(0, 0), (1, 0), (1, 1)] := by decide

/-! ### C02 -/

/-- C02: `unvecp(vecp(A)) = A` for symmetric `A`. -/
theorem unvecp_vecp [Field K] [NeZero (2 : K)] {n : Nat} (A : Arr2 n n K)
    (hA : ∀ i j, A i j = A j i) :
    ∃ v, vecp A = .ok v ∧ unvecp v = .ok ⟨n, A⟩ := by
  refine ⟨_, vecp_square A, ?_⟩
  rw [unvecp_ok n _ (by simp [fancy, triu_length])]
  congr 2
  funext i j
  by_cases h : i ≤ j
  · rw [if_pos h, assignZeros_fancy _ (triu_nodup n) A i j ((mem_triu _).mpr h)]
  · rw [if_neg h, assignZeros_fancy _ (triu_nodup n) A j i ((mem_triu _).mpr (by simp; omega)), hA]

/-- C02: for every vector of triangular length `unvecp` gives a symmetric matrix of the right size
whose `vecp` is the vector. -/
theorem vecp_unvecp [Field K] [NeZero (2 : K)] (n : Nat) (v : List K)
    (hv : v.length = n * (n + 1) / 2) :
    ∃ A : Arr2 n n K, unvecp v = .ok ⟨n, A⟩ ∧ (∀ i j, A i j = A j i) ∧
      vecp A = .ok v := by
  refine ⟨_, unvecp_ok n v hv, ?_, ?_⟩
  · intro i j
    rcases lt_trichotomy i j with h | h | h
    · rw [if_pos h.le, if_neg (not_le.mpr h)]
    · subst h; rfl
    · rw [if_neg (not_le.mpr h), if_pos h.le]
  · rw [vecp_square]
    congr 1
    have h1 := fancy_zip_getElem? (triuIdxsByCol n) (triu_nodup n) v (by rw [triu_length]; exact hv.symm)
    conv_rhs => rw [← h1]
    apply List.map_congr_left
    intro p hp
    simp only
    rw [if_pos ((mem_triu p).mp hp)]

/-- C02: `vecp` is refused exactly on non-square matrices. -/
theorem vecp_error {n m : Nat} (A : Arr2 n m K) :
    (∃ e, vecp A = .error e) ↔ n ≠ m := by
  unfold vecp
  by_cases h : n = m <;> simp [h]

/-- C02: `unvecp` is refused exactly on vectors whose length is not triangular. -/
theorem unvecp_error [Field K] [NeZero (2 : K)] (v : List K) :
    (∃ e, unvecp v = .error e) ↔ ¬ ∃ n, v.length = n * (n + 1) / 2 := by
  constructor
  · rintro ⟨e, he⟩ ⟨n, hn⟩
    rw [unvecp_ok n v hn] at he
    exact absurd he (by simp)
  · intro h
    refine ⟨.shapeMismatch, ?_⟩
    unfold unvecp
    simp only
    rw [if_pos]
    rw [triu_length]
    intro e
    exact h ⟨_, e.symm⟩

/-- C02: `unvec(vec(A)) = A` for square `A`. -/
theorem unvec_vec [Zero K] {n : Nat} (A : Arr2 n n K) :
    unvec (vec A) = .ok ⟨n, A⟩ := by
  have hl : (vec A).length = n * n := by simp [vec, fancy, colMajor_length]
  have hs : Nat.sqrt (vec A).length = n := by rw [hl, Nat.sqrt_eq]
  have : ∀ p, p = n → (⟨p, assignZeros (colMajor p p) (vec A)⟩ : Σ p, Arr2 p p K) = ⟨n, A⟩ := by
    rintro p rfl
    congr 1
    funext i j
    exact assignZeros_fancy _ (colMajor_nodup p p) A i j (mem_colMajor _)
  unfold unvec
  simp only
  rw [if_neg (by rw [hs, hl]; simp), this _ hs]

/-- C02: `vec(unvec(v)) = v` for every vector of square length. -/
theorem vec_unvec [Zero K] (n : Nat) (v : List K) (hv : v.length = n * n) :
    ∃ A : Arr2 n n K, unvec v = .ok ⟨n, A⟩ ∧ vec A = v := by
  refine ⟨assignZeros (colMajor n n) v, ?_,
    fancy_zip_getElem? _ (colMajor_nodup n n) v (by rw [colMajor_length, hv])⟩
  have hs : Nat.sqrt v.length = n := by rw [hv, Nat.sqrt_eq]
  subst hs
  unfold unvec
  simp only
  rw [if_neg (fun h => h hv.symm)]

/-- C02: `unvec` is refused exactly on vectors whose length is not a square. -/
theorem unvec_error [Zero K] (v : List K) :
    (∃ e, unvec v = .error e) ↔ ¬ ∃ n, v.length = n * n := by
  constructor
  · rintro ⟨e, he⟩ ⟨n, hn⟩
    obtain ⟨A, hA, _⟩ := vec_unvec n v hn
    rw [hA] at he
    exact absurd he (by simp)
  · intro h
    refine ⟨.shapeMismatch, ?_⟩
    unfold unvec
    simp only
    rw [if_pos]
    intro e
    exact h ⟨_, e.symm⟩

example : vecp (fun i j => (i.val + 10 * j.val : ℚ) : Arr2 2 2 ℚ) = .ok [0, 10, 11] := by
  rw [vecp_square]; simp [fancy, triuIdxsByCol, getIdxsBy, colMajor, List.finRange_succ]; norm_num
example : ∃ e, unvecp ([1, 2] : List ℚ) = .error e :=
  (unvecp_error _).mpr (by
    rintro ⟨n, hn⟩
    match n with
    | 0 => simp at hn
    | 1 => simp at hn
    | n + 2 =>
      have : tri 2 ≤ tri (n + 2) := tri_mono (by omega)
      have h3 : tri 2 = 3 := by decide
      change 2 = tri (n + 2) at hn
      omega)
example : ∃ A : Arr2 2 2 ℚ, unvecp ([1, 2, 3] : List ℚ) = .ok ⟨2, A⟩ :=
  (vecp_unvecp 2 [1, 2, 3] (by simp)).imp fun _ h => h.1

/-! ### C03 -/

/-- C03: the duplication matrix exists for every size, and `D vecp(A) = vec(A)` for every symmetric
matrix. -/
theorem duplication_spec [Field K] [NeZero (2 : K)] (n : Nat) :
    ∃ D, duplicationMatrix K n = .ok D ∧
      ∀ A : Arr2 n n K, (∀ i j, A i j = A j i) → ∃ v, vecp A = .ok v ∧ matVec D v = vec A := by
  obtain ⟨D, hD, hlen, hrow⟩ := duplicationMatrix_eq (K := K) n
  refine ⟨D, hD, fun A hA => ⟨_, vecp_square A, ?_⟩⟩
  apply List.ext_getElem?
  intro r
  by_cases hr : r < n * n
  · have hn : 0 < n := Nat.pos_of_ne_zero (by rintro rfl; simp at hr)
    let i : Fin n := ⟨r / n, Nat.div_lt_of_lt_mul hr⟩
    let j : Fin n := ⟨r % n, Nat.mod_lt _ hn⟩
    have e1 : i.val * n + j.val = r := Nat.div_add_mod' r n
    have e2 : j.val + n * i.val = r := Nat.mod_add_div r n
    obtain ⟨row, h1, h2⟩ := hrow i j
    rw [e1] at h1
    have h3 := vec_getElem? A j i
    rw [e2] at h3
    rw [h3]
    have h4 : (fancy A (triuIdxsByCol n))[symPos i j]? = some (A j i) := by
      unfold symPos
      split
      · next h => rw [hA j i]; exact fancy_getElem? A _ _ i j (triu_getElem? i j h)
      · next h => exact fancy_getElem? A _ _ j i (triu_getElem? j i (le_of_lt (not_le.mp h)))
    simp only [matVec, List.getElem?_map, h1, Option.map_some, h2]
    rw [dot_eyeRow _ _ _ (by simp [fancy, triu_length]) _ h4]
  · rw [List.getElem?_eq_none (by simp [matVec, hlen]; omega),
      List.getElem?_eq_none (by rw [vec_length]; omega)]

/-- C03: `L vec(A) = vecp(A)` for every square matrix. -/
theorem elimination_spec [Field K] [DecidableEq K] (n : Nat) (A : Arr2 n n K) :
    vecp A = .ok (matVec (eliminationMatrix K n) (vec A)) := by
  have hE : eliminationMatrix K n =
      (((colMajor n n).zipIdx.filter fun q => decide (q.1.1.val ≤ q.1.2.val))).map
        fun q => eyeRow (n * n) q.2 := by
    unfold eliminationMatrix vec fancy
    refine filter_zip_map (colMajor n n) (fun p => triuOnes K n p.1 p.2) (fun x => decide (x ≠ 0))
      (fun a => decide (a.1.val ≤ a.2.val)) ?_ _ (eyeRow (n * n)) ?_
    · intro a
      simp [triuOnes]
    · rw [colMajor_length]; rfl
  rw [vecp_square, hE]
  congr 1
  unfold matVec
  rw [List.map_map]
  have hget : ∀ q ∈ (colMajor n n).zipIdx,
      ((fun r => dot r (vec A)) ∘ fun q : (Fin n × Fin n) × Nat => eyeRow (n * n) q.2) q =
        A q.1.1 q.1.2 := by
    intro q hq
    have h := List.mk_mem_zipIdx_iff_getElem?.mp (show (q.1, q.2) ∈ _ from hq)
    exact dot_eyeRow _ _ _ (vec_length A) _ (fancy_getElem? A _ _ q.1.1 q.1.2 h)
  rw [List.map_congr_left (fun q hq => hget q (List.mem_of_mem_filter hq))]
  unfold fancy triuIdxsByCol getIdxsBy
  have : (colMajor n n).filter (fun p => decide (p.1.val ≤ p.2.val)) =
      ((colMajor n n).zipIdx.filter fun q => decide (q.1.1.val ≤ q.1.2.val)).map (·.1) := by
    conv_lhs => rw [← List.zipIdx_map_fst 0 (colMajor n n)]
    rw [List.filter_map]
    rfl
  rw [this, List.map_map]
  rfl

/-- C03: `L D = identity`, as an action on every vector of the right length. -/
theorem elimination_duplication [Field K] [DecidableEq K] [NeZero (2 : K)] (n : Nat) :
    ∃ D, duplicationMatrix K n = .ok D ∧ ∀ v : List K, v.length = n * (n + 1) / 2 →
      matVec (eliminationMatrix K n) (matVec D v) = v := by
  obtain ⟨D, hD, h⟩ := duplication_spec (K := K) n
  refine ⟨D, hD, fun v hv => ?_⟩
  obtain ⟨A, _, hs, hv'⟩ := vecp_unvecp n v hv
  obtain ⟨w, hw, hw2⟩ := h A hs
  have e : w = v := by rw [hv'] at hw; exact (Except.ok.inj hw).symm
  subst e
  rw [hw2]
  have := elimination_spec n A
  rw [hv'] at this
  exact (Except.ok.inj this).symm

/-- C03: `K(p, q) vec(A) = vec(A^T)` for every `p` by `q` matrix. -/
theorem commutation_spec [Field K] {p q : Nat} (A : Arr2 p q K) :
    matVec (commutationMatrix K p q) (vec A) = vec (fun (j : Fin q) (i : Fin p) => A i j) := by
  have hlen : (commutationMatrix K p q).length = p * q := by
    simp [commutationMatrix, ravelC, fancy, rowMajor_length]
  apply List.ext_getElem?
  intro r
  by_cases hr : r < p * q
  · have hq : 0 < q := Nat.pos_of_ne_zero (by rintro rfl; simp at hr)
    let i : Fin p := ⟨r / q, Nat.div_lt_of_lt_mul (by rw [Nat.mul_comm]; exact hr)⟩
    let j : Fin q := ⟨r % q, Nat.mod_lt _ hq⟩
    have e1 : i.val * q + j.val = r := Nat.div_add_mod' r q
    have e2 : j.val + q * i.val = r := Nat.mod_add_div r q
    have h1 := fancy_getElem? (fOrderIndices p q) _ _ i j (rowMajor_getElem? i j)
    rw [e1] at h1
    have h3 := vec_getElem? (fun (j : Fin q) (i : Fin p) => A i j) j i
    rw [e2] at h3
    rw [h3]
    simp only [matVec, commutationMatrix, ravelC, List.getElem?_map, h1, Option.map_some, fOrderIndices]
    rw [dot_eyeRow _ _ _ (vec_length A) _ (vec_getElem? A i j)]
  · rw [List.getElem?_eq_none (by simp [matVec, hlen]; omega),
      List.getElem?_eq_none (by rw [vec_length, Nat.mul_comm]; omega)]

/-- C03: `K(q, p) K(p, q) = identity`, as an action on every vector of length `p q`. -/
theorem commutation_involutive [Field K] (p q : Nat) (v : List K) (hv : v.length = p * q) :
    matVec (commutationMatrix K q p) (matVec (commutationMatrix K p q) v) = v := by
  obtain ⟨A, rfl⟩ := exists_vec p q v hv
  rw [commutation_spec, commutation_spec]

example : commutationMatrix ℚ 2 2 = [[1,0,0,0],[0,0,1,0],[0,1,0,0],[0,0,0,1]] := by decide
example : eliminationMatrix ℚ 2 = [[1,0,0,0],[0,0,1,0],[0,0,0,1]] := by decide
example : ∃ D, duplicationMatrix ℚ 3 = .ok D := (duplication_spec 3).imp fun _ h => h.1

end Seyfert.Linalg
