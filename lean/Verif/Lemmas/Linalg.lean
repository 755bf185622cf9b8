import Verif.Model.Linalg
import Mathlib.Tactic.Ring
import Mathlib.Tactic.FieldSimp
import Mathlib.Tactic.Linarith
import Mathlib.Data.List.Nodup

namespace Seyfert.Linalg

/-- Triangular numbers: the number of upper-triangular entries in the first `j` columns. -/
def tri (j : Nat) : Nat := j * (j + 1) / 2

theorem two_tri (j : Nat) : 2 * tri j = j * (j + 1) := by
  unfold tri
  have : 2 ∣ j * (j + 1) := (Nat.even_mul_succ_self j).two_dvd
  omega

theorem tri_zero : tri 0 = 0 := rfl

theorem tri_succ (j : Nat) : tri (j + 1) = tri j + (j + 1) := by
  have h1 := two_tri j
  have h2 := two_tri (j + 1)
  have : (j + 1) * (j + 1 + 1) = j * (j + 1) + 2 * (j + 1) := by ring
  omega

theorem tri_mono {a b : Nat} (h : a ≤ b) : tri a ≤ tri b := by
  induction h with
  | refl => exact le_rfl
  | step _ ih => rw [Nat.succ_eq_add_one, tri_succ]; omega

theorem flatMap_range_length {α : Type*} (f : Nat → List α) (L : Nat → Nat) (h0 : L 0 = 0)
    (m : Nat) (hs : ∀ j, j < m → L (j + 1) = L j + (f j).length) :
    ((List.range m).flatMap f).length = L m := by
  induction m with
  | zero => simp [h0]
  | succ m ih =>
    rw [List.range_succ, List.flatMap_append, List.length_append,
      ih (fun j hj => hs j (by omega)), hs m (by omega)]
    simp

theorem flatMap_range_getElem? {α : Type*} (f : Nat → List α) (L : Nat → Nat) (h0 : L 0 = 0)
    (m : Nat) (hs : ∀ j, j < m → L (j + 1) = L j + (f j).length) (j : Nat) (hj : j < m) (i : Nat)
    (hi : i < (f j).length) :
    ((List.range m).flatMap f)[L j + i]? = (f j)[i]? := by
  induction m with
  | zero => omega
  | succ m ih =>
    have hl := flatMap_range_length f L h0 m (fun j hj => hs j (by omega))
    rw [List.range_succ, List.flatMap_append]
    rcases Nat.lt_succ_iff_lt_or_eq.mp hj with h | h
    · rw [List.getElem?_append_left]
      · exact ih (fun j hj => hs j (by omega)) h
      · rw [hl]
        have hmono : ∀ d, j + 1 + d ≤ m → L (j + 1) ≤ L (j + 1 + d) := by
          intro d
          induction d with
          | zero => intro _; exact le_rfl
          | succ d ihd =>
            intro hd
            have := hs (j + 1 + d) (by omega)
            have := ihd (by omega)
            have e : j + 1 + (d + 1) = j + 1 + d + 1 := by omega
            rw [e]; omega
        have h1 := hs j (by omega)
        have h2 := hmono (m - (j + 1)) (by omega)
        have e : j + 1 + (m - (j + 1)) = m := by omega
        rw [e] at h2
        omega
    · subst h
      rw [List.getElem?_append_right (by rw [hl]; omega), hl]
      simp

theorem finRange_map_val (n : Nat) : (List.finRange n).map (fun i => i.val) = List.range n := by
  simp

/-- Column-major pairs with plain numbers. -/
theorem colMajor_val (n m : Nat) :
    (colMajor n m).map (fun p => (p.1.val, p.2.val)) =
      (List.range m).flatMap fun j => (List.range n).map fun i => (i, j) := by
  unfold colMajor
  rw [List.map_flatMap]
  conv_rhs => rw [← finRange_map_val m, List.flatMap_map]
  congr 1
  funext j
  rw [List.map_map]
  conv_rhs => rw [← finRange_map_val n, List.map_map]
  rfl

theorem rowMajor_val (n m : Nat) :
    (rowMajor n m).map (fun p => (p.1.val, p.2.val)) =
      (List.range n).flatMap fun i => (List.range m).map fun j => (i, j) := by
  unfold rowMajor
  rw [List.map_flatMap]
  conv_rhs => rw [← finRange_map_val n, List.flatMap_map]
  congr 1
  funext j
  rw [List.map_map]
  conv_rhs => rw [← finRange_map_val m, List.map_map]
  rfl

theorem filter_range_le (n j : Nat) (hj : j < n) :
    (List.range n).filter (fun i => decide (i ≤ j)) = List.range (j + 1) := by
  obtain ⟨d, rfl⟩ : ∃ d, n = (j + 1) + d := ⟨n - (j + 1), by omega⟩
  rw [List.range_add, List.filter_append]
  have h1 : (List.range (j + 1)).filter (fun i => decide (i ≤ j)) = List.range (j + 1) := by
    rw [List.filter_eq_self]
    intro a ha
    simp at ha ⊢
    omega
  have h2 : ((List.range d).map (fun x => j + 1 + x)).filter (fun i => decide (i ≤ j)) = [] := by
    rw [List.filter_eq_nil_iff]
    intro a ha
    simp at ha ⊢
    omega
  rw [h1, h2, List.append_nil]

theorem triu_val (n : Nat) :
    (triuIdxsByCol n).map (fun p => (p.1.val, p.2.val)) =
      (List.range n).flatMap fun j => (List.range (j + 1)).map fun i => (i, j) := by
  have h : (triuIdxsByCol n).map (fun p => (p.1.val, p.2.val)) =
      ((colMajor n n).map (fun p => (p.1.val, p.2.val))).filter (fun q => decide (q.1 ≤ q.2)) := by
    unfold triuIdxsByCol getIdxsBy
    rw [List.filter_map]
    rfl
  rw [h, colMajor_val, List.filter_flatMap]
  apply List.flatMap_congr
  intro j hj
  rw [List.filter_map]
  have := filter_range_le n j (by simpa using hj)
  rw [← this]
  rfl

theorem colMajor_length (n m : Nat) : (colMajor n m).length = n * m := by
  have h := congrArg List.length (colMajor_val n m)
  rw [List.length_map] at h
  rw [h, flatMap_range_length _ (fun j => n * j) (by simp)]
  intro j _
  simp [Nat.mul_add]

theorem rowMajor_length (n m : Nat) : (rowMajor n m).length = n * m := by
  have h := congrArg List.length (rowMajor_val n m)
  rw [List.length_map] at h
  rw [h, flatMap_range_length _ (fun j => j * m) (by simp)]
  intro j _
  simp [Nat.add_mul]

theorem triu_length (n : Nat) : (triuIdxsByCol n).length = tri n := by
  have h := congrArg List.length (triu_val n)
  rw [List.length_map] at h
  rw [h, flatMap_range_length _ tri tri_zero]
  intro j _
  simp [tri_succ]

theorem getElem?_of_map_val {n m : Nat} {l : List (Fin n × Fin m)} {k : Nat} {i : Fin n} {j : Fin m}
    (h : (l.map (fun p => (p.1.val, p.2.val)))[k]? = some (i.val, j.val)) : l[k]? = some (i, j) := by
  rw [List.getElem?_map] at h
  cases hk : l[k]? with
  | none => rw [hk] at h; simp at h
  | some p =>
    rw [hk] at h
    simp at h
    obtain ⟨h1, h2⟩ := h
    congr 1
    exact Prod.ext (Fin.ext h1) (Fin.ext h2)

theorem colMajor_getElem? {n m : Nat} (i : Fin n) (j : Fin m) :
    (colMajor n m)[i.val + n * j.val]? = some (i, j) := by
  apply getElem?_of_map_val
  rw [colMajor_val]
  have := flatMap_range_getElem? (fun j => (List.range n).map fun i => (i, j)) (fun j => n * j)
    (by simp) m (by intro j _; simp [Nat.mul_add]) j.val j.isLt i.val (by simp)
  rw [Nat.add_comm, this]
  simp

theorem rowMajor_getElem? {n m : Nat} (i : Fin n) (j : Fin m) :
    (rowMajor n m)[i.val * m + j.val]? = some (i, j) := by
  apply getElem?_of_map_val
  rw [rowMajor_val]
  have := flatMap_range_getElem? (fun i => (List.range m).map fun j => (i, j)) (fun j => j * m)
    (by simp) n (by intro j _; simp [Nat.add_mul]) i.val i.isLt j.val (by simp)
  rw [this]
  simp

theorem triu_getElem? {n : Nat} (i j : Fin n) (h : i ≤ j) :
    (triuIdxsByCol n)[tri j.val + i.val]? = some (i, j) := by
  apply getElem?_of_map_val
  rw [triu_val]
  have hij : i.val ≤ j.val := h
  have := flatMap_range_getElem? (fun j => (List.range (j + 1)).map fun i => (i, j)) tri tri_zero
    n (by intro j _; simp [tri_succ]) j.val j.isLt i.val (by simp; omega)
  rw [this]
  simp [Nat.lt_succ_of_le hij]

theorem colMajor_nodup (n m : Nat) : (colMajor n m).Nodup := by
  unfold colMajor
  rw [List.nodup_flatMap]
  refine ⟨fun j _ => (List.nodup_finRange n).map (fun a b h => (Prod.mk.inj h).1), ?_⟩
  refine (List.nodup_finRange m).imp ?_
  intro a b hab x hx hy
  simp at hx hy
  obtain ⟨_, rfl⟩ := hx
  obtain ⟨_, h⟩ := hy
  exact hab (congrArg Prod.snd h).symm

theorem triu_nodup (n : Nat) : (triuIdxsByCol n).Nodup := (colMajor_nodup n n).filter _

theorem mem_colMajor {n m : Nat} (p : Fin n × Fin m) : p ∈ colMajor n m := by
  simp [colMajor]

theorem mem_triu {n : Nat} (p : Fin n × Fin n) : p ∈ triuIdxsByCol n ↔ p.1 ≤ p.2 := by
  simp [triuIdxsByCol, getIdxsBy, mem_colMajor]

theorem mem_diag {n : Nat} (p : Fin n × Fin n) : p ∈ diagIdxs n ↔ p.1 = p.2 := by
  simp [diagIdxs, getIdxsBy, mem_colMajor, Fin.ext_iff]

/-- Lookup in `zipIdx` of a list without repetition. -/
theorem lookup_zipIdx {α : Type*} [BEq α] [LawfulBEq α] (l : List α) (hn : l.Nodup) (a : α) (k s : Nat) :
    (l.zipIdx s).lookup a = some k ↔ s ≤ k ∧ l[k - s]? = some a := by
  induction l generalizing s with
  | nil => simp
  | cons b l ih =>
    rw [List.zipIdx_cons, List.lookup_cons]
    rw [List.nodup_cons] at hn
    by_cases hab : a = b
    · subst hab
      simp only [beq_self_eq_true]
      constructor
      · intro h
        obtain rfl : s = k := Option.some.inj h
        simp
      · rintro ⟨hs, h⟩
        by_contra hne
        have hne : s ≠ k := fun e => hne (by rw [e])
        obtain ⟨d, hd⟩ : ∃ d, k - s = d + 1 := ⟨k - s - 1, by omega⟩
        rw [hd, List.getElem?_cons_succ] at h
        exact hn.1 (List.mem_of_getElem? h)
    · have hb : (a == b) = false := by simpa using hab
      rw [hb]
      simp only
      rw [ih hn.2]
      constructor
      · rintro ⟨h1, h2⟩
        refine ⟨by omega, ?_⟩
        have : k - s = (k - (s + 1)) + 1 := by omega
        rw [this, List.getElem?_cons_succ]
        exact h2
      · rintro ⟨h1, h2⟩
        have : s ≠ k := by
          rintro rfl
          simp at h2
          exact hab h2.symm
        refine ⟨by omega, ?_⟩
        have e : k - s = (k - (s + 1)) + 1 := by omega
        rw [e, List.getElem?_cons_succ] at h2
        exact h2

/-- Lookup in a zip of a list without repetition with values. -/
theorem lookup_zip {α β : Type*} [BEq α] [LawfulBEq α] (l : List α) (v : List β) (hn : l.Nodup) (a : α)
    (k : Nat) (x : β) (ha : l[k]? = some a) (hx : v[k]? = some x) :
    (l.zip v).lookup a = some x := by
  induction l generalizing v k with
  | nil => simp at ha
  | cons b l ih =>
    cases v with
    | nil => simp at hx
    | cons y v =>
      rw [List.nodup_cons] at hn
      rw [List.zip_cons_cons, List.lookup_cons]
      cases k with
      | zero =>
        simp at ha hx
        subst ha hx
        simp
      | succ k =>
        rw [List.getElem?_cons_succ] at ha hx
        have hab : a ≠ b := by
          rintro rfl
          exact hn.1 (List.mem_of_getElem? ha)
        have hb : (a == b) = false := by simpa using hab
        rw [hb]
        exact ih v hn.2 k ha hx

theorem lookup_zip_none {α β : Type*} [BEq α] [LawfulBEq α] (l : List α) (v : List β) (a : α)
    (ha : a ∉ l) : (l.zip v).lookup a = none := by
  induction l generalizing v with
  | nil => simp
  | cons b l ih =>
    cases v with
    | nil => simp
    | cons y v =>
      rw [List.zip_cons_cons, List.lookup_cons]
      have hab : a ≠ b := by rintro rfl; simp at ha
      have hb : (a == b) = false := by simpa using hab
      rw [hb]
      exact ih v (fun h => ha (List.mem_cons_of_mem _ h))

theorem sqrt_tri (n : Nat) : triangularRoot (tri n) = n := by
  unfold triangularRoot
  have h := two_tri n
  have : 1 + 8 * tri n = (2 * n + 1) * (2 * n + 1) := by
    have : (2 * n + 1) * (2 * n + 1) = 4 * (n * (n + 1)) + 1 := by ring
    omega
  rw [this, Nat.sqrt_eq]
  omega

variable {K : Type*}

theorem vecp_square {n : Nat} (A : Arr2 n n K) :
    vecp A = .ok (fancy A (triuIdxsByCol n)) := by
  simp [vecp]

theorem fancy_getElem? {n m : Nat} (A : Arr2 n m K) (idxs : List (Fin n × Fin m))
    (k : Nat) (i : Fin n) (j : Fin m) (h : idxs[k]? = some (i, j)) :
    (fancy A idxs)[k]? = some (A i j) := by
  simp [fancy, h]

theorem fancy_zip_getElem? {n m : Nat} [Zero K] (idxs : List (Fin n × Fin m)) (hn : idxs.Nodup)
    (v : List K) (hl : idxs.length = v.length) :
    fancy (assignZeros idxs v) idxs = v := by
  apply List.ext_getElem?
  intro k
  by_cases hk : k < idxs.length
  · have h1 : idxs[k]? = some (idxs[k].1, idxs[k].2) := by simp [hk]
    rw [fancy_getElem? _ _ k _ _ h1]
    have h2 : v[k]? = some (v[k]'(by omega)) := by simp
    rw [h2]
    unfold assignZeros
    rw [lookup_zip idxs v hn _ k _ h1 h2]
  · rw [List.getElem?_eq_none (by simp [fancy]; omega), List.getElem?_eq_none (by omega)]

theorem assignZeros_eq {n m : Nat} [Zero K] (idxs : List (Fin n × Fin m)) (hn : idxs.Nodup)
    (v : List K) (k : Nat) (i : Fin n) (j : Fin m) (h : idxs[k]? = some (i, j)) (x : K)
    (hx : v[k]? = some x) : assignZeros idxs v i j = x := by
  unfold assignZeros
  rw [lookup_zip idxs v hn _ k _ h hx]

theorem assignZeros_zero {n m : Nat} [Zero K] (idxs : List (Fin n × Fin m))
    (v : List K) (i : Fin n) (j : Fin m) (h : (i, j) ∉ idxs) : assignZeros idxs v i j = 0 := by
  unfold assignZeros
  rw [lookup_zip_none idxs v _ h]

theorem assignZeros_fancy {n m : Nat} [Zero K] (idxs : List (Fin n × Fin m)) (hn : idxs.Nodup)
    (A : Arr2 n m K) (i : Fin n) (j : Fin m) (h : (i, j) ∈ idxs) :
    assignZeros idxs (fancy A idxs) i j = A i j := by
  obtain ⟨k, hk⟩ := List.getElem?_of_mem h
  exact assignZeros_eq idxs hn _ k i j hk _ (fancy_getElem? A idxs k i j hk)

/-- The value of `unvecp` on a list of triangular length. -/
theorem unvecp_ok [Field K] [NeZero (2 : K)] (n : Nat) (v : List K) (hv : v.length = tri n) :
    unvecp v = .ok ⟨n, fun i j => if i ≤ j then assignZeros (triuIdxsByCol n) v i j
      else assignZeros (triuIdxsByCol n) v j i⟩ := by
  have h2 : (2 : K) ≠ 0 := NeZero.ne _
  have hp : triangularRoot v.length = n := by rw [hv, sqrt_tri]
  subst hp
  unfold unvecp
  simp only
  rw [if_neg (by rw [triu_length]; exact fun h => h hv.symm)]
  congr 2
  funext i j
  simp only [mem_diag]
  by_cases hij : i = j
  · subst hij
    simp
  · simp only [hij, if_false]
    by_cases hle : i ≤ j
    · rw [if_pos hle, assignZeros_zero _ _ j i (by rw [mem_triu]; simp; omega), add_zero]
    · rw [if_neg hle, assignZeros_zero _ _ i j (by rw [mem_triu]; exact hle), zero_add]

/-! dot products with unit rows -/

theorem sum_map_zero' [Field K] {α : Type*} (l : List α) (f : α → K) (h : ∀ a ∈ l, f a = 0) :
    (l.map f).sum = 0 := by
  induction l with
  | nil => simp
  | cons a l ih =>
    rw [List.map_cons, List.sum_cons, h a (by simp), ih (fun b hb => h b (by simp [hb])), zero_add]

/-- The dot product of a unit row with a vector picks the entry. -/
theorem dot_unit [Field K] (N k : Nat) (v : List K) (hv : v.length = N) (x : K)
    (hx : v[k]? = some x) (f : Nat → K) (hf : ∀ c, f c = if c = k then 1 else 0) :
    dot ((List.range N).map f) v = x := by
  subst hv
  induction v generalizing k f with
  | nil => simp at hx
  | cons y v ih =>
    rw [List.length_cons, List.range_succ_eq_map, List.map_cons, List.map_map]
    unfold dot
    rw [List.zipWith_cons_cons, List.sum_cons]
    cases k with
    | zero =>
      simp at hx
      subst hx
      rw [hf 0, if_pos rfl, one_mul]
      have : (List.zipWith (fun x1 x2 => x1 * x2) (List.map (f ∘ Nat.succ) (List.range v.length)) v).sum = 0 := by
        clear ih
        have hz : ∀ c, (f ∘ Nat.succ) c = 0 := by intro c; simp [hf]
        generalize f ∘ Nat.succ = g at hz
        generalize List.range v.length = l
        induction l generalizing v with
        | nil => simp
        | cons a l ih =>
          cases v with
          | nil => simp
          | cons b v => simp [hz, ih]
      rw [this, add_zero]
    | succ k =>
      rw [hf 0, if_neg (by omega), zero_mul, zero_add]
      have := ih k hx (f ∘ Nat.succ) (by intro c; simp [hf])
      exact this

theorem dot_eyeRow [Field K] (N k : Nat) (v : List K) (hv : v.length = N) (x : K)
    (hx : v[k]? = some x) : dot (eyeRow N k) v = x :=
  dot_unit N k v hv x hx _ (fun _ => rfl)

theorem eyeRow_length [Field K] (N k : Nat) : (eyeRow (K := K) N k).length = N := by simp [eyeRow]

theorem eyeRow_getElem? [Field K] (N k c : Nat) (h : c < N) :
    (eyeRow (K := K) N k)[c]? = some (if c = k then 1 else 0) := by simp [eyeRow, h]

theorem lookup_enum {n m : Nat} (l : List (Fin n × Fin m)) (hn : l.Nodup) (a : Nat × Nat) (k : Nat) :
    ((l.map fun p => (p.1.val, p.2.val)).zipIdx).lookup a = some k ↔
      ∃ i : Fin n, ∃ j : Fin m, a = (i.val, j.val) ∧ l[k]? = some (i, j) := by
  have hn' : (l.map fun p => (p.1.val, p.2.val)).Nodup := by
    apply hn.map
    intro p q h
    simp at h
    exact Prod.ext (Fin.ext h.1) (Fin.ext h.2)
  rw [lookup_zipIdx _ hn']
  simp only [Nat.zero_le, true_and, Nat.sub_zero, List.getElem?_map, Option.map_eq_some_iff]
  constructor
  · rintro ⟨⟨i, j⟩, h1, h2⟩
    exact ⟨i, j, h2.symm, h1⟩
  · rintro ⟨i, j, h1, h2⟩
    exact ⟨(i, j), h2, h1.symm⟩

theorem nodup_getElem?_inj {α : Type*} {l : List α} (hn : l.Nodup) {k k' : Nat} {x : α}
    (h : l[k]? = some x) (h' : l[k']? = some x) : k = k' := by
  obtain ⟨hk, e⟩ := List.getElem?_eq_some_iff.mp h
  obtain ⟨hk', e'⟩ := List.getElem?_eq_some_iff.mp h'
  exact (List.Nodup.getElem_inj_iff hn).mp (e.trans e'.symm)

theorem mapM_ok {α β ε : Type*} (f : α → Except ε β) (g : α → β) (l : List α)
    (h : ∀ x ∈ l, f x = .ok (g x)) : l.mapM f = .ok (l.map g) := by
  induction l with
  | nil => rfl
  | cons a l ih =>
    rw [List.mapM_cons, h a (by simp), ih (fun x hx => h x (by simp [hx]))]
    rfl

/-- Position of the pair `(i, j)` (in either order) in `vecp`. -/
def symPos {n : Nat} (i j : Fin n) : Nat := if i ≤ j then tri j + i else tri i + j

theorem symPos_lt {n : Nat} (i j : Fin n) : symPos i j < tri n := by
  unfold symPos
  split
  · next h =>
    have h' : i.val ≤ j.val := h
    have := tri_mono (show j.val + 1 ≤ n from j.isLt)
    rw [tri_succ] at this
    omega
  · next h =>
    have h' : j.val ≤ i.val := le_of_lt (not_le.mp h)
    have := tri_mono (show i.val + 1 ≤ n from i.isLt)
    rw [tri_succ] at this
    omega

theorem assign_symPos [Field K] {n : Nat} (v : List K) (i j : Fin n) (x : K)
    (hx : v[symPos i j]? = some x) :
    (if i ≤ j then assignZeros (triuIdxsByCol n) v i j
      else assignZeros (triuIdxsByCol n) v j i) = x := by
  unfold symPos at hx
  split
  · next h =>
    rw [if_pos h] at hx
    exact assignZeros_eq _ (triu_nodup n) v _ i j (triu_getElem? i j h) x hx
  · next h =>
    rw [if_neg h] at hx
    exact assignZeros_eq _ (triu_nodup n) v _ j i (triu_getElem? j i (le_of_lt (not_le.mp h))) x hx

/-- Entries of the duplication matrix. -/
theorem duplicationMatrix_eq [Field K] [NeZero (2 : K)] (n : Nat) :
    ∃ D, duplicationMatrix K n = .ok D ∧ D.length = n * n ∧
      ∀ i j : Fin n, ∃ row, D[i.val * n + j.val]? = some row ∧
        row = eyeRow (tri n) (symPos i j) := by
  let g : List K → Σ p, Arr2 p p K := fun v => ⟨n, fun i j =>
    if i ≤ j then assignZeros (triuIdxsByCol n) v i j else assignZeros (triuIdxsByCol n) v j i⟩
  have hm : (eye (K := K) (n * (n + 1) / 2)).mapM unvecp = .ok ((eye (K := K) (tri n)).map g) := by
    apply mapM_ok
    intro x hx
    simp only [eye, List.mem_map, List.mem_range] at hx
    obtain ⟨k, _, rfl⟩ := hx
    exact unvecp_ok n _ (by rw [eyeRow_length]; rfl)
  refine ⟨transposeRows 0 (n * n) (((eye (K := K) (tri n)).map g).map fun M => ravelC M.2),
    by unfold duplicationMatrix; rw [hm], by simp [transposeRows], ?_⟩
  intro i j
  have hlt : i.val * n + j.val < n * n := by
    calc i.val * n + j.val < i.val * n + n := by omega
      _ = (i.val + 1) * n := by ring
      _ ≤ n * n := Nat.mul_le_mul_right n i.isLt
  refine ⟨((eye (K := K) (tri n)).map g).map (fun M => (ravelC M.2).getD (i.val * n + j.val) 0), ?_, ?_⟩
  · unfold transposeRows
    rw [List.getElem?_map, List.getElem?_range hlt, Option.map_some, List.map_map]
    rfl
  unfold eye
  rw [List.map_map, List.map_map, eyeRow]
  apply List.map_congr_left
  intro k hk
  simp only [Function.comp]
  have h1 : (ravelC (g (eyeRow (tri n) k)).2)[i.val * n + j.val]? =
      some ((g (eyeRow (tri n) k)).2 i j) := fancy_getElem? _ _ _ i j (rowMajor_getElem? i j)
  rw [List.getD_eq_getElem?_getD, h1, Option.getD_some]
  have h2 := eyeRow_getElem? (K := K) (tri n) k (symPos i j) (symPos_lt i j)
  have h3 := assign_symPos _ i j _ h2
  simp only [g]
  rw [h3]
  simp only [eq_comm]

theorem vec_length {n m : Nat} (A : Arr2 n m K) : (vec A).length = n * m := by
  simp [vec, fancy, colMajor_length]

theorem vec_getElem? {n m : Nat} (A : Arr2 n m K) (i : Fin n) (j : Fin m) :
    (vec A)[i.val + n * j.val]? = some (A i j) := fancy_getElem? A _ _ i j (colMajor_getElem? i j)

theorem filter_zip_map {α β : Type*} (l : List α) (f : α → β) (p : β → Bool) (g : α → Bool)
    (hg : ∀ a, p (f a) = g a) (e : List (List K)) (h : Nat → List K)
    (he : e = (List.range l.length).map h) :
    ((e.zip (l.map f)).filter fun q => p q.2).map (·.1) =
      ((l.zipIdx.filter fun q => g q.1)).map fun q => h q.2 := by
  have hz : e.zip (l.map f) = l.zipIdx.map fun q => (h q.2, f q.1) := by
    subst he
    apply List.ext_getElem?
    intro k
    by_cases hk : k < l.length
    · simp [hk]
    · rw [List.getElem?_eq_none (by simp; omega), List.getElem?_eq_none (by simp; omega)]
  rw [hz, List.filter_map, List.map_map]
  have : ((fun q : List K × β => p q.2) ∘ fun q : α × Nat => (h q.2, f q.1)) =
      fun q : α × Nat => g q.1 := by
    funext q
    simp [hg]
  rw [this]
  rfl

theorem exists_vec [Zero K] (p q : Nat) (v : List K) (hv : v.length = p * q) :
    ∃ A : Arr2 p q K, vec A = v :=
  ⟨assignZeros (colMajor p q) v,
    fancy_zip_getElem? _ (colMajor_nodup p q) v (by rw [colMajor_length, hv])⟩

end Seyfert.Linalg
