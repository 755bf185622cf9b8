import Verif.Spec.Fisher
import Mathlib.Data.Fintype.EquivFin
import Mathlib.Data.List.NodupEquivFin

set_option linter.unusedSectionVars false

namespace Seyfert.Fisher

variable {N K : Type} [LinearOrder N] [Field K] [DecidableEq K]

theorem mem_sortLabels (l : List N) (a : N) : a ∈ sortLabels l ↔ a ∈ l := by
  unfold sortLabels; exact List.mem_mergeSort

theorem nodup_sortLabels {l : List N} (h : l.Nodup) : (sortLabels l).Nodup :=
  (List.mergeSort_perm l _).nodup_iff.mpr h

theorem On.sortIndex {d : DF N K} {S : Finset N} (h : d.On S) : d.sortIndex.On S where
  same := by simp [DF.sortIndex, h.same]
  nodup := nodup_sortLabels h.nodup
  mem a := by simp [DF.sortIndex, mem_sortLabels, h.mem]

theorem On.toFinset {d : DF N K} {S : Finset N} (h : d.On S) : d.rows.toFinset = S := by
  ext a; simp [h.mem]

theorem On.unique {d : DF N K} {S T : Finset N} (h : d.On S) (h' : d.On T) : S = T := by
  rw [← On.toFinset h, ← On.toFinset h']

/-- The positions of a frame on `S` are in bijection with `S`. -/
def On.equiv {d : DF N K} {S : Finset N} (h : d.On S) : Fin d.rows.length ≃ S :=
  (h.nodup.getEquiv d.rows).trans (Equiv.subtypeEquivRight (fun a => h.mem a))

theorem On.equiv_apply {d : DF N K} {S : Finset N} (h : d.On S) (i : Fin d.rows.length) :
    ((On.equiv h i : S) : N) = d.rows.get i := rfl

theorem On.equiv_symm {d : DF N K} {S : Finset N} (h : d.On S) (a : S) :
    (((On.equiv h).symm a : Fin d.rows.length) : ℕ) = d.rows.idxOf (a : N) := by
  rfl

theorem On.length {d : DF N K} {S : Finset N} (h : d.On S) : d.rows.length = d.cols.length := by
  rw [h.same]

theorem On.values {d : DF N K} {S : Finset N} (h : d.On S) (hl : d.rows.length = d.cols.length) :
    d.values hl = (block S d.val).submatrix (On.equiv h) (On.equiv h) := by
  ext i j
  have hs := h.same
  obtain ⟨r, c, v⟩ := d
  change c = r at hs
  subst hs
  rfl

theorem On.invertDf_singular {d : DF N K} {S : Finset N} (h : d.On S)
    (h0 : (block S d.val).det = 0) : invertDf d = .error .singular := by
  unfold invertDf
  have hl := On.length h
  rw [dif_pos hl, if_pos]
  rw [On.values h hl, Matrix.det_submatrix_equiv_self]; exact h0

/-- What `invertDf` returns for a frame on `S` with nonzero determinant. -/
theorem On.invertDf_ok {d : DF N K} {S : Finset N} (h : d.On S)
    (h0 : (block S d.val).det ≠ 0) :
    ∃ v, invertDf d = .ok { d with val := v } ∧ block S v = (block S d.val)⁻¹ := by
  have hl := On.length h
  refine ⟨d.invEntry hl, ?_, ?_⟩
  · unfold invertDf
    rw [dif_pos hl, if_neg]
    rw [On.values h hl, Matrix.det_submatrix_equiv_self]; exact h0
  · ext a b
    have hs := h.same
    obtain ⟨r, c, v⟩ := d
    change c = r at hs
    subst hs
    rename' c => r
    have ha : r.idxOf (a : N) < r.length := List.idxOf_lt_length_iff.mpr ((h.mem a).mpr a.2)
    have hb : r.idxOf (b : N) < r.length := List.idxOf_lt_length_iff.mpr ((h.mem b).mpr b.2)
    change DF.invEntry _ hl a b = _
    unfold DF.invEntry
    rw [dif_pos ha, dif_pos hb, On.values h hl, Matrix.inv_submatrix_equiv, Matrix.submatrix_apply]
    have e1 : On.equiv h ⟨r.idxOf (a : N), ha⟩ = a := by
      apply Subtype.ext; rw [On.equiv_apply]; simp
    have e2 : On.equiv h ⟨r.idxOf (b : N), hb⟩ = b := by
      apply Subtype.ext; rw [On.equiv_apply]; simp
    rw [e1, e2]

theorem block_congr {S : Finset N} {v w : N → N → K} :
    block S v = block S w ↔ ∀ a ∈ S, ∀ b ∈ S, v a b = w a b := by
  constructor
  · intro h a ha b hb
    exact congrFun (congrFun h ⟨a, ha⟩) ⟨b, hb⟩
  · intro h; ext a b; exact h a a.2 b b.2

theorem inverse_iff {S : Finset N} {A B : N → N → K} :
    Inverse S A B ↔ (block S A).det ≠ 0 ∧ block S B = (block S A)⁻¹ := by
  unfold Inverse
  constructor
  · intro h
    refine ⟨?_, (Matrix.inv_eq_right_inv h).symm⟩
    intro h0
    have := congrArg Matrix.det h
    rw [Matrix.det_mul, h0, zero_mul, Matrix.det_one] at this
    exact zero_ne_one this
  · rintro ⟨h0, h⟩
    rw [h]; exact Matrix.mul_nonsing_inv _ (isUnit_iff_ne_zero.mpr h0)

theorem Inverse.symm {S : Finset N} {A B : N → N → K} (h : Inverse S A B) : Inverse S B A :=
  mul_eq_one_comm.mp h

theorem Inverse.congr {S : Finset N} {A A' B B' : N → N → K} (h : Inverse S A B)
    (hA : ∀ a ∈ S, ∀ b ∈ S, A a b = A' a b) (hB : ∀ a ∈ S, ∀ b ∈ S, B a b = B' a b) :
    Inverse S A' B' := by
  unfold Inverse; rw [← block_congr.mpr hA, ← block_congr.mpr hB]; exact h

theorem Inverse.unique {S : Finset N} {A B C : N → N → K} (h : Inverse S A B)
    (h' : Inverse S A C) : ∀ a ∈ S, ∀ b ∈ S, B a b = C a b := by
  apply block_congr.mp
  rw [(inverse_iff.mp h).2, (inverse_iff.mp h').2]

/-- `invertDf` succeeds exactly when an inverse exists, and returns it. -/
theorem On.invertDf_iff {d : DF N K} {S : Finset N} (h : d.On S) (r : DF N K) :
    invertDf d = .ok r → r.rows = d.rows ∧ r.cols = d.cols ∧ Inverse S d.val r.val := by
  intro hr
  by_cases h0 : (block S d.val).det = 0
  · rw [On.invertDf_singular h h0] at hr; cases hr
  · obtain ⟨v, hv, hb⟩ := On.invertDf_ok h h0
    rw [hv] at hr
    cases hr
    exact ⟨rfl, rfl, inverse_iff.mpr ⟨h0, hb⟩⟩

theorem On.invertDf_of_inverse {d : DF N K} {S : Finset N} (h : d.On S) {B : N → N → K}
    (hB : Inverse S d.val B) :
    ∃ v, invertDf d = .ok { d with val := v } ∧ Inverse S d.val v ∧
      ∀ a ∈ S, ∀ b ∈ S, v a b = B a b := by
  obtain ⟨h0, hb⟩ := inverse_iff.mp hB
  obtain ⟨v, hv, hbv⟩ := On.invertDf_ok h h0
  have := inverse_iff.mpr ⟨h0, hbv⟩
  exact ⟨v, hv, this, Inverse.unique this hB⟩

theorem On.invertDf_error {d : DF N K} {S : Finset N} (h : d.On S) {e : Err}
    (he : invertDf d = .error e) : e = .singular ∧ (block S d.val).det = 0 := by
  by_cases h0 : (block S d.val).det = 0
  · rw [On.invertDf_singular h h0] at he; cases he; exact ⟨rfl, h0⟩
  · obtain ⟨v, hv, _⟩ := On.invertDf_ok h h0
    rw [hv] at he; cases he

theorem On.locSet {en : Finset N → List N} (hen : Iteration en) {d : DF N K} {S T : Finset N}
    (h : d.On S) (hT : T ⊆ S) :
    d.locSet en T = .ok { d with rows := en T, cols := en T } ∧
      DF.On { d with rows := en T, cols := en T } T := by
  refine ⟨?_, ⟨rfl, (hen T).1, (hen T).2⟩⟩
  unfold DF.locSet
  rw [if_pos]
  refine ⟨fun a ha => (h.mem a).mpr (hT ha), fun a ha => ?_⟩
  rw [h.same]; exact (h.mem a).mpr (hT ha)

theorem On.dropSet {d : DF N K} {S T : Finset N} (h : d.On S) (hT : T ⊆ S) :
    ∃ r, d.dropSet T = .ok r ∧ r.On (S \ T) ∧ r.val = d.val ∧
      r.rows = d.rows.filter (fun a => decide (a ∉ T)) := by
  refine ⟨{ d with rows := d.rows.filter (fun a => decide (a ∉ T)),
                   cols := d.cols.filter (fun a => decide (a ∉ T)) }, ?_, ?_, rfl, rfl⟩
  · unfold DF.dropSet
    rw [if_pos]
    refine ⟨fun a ha => (h.mem a).mpr (hT ha), fun a ha => ?_⟩
    rw [h.same]; exact (h.mem a).mpr (hT ha)
  · refine ⟨by simp [h.same], h.nodup.filter _, fun a => by simp [h.mem]⟩

theorem On.zeroPar {d : DF N K} {S : Finset N} (h : d.On S) (p : N) :
    (d.zeroPar p).On (insert p S) := by
  obtain ⟨r, c, v⟩ := d
  obtain ⟨hs, hn, hm⟩ := h
  simp only at hs hn hm
  subst hs
  refine ⟨rfl, ?_, ?_⟩
  · simp only [DF.zeroPar]; split
    · exact hn
    · rename_i hp; simp [List.nodup_append, hn]; intro a ha e; exact hp (e ▸ ha)
  · intro a; simp only [DF.zeroPar]; split
    · rename_i hp
      simp only [Finset.mem_insert, hm]
      constructor
      · exact Or.inr
      · rintro (rfl | h); · exact (hm a).mp hp
        exact h
    · simp [hm, or_comm]

theorem On.foldl_zeroPar (l : List N) {d : DF N K} {S : Finset N} (h : d.On S) :
    (l.foldl DF.zeroPar d).On (S ∪ l.toFinset) := by
  induction l generalizing d S with
  | nil => simpa using h
  | cons p l ih =>
    have := ih (On.zeroPar h p)
    rw [List.foldl_cons]
    have e : insert p S ∪ l.toFinset = S ∪ (p :: l).toFinset := by
      ext a; simp only [Finset.mem_union, Finset.mem_insert, List.mem_toFinset, List.mem_cons]; tauto
    rwa [e] at this

theorem foldl_zeroPar_val (l : List N) (d : DF N K) (a b : N) :
    (l.foldl DF.zeroPar d).val a b = if a ∈ l ∨ b ∈ l then 0 else d.val a b := by
  induction l generalizing d with
  | nil => simp
  | cons p l ih =>
    rw [List.foldl_cons, ih]
    simp only [DF.zeroPar, List.mem_cons]
    by_cases h1 : a ∈ l ∨ b ∈ l
    · rw [if_pos h1, if_pos (by tauto)]
    · rw [if_neg h1]
      by_cases h2 : a = p ∨ b = p
      · rw [if_pos h2, if_pos (by tauto)]
      · rw [if_neg h2, if_neg (by tauto)]

theorem joinLabels_spec {l₁ l₂ : List N} (h₁ : l₁.Nodup) :
    (joinLabels l₁ l₂).Nodup ∧ ∀ a, a ∈ joinLabels l₁ l₂ ↔ a ∈ l₁ ∨ a ∈ l₂ := by
  unfold joinLabels
  split
  · rename_i h; subst h; exact ⟨h₁, by simp⟩
  · exact ⟨nodup_sortLabels (List.nodup_dedup _), by simp [mem_sortLabels]⟩

theorem On.zip {d₁ d₂ : DF N K} {S : Finset N} (h₁ : d₁.On S) (h₂ : d₂.On S) (op : K → K → K) :
    ∃ r, DF.zip op d₁ d₂ = .ok r ∧ r.On S ∧ r.val = fun a b => op (d₁.val a b) (d₂.val a b) := by
  refine ⟨{ rows := joinLabels d₁.rows d₂.rows, cols := joinLabels d₁.cols d₂.cols,
            val := fun a b => op (d₁.val a b) (d₂.val a b) }, ?_, ?_, rfl⟩
  · unfold DF.zip
    rw [if_pos]
    rw [h₁.same, h₂.same, On.toFinset h₁, On.toFinset h₂]; exact ⟨rfl, rfl⟩
  · have := joinLabels_spec (l₂ := d₂.rows) h₁.nodup
    refine ⟨by rw [h₁.same, h₂.same], this.1, fun a => ?_⟩
    simp [this.2, h₁.mem, h₂.mem]

theorem On.ent {d : DF N K} {S : Finset N} (h : d.On S) (a b : N) :
    d.ent a b = if a ∈ S ∧ b ∈ S then d.val a b else 0 := by
  unfold DF.ent; rw [h.same]; simp only [h.mem]

theorem FM.copy_WF {F : FM N K} (h : F.WF) : F.copy.WF := h

theorem zeroPad_fst {en : Finset N → List N} (hen : Iteration en) {F G : FM N K} (hF : F.WF) :
    let P := (zeroPad en F.copy G.copy).1
    P.matrix.On ((F.cosmo ∪ G.cosmo) ∪ (F.nuis ∪ G.nuis)) ∧
      (∀ a ∈ (F.cosmo ∪ G.cosmo) ∪ (F.nuis ∪ G.nuis),
        ∀ b ∈ (F.cosmo ∪ G.cosmo) ∪ (F.nuis ∪ G.nuis), P.matrix.val a b = F.matrix.ent a b) := by
  have h0 : F.matrix.On (F.cosmo ∪ F.nuis) := hF
  intro P
  obtain ⟨M, hM⟩ : ∃ M, M = ((F.cosmo ∪ G.cosmo) ∪ (F.nuis ∪ G.nuis)) \ (F.nuis ∪ F.cosmo) :=
    ⟨_, rfl⟩
  have hP : P.matrix = (en M).foldl DF.zeroPar F.matrix := by rw [hM]; rfl
  have hm : ∀ a, a ∈ en M ↔ ((a ∈ F.cosmo ∨ a ∈ G.cosmo) ∨ a ∈ F.nuis ∨ a ∈ G.nuis) ∧
      ¬ (a ∈ F.nuis ∨ a ∈ F.cosmo) := by
    intro a; rw [(hen M).2, hM]; simp only [Finset.mem_sdiff, Finset.mem_union]
  constructor
  · rw [hP]
    have := On.foldl_zeroPar (en M) h0
    convert this using 1
    ext a
    simp only [Finset.mem_union, List.mem_toFinset, hm]
    tauto
  · intro a ha b hb
    have hm' : ∀ c ∈ (F.cosmo ∪ G.cosmo) ∪ (F.nuis ∪ G.nuis),
        (c ∈ en M ↔ c ∉ F.cosmo ∪ F.nuis) := by
      intro c hc
      rw [(hen M).2, hM, Finset.mem_sdiff, Finset.union_comm F.nuis F.cosmo]
      exact ⟨fun h => h.2, fun h => ⟨hc, h⟩⟩
    rw [hP, foldl_zeroPar_val, On.ent h0]
    simp only [hm' a ha, hm' b hb]
    by_cases h1 : a ∈ F.cosmo ∪ F.nuis <;> by_cases h2 : b ∈ F.cosmo ∪ F.nuis <;>
      simp only [h1, h2, not_true_eq_false, not_false_eq_true, or_false, or_true, and_true,
        and_false, if_true, if_false]

theorem zeroPad_snd {en : Finset N → List N} (hen : Iteration en) {F G : FM N K} (hG : G.WF) :
    let P := (zeroPad en F.copy G.copy).2
    P.matrix.On ((F.cosmo ∪ G.cosmo) ∪ (F.nuis ∪ G.nuis)) ∧
      (∀ a ∈ (F.cosmo ∪ G.cosmo) ∪ (F.nuis ∪ G.nuis),
        ∀ b ∈ (F.cosmo ∪ G.cosmo) ∪ (F.nuis ∪ G.nuis), P.matrix.val a b = G.matrix.ent a b) := by
  have := zeroPad_fst hen (F := G) (G := F) hG
  have e : (G.cosmo ∪ F.cosmo) ∪ (G.nuis ∪ F.nuis) = (F.cosmo ∪ G.cosmo) ∪ (F.nuis ∪ G.nuis) := by
    rw [Finset.union_comm G.cosmo, Finset.union_comm G.nuis]
  have e2 : (zeroPad en G.copy F.copy).1 = (zeroPad en F.copy G.copy).2 := by
    simp only [zeroPad, FM.copy, FM.phys]
    rw [Finset.union_comm G.cosmo F.cosmo, Finset.union_comm G.nuis F.nuis]
  rw [e, e2] at this
  exact this

/-- The result of `combine` on well-formed operands. -/
theorem combine_spec {en : Finset N → List N} (hen : Iteration en) {F G : FM N K} (hF : F.WF)
    (hG : G.WF) (op : K → K → K) (h0 : op 0 0 = 0) (sep : Str) :
    ∃ R, F.combine en op sep G = .ok R ∧ R.WF ∧ R.name = F.name ++ sep ++ G.name ∧
      R.cosmo = F.cosmo ∪ G.cosmo ∧ R.nuis = F.nuis ∪ G.nuis ∧
      R.margFlag = true ∧ R.inverse = none ∧ R.correlation = none ∧
      ∀ a b, R.matrix.ent a b = op (F.matrix.ent a b) (G.matrix.ent a b) := by
  obtain ⟨p1, p2⟩ := zeroPad_fst hen (G := G) hF
  obtain ⟨q1, q2⟩ := zeroPad_snd hen (F := F) hG
  obtain ⟨r, hr, hon, hval⟩ := On.zip p1 q1 op
  refine ⟨{ matrix := r, name := F.name ++ sep ++ G.name, cosmo := F.cosmo ∪ G.cosmo,
            nuis := F.nuis ∪ G.nuis }, ?_, ?_, rfl, rfl, rfl, rfl, rfl, rfl, ?_⟩
  · unfold FM.combine
    change (match DF.zip op (zeroPad en F.copy G.copy).1.matrix
      (zeroPad en F.copy G.copy).2.matrix with
      | .error e => _
      | .ok m => _) = _
    rw [hr]
    rfl
  · exact hon
  · intro a b
    simp only
    rw [On.ent hon, hval]
    by_cases hab : a ∈ F.cosmo ∪ G.cosmo ∪ (F.nuis ∪ G.nuis) ∧
        b ∈ F.cosmo ∪ G.cosmo ∪ (F.nuis ∪ G.nuis)
    · rw [if_pos hab]
      simp only
      rw [p2 a hab.1 b hab.2, q2 a hab.1 b hab.2]
    · rw [if_neg hab]
      have hF' : F.matrix.On (F.cosmo ∪ F.nuis) := hF
      have hG' : G.matrix.On (G.cosmo ∪ G.nuis) := hG
      rw [On.ent hF', On.ent hG', if_neg, if_neg, h0]
      · simp only [Finset.mem_union] at hab ⊢; tauto
      · simp only [Finset.mem_union] at hab ⊢; tauto

theorem inverse_sum {S : Finset N} {A B : N → N → K} :
    Inverse S A B ↔ ∀ a ∈ S, ∀ b ∈ S, ∑ c ∈ S, A a c * B c b = if a = b then 1 else 0 := by
  have key : ∀ a b : S, (block S A * block S B) a b = ∑ c ∈ S, A a c * B c b := by
    intro a b
    rw [Matrix.mul_apply, ← Finset.sum_coe_sort S]
    rfl
  unfold Inverse
  constructor
  · intro h a ha b hb
    rw [← key ⟨a, ha⟩ ⟨b, hb⟩, h, Matrix.one_apply]
    simp [Subtype.ext_iff]
  · intro h; ext a b
    rw [key, h a a.2 b b.2, Matrix.one_apply]
    by_cases hab : a = b
    · rw [if_pos hab, if_pos (congrArg _ hab)]
    · rw [if_neg hab, if_neg (fun e => hab (Subtype.ext e))]

/-- Deleting `A` from the matrix obtained by marginalising `B` gives the same block as marginalising
`B` after deleting `A`. -/
theorem schur_delete {R A B : Finset N} (hRB : Disjoint R B)
    (hAB : Disjoint A B) {F V G V' : N → N → K} (hV : Inverse (R ∪ A ∪ B) F V)
    (hG : Inverse (R ∪ A) V G) (hV' : Inverse (R ∪ B) F V') : Inverse R V' G := by
  have hKB : Disjoint (R ∪ A) B := Finset.disjoint_union_left.mpr ⟨hRB, hAB⟩
  rw [inverse_sum] at hV hG ⊢
  have hV'' := inverse_sum.mp hV'.symm
  intro t ht r hr
  set Y : N → K := fun b => ∑ k ∈ R ∪ A, V b k * G k r with hY
  have hYK : ∀ k ∈ R ∪ A, Y k = if k = r then 1 else 0 := fun k hk =>
    hG k hk r (Finset.mem_union_left _ hr)
  -- `F` applied to `e_r + Y|_B`
  have h1 : ∀ s ∈ R ∪ A ∪ B, F s r + ∑ b ∈ B, F s b * Y b = if s ∈ R ∪ A then G s r else 0 := by
    intro s hs
    have e1 : ∑ u ∈ R ∪ A ∪ B, F s u * Y u = F s r + ∑ b ∈ B, F s b * Y b := by
      rw [Finset.sum_union hKB]
      congr 1
      rw [Finset.sum_congr rfl (fun k hk => by rw [hYK k hk])]
      simp [hr]
    have e2 : ∑ u ∈ R ∪ A ∪ B, F s u * Y u = if s ∈ R ∪ A then G s r else 0 := by
      have : ∀ u, F s u * Y u = ∑ k ∈ R ∪ A, F s u * V u k * G k r := by
        intro u; rw [hY, Finset.mul_sum]; exact Finset.sum_congr rfl (fun k _ => by ring)
      simp only [this]
      rw [Finset.sum_comm]
      have : ∀ k ∈ R ∪ A, ∑ u ∈ R ∪ A ∪ B, F s u * V u k * G k r =
          if s = k then G k r else 0 := by
        intro k hk
        rw [← Finset.sum_mul, hV s hs k (Finset.mem_union_left _ hk)]
        split <;> simp
      rw [Finset.sum_congr rfl this]
      simp
    rw [← e1, e2]
  have hz : ∀ s ∈ R ∪ B, ∑ u ∈ R ∪ B, F s u * (if u ∈ R then (if u = r then 1 else 0) else Y u) =
      if s ∈ R then G s r else 0 := by
    intro s hs
    have hs' : s ∈ R ∪ A ∪ B := by
      simp only [Finset.mem_union] at hs ⊢; tauto
    have hiff : s ∈ R ∪ A ↔ s ∈ R := by
      simp only [Finset.mem_union] at hs ⊢
      constructor
      · rintro (h | h)
        · exact h
        · rcases hs with h' | h'
          · exact h'
          · exact absurd h' (Finset.disjoint_left.mp hAB h)
      · exact Or.inl
    have := h1 s hs'
    simp only [hiff] at this
    rw [← this, Finset.sum_union hRB]
    congr 1
    · rw [Finset.sum_congr rfl (fun k hk => by rw [if_pos hk])]; simp [hr]
    · exact Finset.sum_congr rfl (fun k hk => by rw [if_neg (Finset.disjoint_right.mp hRB hk)])
  -- apply `V'`
  have h2 : ∑ s ∈ R ∪ B, V' t s * (if s ∈ R then G s r else 0) = if t = r then 1 else 0 := by
    rw [Finset.sum_congr rfl (fun s hs => by rw [← hz s hs, Finset.mul_sum])]
    rw [Finset.sum_comm]
    have : ∀ u ∈ R ∪ B, ∑ s ∈ R ∪ B,
        V' t s * (F s u * (if u ∈ R then (if u = r then 1 else 0) else Y u)) =
        if t = u then (if u ∈ R then (if u = r then 1 else 0) else Y u) else 0 := by
      intro u hu
      have := hV'' t (Finset.mem_union_left _ ht) u hu
      rw [Finset.sum_congr rfl (fun s _ => by rw [← mul_assoc]), ← Finset.sum_mul, this]
      split <;> simp
    rw [Finset.sum_congr rfl this]
    simp [ht]
  rw [← h2, Finset.sum_union hRB]
  have : ∑ s ∈ B, V' t s * (if s ∈ R then G s r else 0) = 0 := by
    apply Finset.sum_eq_zero
    intro s hs
    rw [if_neg (Finset.disjoint_right.mp hRB hs), mul_zero]
  rw [this, add_zero]
  exact Finset.sum_congr rfl (fun s hs => by rw [if_pos hs])

/-! Marginalisation -/

/-- All that happens when marginalising a well-formed matrix whose relevant inverses exist. -/
theorem marg_ok {en : Finset N → List N} (hen : Iteration en) {F : FM N K} (hF : F.WF)
    {A : Finset N} {V W : N → N → K}
    (hV : Inverse (F.cosmo ∪ F.nuis) F.matrix.val V)
    (hW : Inverse ((F.cosmo ∪ F.nuis) \ A) V W) :
    ∃ inv sl m : DF N K, invertDf F.matrix = .ok inv ∧
      inv.On (F.cosmo ∪ F.nuis) ∧ Inverse (F.cosmo ∪ F.nuis) F.matrix.val inv.val ∧
      inv.locSet en ((F.cosmo ∪ F.nuis) \ A) = .ok sl ∧ sl.On ((F.cosmo ∪ F.nuis) \ A) ∧
      sl.val = inv.val ∧ invertDf sl = .ok m ∧ m.On ((F.cosmo ∪ F.nuis) \ A) ∧
      Inverse ((F.cosmo ∪ F.nuis) \ A) inv.val m.val ∧
      (∀ a ∈ F.cosmo ∪ F.nuis, ∀ b ∈ F.cosmo ∪ F.nuis, inv.val a b = V a b) ∧
      (∀ a ∈ (F.cosmo ∪ F.nuis) \ A, ∀ b ∈ (F.cosmo ∪ F.nuis) \ A, m.val a b = W a b) := by
  have hF' : F.matrix.On (F.cosmo ∪ F.nuis) := hF
  obtain ⟨v, hv, hinv, heq⟩ := On.invertDf_of_inverse hF' hV
  have hon : DF.On { F.matrix with val := v } (F.cosmo ∪ F.nuis) :=
    ⟨hF'.same, hF'.nodup, hF'.mem⟩
  obtain ⟨hl, hlon⟩ := On.locSet hen hon (Finset.sdiff_subset (s := F.cosmo ∪ F.nuis) (t := A))
  have hsub : ∀ a ∈ (F.cosmo ∪ F.nuis) \ A, a ∈ F.cosmo ∪ F.nuis :=
    fun a ha => (Finset.mem_sdiff.mp ha).1
  have hW' : Inverse ((F.cosmo ∪ F.nuis) \ A) v W :=
    hW.congr (fun a ha b hb => (heq a (hsub a ha) b (hsub b hb)).symm) (fun _ _ _ _ => rfl)
  obtain ⟨w, hw, hwinv, hweq⟩ := On.invertDf_of_inverse hlon hW'
  exact ⟨_, _, _, hv, hon, hinv, hl, hlon, rfl, hw, ⟨hlon.same, hlon.nodup, hlon.mem⟩, hwinv, heq,
    hweq⟩

/-- If marginalisation in place returned normally, the inverses existed. -/
theorem marg_ok_inv {en : Finset N → List N} (hen : Iteration en) {F R : FM N K} (hF : F.WF)
    {A : Finset N} (h : F.margInPlace en A = (R, .ok ())) :
    A ⊆ F.cosmo ∪ F.nuis ∧ ∃ V W, Inverse (F.cosmo ∪ F.nuis) F.matrix.val V ∧
      Inverse ((F.cosmo ∪ F.nuis) \ A) V W := by
  have hF' : F.matrix.On (F.cosmo ∪ F.nuis) := hF
  unfold FM.margInPlace at h
  simp only [On.toFinset hF'] at h
  split at h
  · cases h
  · rename_i hne
    have hA : A ⊆ F.cosmo ∪ F.nuis := Finset.sdiff_eq_empty_iff_subset.mp (not_not.mp hne)
    refine ⟨hA, ?_⟩
    split at h
    · cases h
    · rename_i inv hi
      obtain ⟨h1, h2, h3⟩ := On.invertDf_iff hF' inv hi
      have hon : inv.On (F.cosmo ∪ F.nuis) :=
        ⟨by rw [h1, h2, hF'.same], by rw [h1]; exact hF'.nodup, by rw [h1]; exact hF'.mem⟩
      obtain ⟨hl, hlon⟩ := On.locSet hen hon
        (Finset.sdiff_subset (s := F.cosmo ∪ F.nuis) (t := A))
      rw [hl] at h
      simp only at h
      split at h
      · cases h
      · rename_i m hm
        obtain ⟨_, _, h6⟩ := On.invertDf_iff hlon m hm
        exact ⟨_, _, h3, h6⟩

/-! Reported errors -/

theorem mapM_ok' {α β ε : Type} (f : α → Except ε β) (g : α → β) (l : List α)
    (h : ∀ a ∈ l, f a = .ok (g a)) : l.mapM f = .ok (l.map g) := by
  induction l with
  | nil => rfl
  | cons a l ih =>
    rw [List.mapM_cons, h a (by simp), ih (fun b hb => h b (by simp [hb]))]
    rfl

theorem lookup_map_self (g : N → K) (l : List N) (p : N) (hp : p ∈ l) :
    (l.map (fun q => (q, g q))).lookup p = some (g p) := by
  induction l with
  | nil => simp at hp
  | cons a l ih =>
    simp only [List.map_cons, List.lookup_cons]
    by_cases h : p = a
    · subst h; simp
    · rw [show (p == a) = false by simpa using h]
      exact ih (by simpa [h] using hp)

theorem sort_pairs (l : List (N × K)) (hn : (l.map Prod.fst).Nodup) :
    ((l.mergeSort (fun x y => decide (x.1 ≤ y.1))).map Prod.fst).Pairwise (· < ·) ∧
    ∀ x, x ∈ l.mergeSort (fun x y => decide (x.1 ≤ y.1)) ↔ x ∈ l := by
  refine ⟨?_, fun x => List.mem_mergeSort⟩
  have hp := List.mergeSort_perm l (fun x y => decide (x.1 ≤ y.1))
  have hs : (l.mergeSort (fun x y => decide (x.1 ≤ y.1))).Pairwise
      (fun x y => decide (x.1 ≤ y.1) = true) :=
    List.pairwise_mergeSort (fun a b c hab hbc => by simp at *; exact le_trans hab hbc)
      (fun a b => by simp; exact le_total _ _) l
  have hn' : ((l.mergeSort (fun x y => decide (x.1 ≤ y.1))).map Prod.fst).Nodup :=
    (hp.map Prod.fst).nodup_iff.mpr hn
  rw [List.pairwise_map]
  unfold List.Nodup at hn'
  rw [List.pairwise_map] at hn'
  exact (hs.and hn').imp (fun h => lt_of_le_of_ne (by simpa using h.1) h.2)

/-- What `getMarginalizedErrors` does when an inverse is cached: it reads that inverse. -/
theorem margErrors_cached {en : Finset N → List N} (hen : Iteration en) (sq : K → K) {w0 wa : N}
    (hw : w0 ≠ wa) (fom oc : Bool) {F : FM N K} (hF : F.WF) {I : DF N K} (hI : F.inverse = some I)
    (hcov : ∀ a ∈ F.cosmo ∪ F.nuis, a ∈ I.rows ∧ a ∈ I.cols) :
    ∃ out, F.margErrors en sq w0 wa fom oc = (F, .ok out) ∧
      (out.1.map Prod.fst).Pairwise (· < ·) ∧
      (∀ p, p ∈ out.1.map Prod.fst ↔ p ∈ (if oc then F.cosmo else F.cosmo ∪ F.nuis)) ∧
      (∀ pe ∈ out.1, pe.2 = sq (I.val pe.1 pe.1)) ∧
      out.2 = if fom ∧ w0 ∈ F.cosmo ∪ F.nuis ∧ wa ∈ F.cosmo ∪ F.nuis then
        some (1 / sq (I.val w0 w0 * I.val wa wa - I.val w0 wa * I.val wa w0)) else none := by
  have hF' : F.matrix.On (F.cosmo ∪ F.nuis) := hF
  have hs : ∀ p ∈ F.matrix.rows, (F.sigma sq p).map (fun v => (p, v)) =
      .ok (p, sq (I.val p p)) := by
    intro p hp
    have := hcov p ((hF'.mem p).mp hp)
    simp [FM.sigma, hI, DF.at, this.1, this.2, Except.map]
  have hm := mapM_ok' _ _ _ hs
  have hfom : F.fomEntry sq w0 wa fom = Except.ok (if fom = true ∧ w0 ∈ F.cosmo ∪ F.nuis ∧
        wa ∈ F.cosmo ∪ F.nuis then
        some (1 / sq (I.val w0 w0 * I.val wa wa - I.val w0 wa * I.val wa w0)) else none) := by
    unfold FM.fomEntry
    simp only [hF'.mem]
    split
    · rename_i h
      have h0 := hcov _ h.2.1
      have h1 := hcov _ h.2.2
      unfold FM.fom
      rw [hI]
      simp only
      rw [if_pos ⟨h0, h1⟩, if_neg hw]
      rfl
    · rfl
  have hco : ∀ p ∈ F.cosmo, p ∈ F.matrix.rows := fun p hp =>
    (hF'.mem p).mpr (Finset.mem_union_left _ hp)
  cases oc with
  | false =>
    refine ⟨((F.matrix.rows.map (fun p => (p, sq (I.val p p)))).mergeSort
      (fun x y => decide (x.1 ≤ y.1)), if fom = true ∧ w0 ∈ F.cosmo ∪ F.nuis ∧ wa ∈ F.cosmo ∪ F.nuis then
        some (1 / sq (I.val w0 w0 * I.val wa wa - I.val w0 wa * I.val wa w0)) else none), ?_, ?_⟩
    · unfold FM.margErrors
      rw [hI]
      simp only [FM.readErrors]
      rw [hm]
      simp only [FM.onlyCosmo, Bool.false_eq_true, if_false]
      rw [hfom]
    · have hn : ((F.matrix.rows.map (fun p => (p, sq (I.val p p)))).map Prod.fst).Nodup := by
        rw [List.map_map]; simpa [Function.comp_def] using hF'.nodup
      obtain ⟨h1, h2⟩ := sort_pairs _ hn
      refine ⟨h1, ?_, ?_, rfl⟩
      · intro p
        simp only [List.mem_map, h2]
        simp [hF'.mem]
      · intro pe hpe
        simp only [h2, List.mem_map] at hpe
        obtain ⟨a, _, rfl⟩ := hpe
        rfl
  | true =>
    have e : (en F.cosmo).filterMap (fun p =>
        ((F.matrix.rows.map (fun p => (p, sq (I.val p p)))).lookup p).map (fun v => (p, v))) =
        (en F.cosmo).map (fun p => (p, sq (I.val p p))) := by
      conv_rhs => rw [← List.filterMap_eq_map]
      apply List.filterMap_congr
      intro p hp
      rw [lookup_map_self _ _ _ (hco p (((hen _).2 p).mp hp))]
      rfl
    refine ⟨(((en F.cosmo).map (fun p => (p, sq (I.val p p)))).mergeSort
      (fun x y => decide (x.1 ≤ y.1)), if fom = true ∧ w0 ∈ F.cosmo ∪ F.nuis ∧ wa ∈ F.cosmo ∪ F.nuis then
        some (1 / sq (I.val w0 w0 * I.val wa wa - I.val w0 wa * I.val wa w0)) else none), ?_, ?_⟩
    · unfold FM.margErrors
      rw [hI]
      simp only [FM.readErrors]
      rw [hm]
      simp only [FM.onlyCosmo, if_true]
      rw [if_pos hco, e]
      simp only
      rw [hfom]
    · have hn : (((en F.cosmo).map (fun p => (p, sq (I.val p p)))).map Prod.fst).Nodup := by
        rw [List.map_map]; simpa [Function.comp_def] using (hen F.cosmo).1
      obtain ⟨h1, h2⟩ := sort_pairs _ hn
      refine ⟨h1, ?_, ?_, rfl⟩
      · intro p
        simp only [List.mem_map, h2]
        simp [(hen _).2]
      · intro pe hpe
        simp only [h2, List.mem_map] at hpe
        obtain ⟨a, _, rfl⟩ := hpe
        rfl

end Seyfert.Fisher
