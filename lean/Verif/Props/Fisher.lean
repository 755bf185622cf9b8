import Verif.Lemmas.Fisher
import Mathlib.Tactic.NormNum
import Mathlib.Tactic.FinCases

/-!
Properties of single Fisher matrices: C09 (sum and difference), C10 (marginalisation),
C11 (fixing parameters).

Reading guide: `F.WF` says that the rows and columns of the frame are the object's parameters,
`F.matrix.ent a b` is the entry for parameters `a`, `b` (zero if the matrix does not have them),
`Inverse S A B` says that `B` is the inverse of `A` on the parameter set `S`, `Iteration en` says that
`en` lists the elements of Python sets in some order.
-/

set_option linter.unusedSectionVars false

namespace Seyfert.Fisher

variable {N K : Type} [LinearOrder N] [Field K] [DecidableEq K]

/-! ### C09: sum and difference -/

/-- C09. The sum has the union of the parameters and adds entries, an absent parameter counting as
zero; the cached values and the nuisance flag are those of a new object. -/
theorem add_spec {en : Finset N → List N} (hen : Iteration en) {F G : FM N K} (hF : F.WF)
    (hG : G.WF) : ∃ R, F.add en G = .ok R ∧ R.WF ∧
      R.name = F.name ++ " + ".toList ++ G.name ∧
      R.cosmo = F.cosmo ∪ G.cosmo ∧ R.nuis = F.nuis ∪ G.nuis ∧
      R.inverse = none ∧ R.correlation = none ∧ R.margFlag = true ∧
      ∀ a b, R.matrix.ent a b = F.matrix.ent a b + G.matrix.ent a b := by
  obtain ⟨R, h1, h2, h3, h4, h5, h6, h7, h8, h9⟩ :=
    combine_spec hen hF hG (· + ·) (add_zero 0) " + ".toList
  exact ⟨R, h1, h2, h3, h4, h5, h7, h8, h6, h9⟩

/-- C09. Same for the difference. -/
theorem sub_spec {en : Finset N → List N} (hen : Iteration en) {F G : FM N K} (hF : F.WF)
    (hG : G.WF) : ∃ R, F.sub en G = .ok R ∧ R.WF ∧
      R.name = F.name ++ " - ".toList ++ G.name ∧
      R.cosmo = F.cosmo ∪ G.cosmo ∧ R.nuis = F.nuis ∪ G.nuis ∧
      R.inverse = none ∧ R.correlation = none ∧ R.margFlag = true ∧
      ∀ a b, R.matrix.ent a b = F.matrix.ent a b - G.matrix.ent a b := by
  obtain ⟨R, h1, h2, h3, h4, h5, h6, h7, h8, h9⟩ :=
    combine_spec hen hF hG (· - ·) (sub_zero 0) " - ".toList
  exact ⟨R, h1, h2, h3, h4, h5, h7, h8, h6, h9⟩

/-- The content of a Fisher matrix as a user sees it by label: parameter sets and entries. -/
def SameContent (F G : FM N K) : Prop :=
  F.cosmo = G.cosmo ∧ F.nuis = G.nuis ∧ ∀ a b, F.matrix.ent a b = G.matrix.ent a b

/-- C09. Neither the row order of the operands nor the iteration order of sets matters. -/
theorem add_order_independent {en en' : Finset N → List N} (hen : Iteration en)
    (hen' : Iteration en') {F F' G G' R R' : FM N K} (hF : F.WF) (hF' : F'.WF) (hG : G.WF)
    (hG' : G'.WF) (hFF : SameContent F F') (hGG : SameContent G G')
    (h : F.add en G = .ok R) (h' : F'.add en' G' = .ok R') : SameContent R R' := by
  obtain ⟨_, e, _, _, c, n, _, _, _, v⟩ := add_spec hen hF hG
  obtain ⟨_, e', _, _, c', n', _, _, _, v'⟩ := add_spec hen' hF' hG'
  rw [h] at e; cases e
  rw [h'] at e'; cases e'
  exact ⟨by rw [c, c', hFF.1, hGG.1], by rw [n, n', hFF.2.1, hGG.2.1], fun a b => by
    rw [v, v', hFF.2.2, hGG.2.2]⟩

theorem sub_order_independent {en en' : Finset N → List N} (hen : Iteration en)
    (hen' : Iteration en') {F F' G G' R R' : FM N K} (hF : F.WF) (hF' : F'.WF) (hG : G.WF)
    (hG' : G'.WF) (hFF : SameContent F F') (hGG : SameContent G G')
    (h : F.sub en G = .ok R) (h' : F'.sub en' G' = .ok R') : SameContent R R' := by
  obtain ⟨_, e, _, _, c, n, _, _, _, v⟩ := sub_spec hen hF hG
  obtain ⟨_, e', _, _, c', n', _, _, _, v'⟩ := sub_spec hen' hF' hG'
  rw [h] at e; cases e
  rw [h'] at e'; cases e'
  exact ⟨by rw [c, c', hFF.1, hGG.1], by rw [n, n', hFF.2.1, hGG.2.1], fun a b => by
    rw [v, v', hFF.2.2, hGG.2.2]⟩

/-- C09. Commutativity. -/
theorem add_comm_content {en : Finset N → List N} (hen : Iteration en) {F G : FM N K} (hF : F.WF)
    (hG : G.WF) : ∃ R R', F.add en G = .ok R ∧ G.add en F = .ok R' ∧ SameContent R R' := by
  obtain ⟨R, e, _, _, c, n, _, _, _, v⟩ := add_spec hen hF hG
  obtain ⟨R', e', _, _, c', n', _, _, _, v'⟩ := add_spec hen hG hF
  exact ⟨R, R', e, e', by rw [c, c', Finset.union_comm], by rw [n, n', Finset.union_comm],
    fun a b => by rw [v, v', add_comm]⟩

/-- C09. Associativity. -/
theorem add_assoc_content {en : Finset N → List N} (hen : Iteration en) {F G H : FM N K}
    (hF : F.WF) (hG : G.WF) (hH : H.WF) : ∃ FG GH R R', F.add en G = .ok FG ∧
      G.add en H = .ok GH ∧ FG.add en H = .ok R ∧ F.add en GH = .ok R' ∧ SameContent R R' ∧
      R.name = R'.name := by
  obtain ⟨FG, e1, w1, m1, c1, n1, _, _, _, v1⟩ := add_spec hen hF hG
  obtain ⟨GH, e2, w2, m2, c2, n2, _, _, _, v2⟩ := add_spec hen hG hH
  obtain ⟨R, e3, _, m3, c3, n3, _, _, _, v3⟩ := add_spec hen w1 hH
  obtain ⟨R', e4, _, m4, c4, n4, _, _, _, v4⟩ := add_spec hen hF w2
  refine ⟨FG, GH, R, R', e1, e2, e3, e4, ⟨?_, ?_, fun a b => ?_⟩, ?_⟩
  · rw [c3, c4, c1, c2, Finset.union_assoc]
  · rw [n3, n4, n1, n2, Finset.union_assoc]
  · rw [v3, v4, v1, v2, add_assoc]
  · rw [m3, m4, m1, m2]; simp only [List.append_assoc]

/-- C09. `F - F` is zero on the parameters of `F`. -/
theorem sub_self_zero {en : Finset N → List N} (hen : Iteration en) {F : FM N K} (hF : F.WF) :
    ∃ R, F.sub en F = .ok R ∧ R.cosmo = F.cosmo ∧ R.nuis = F.nuis ∧
      ∀ a b, R.matrix.ent a b = 0 := by
  obtain ⟨R, e, _, _, c, n, _, _, _, v⟩ := sub_spec hen hF hF
  exact ⟨R, e, by rw [c, Finset.union_self], by rw [n, Finset.union_self],
    fun a b => by rw [v, sub_self]⟩

/-- C09. Subtracting what was added gives the entries back. -/
theorem add_sub_cancel_entries {en : Finset N → List N} (hen : Iteration en) {F G : FM N K}
    (hF : F.WF) (hG : G.WF) : ∃ S R, F.add en G = .ok S ∧ S.sub en G = .ok R ∧
      ∀ a b, R.matrix.ent a b = F.matrix.ent a b := by
  obtain ⟨S, e, w, _, _, _, _, _, _, v⟩ := add_spec hen hF hG
  obtain ⟨R, e', _, _, _, _, _, _, _, v'⟩ := sub_spec hen w hG
  exact ⟨S, R, e, e', fun a b => by rw [v', v, add_sub_cancel_right]⟩

/-- C09. The nuisance flag of the operands is lost: the sum always marginalises nuisance
parameters, whatever the operands say. -/
theorem add_forgets_flag {en : Finset N → List N} (hen : Iteration en) {F G : FM N K}
    (hF : F.WF) (hG : G.WF) (_ : F.margFlag = false) (_ : G.margFlag = false) :
    ∃ R, F.add en G = .ok R ∧ R.margFlag = true := by
  obtain ⟨R, e, _, _, _, _, _, _, f, _⟩ := add_spec hen hF hG
  exact ⟨R, e, f⟩

/-- An iteration order exists: the sorted one. -/
theorem sortedIteration : Iteration (fun s : Finset N => s.sort (· ≤ ·)) :=
  fun s => ⟨s.sort_nodup _, fun _ => s.mem_sort _⟩

/-- Two matrices with different parameters in different row orders (parameters are numbers here). -/
def exF : FM ℕ ℚ :=
  { matrix := ⟨[2, 0], [2, 0], fun a b => if a = b then 2 else 1⟩, name := "[WL]".toList,
    cosmo := {0}, nuis := {2} }

def exG : FM ℕ ℚ :=
  { matrix := ⟨[0, 1], [0, 1], fun a b => if a = b then 3 else 1⟩, name := "[GCph]".toList,
    cosmo := {0, 1}, nuis := ∅ }

theorem exF_WF : exF.WF := ⟨rfl, by decide, by intro a; simp [exF]; tauto⟩
theorem exG_WF : exG.WF := ⟨rfl, by decide, by intro a; simp [exG]⟩

example : ∃ R, exF.add (fun s => s.sort (· ≤ ·)) exG = .ok R ∧ R.matrix.ent 0 0 = 5 ∧
    R.matrix.ent 2 0 = 1 ∧ R.matrix.ent 2 1 = 0 := by
  obtain ⟨R, e, _, _, _, _, _, _, _, v⟩ := add_spec sortedIteration exF_WF exG_WF
  exact ⟨R, e, by rw [v]; norm_num [DF.ent, exF, exG], by rw [v]; norm_num [DF.ent, exF, exG],
    by rw [v]; norm_num [DF.ent, exF, exG]⟩

theorem sdiff_sdiff_union (s t u : Finset N) : (s \ t) \ u = s \ (t ∪ u) := by
  ext a; simp only [Finset.mem_sdiff, Finset.mem_union, not_or, and_assoc]

/-! ### C10: marginalisation -/

/-- C10. Marginalising `A` in place: the new matrix has the remaining parameters, and its inverse is
the old inverse restricted to them; the cached inverse is that restriction. -/
theorem margInPlace_spec {en : Finset N → List N} (hen : Iteration en) {F : FM N K} (hF : F.WF)
    {A : Finset N} (hA : A ⊆ F.cosmo ∪ F.nuis) {V W : N → N → K}
    (hV : Inverse (F.cosmo ∪ F.nuis) F.matrix.val V)
    (hW : Inverse ((F.cosmo ∪ F.nuis) \ A) V W) :
    ∃ R I, F.margInPlace en A = (R, .ok ()) ∧ R.WF ∧ R.name = F.name ∧
      R.margFlag = F.margFlag ∧
      R.cosmo = F.cosmo \ A ∧ R.nuis = F.nuis \ A ∧ R.inverse = some I ∧
      I.On (R.cosmo ∪ R.nuis) ∧
      Inverse (R.cosmo ∪ R.nuis) R.matrix.val V ∧
      (∀ a ∈ R.cosmo ∪ R.nuis, ∀ b ∈ R.cosmo ∪ R.nuis, I.val a b = V a b) := by
  have hF' : F.matrix.On (F.cosmo ∪ F.nuis) := hF
  obtain ⟨inv, sl, m, h1, h2, h3, h4, h5, h6, h7, h8, h9, h10, h11⟩ := marg_ok hen hF hV hW
  have hS : F.cosmo \ A ∪ F.nuis \ A = (F.cosmo ∪ F.nuis) \ A := (Finset.union_sdiff_distrib ..).symm
  have hsub : ∀ a ∈ (F.cosmo ∪ F.nuis) \ A, a ∈ F.cosmo ∪ F.nuis :=
    fun a ha => (Finset.mem_sdiff.mp ha).1
  refine ⟨{ F with cosmo := F.cosmo \ A, nuis := F.nuis \ A, inverse := some sl,
                   matrix := m.sortIndex }, sl, ?_, ?_, rfl, rfl, rfl, rfl, rfl, ?_, ?_, ?_⟩
  · unfold FM.margInPlace
    simp only [On.toFinset hF']
    rw [if_neg (by rw [not_not]; exact Finset.sdiff_eq_empty_iff_subset.mpr hA), h1]
    simp only
    rw [h4]
    simp only
    rw [h7]
  · unfold FM.WF
    simp only [hS]; exact On.sortIndex h8
  · simp only [hS]; exact h5
  · simp only [hS]
    exact (h9.symm).congr (fun _ _ _ _ => rfl) (fun a ha b hb => h10 a (hsub a ha) b (hsub b hb))
  · simp only [hS, h6]
    exact fun a ha b hb => h10 a (hsub a ha) b (hsub b hb)

/-- C10. The copy-returning form returns the same matrix and leaves the receiver's matrix,
parameters, name and flag alone; it refreshes the receiver's cached inverse. -/
theorem margCopy_spec {en : Finset N → List N} (hen : Iteration en) {F : FM N K} (hF : F.WF)
    {A : Finset N} (hA : A ⊆ F.cosmo ∪ F.nuis) {V W : N → N → K}
    (hV : Inverse (F.cosmo ∪ F.nuis) F.matrix.val V)
    (hW : Inverse ((F.cosmo ∪ F.nuis) \ A) V W) :
    ∃ F' R I J, F.margCopy en A = (F', .ok R) ∧
      (F' = { F with inverse := some J } ∧ J.On (F.cosmo ∪ F.nuis) ∧
        Inverse (F.cosmo ∪ F.nuis) F.matrix.val J.val) ∧
      R.WF ∧ R.name = F.name ∧ R.margFlag = F.margFlag ∧ R.correlation = none ∧
      R.cosmo = F.cosmo \ A ∧ R.nuis = F.nuis \ A ∧ R.inverse = some I ∧
      I.On (R.cosmo ∪ R.nuis) ∧
      Inverse (R.cosmo ∪ R.nuis) R.matrix.val V ∧
      (∀ a ∈ R.cosmo ∪ R.nuis, ∀ b ∈ R.cosmo ∪ R.nuis, I.val a b = V a b) := by
  have hF' : F.matrix.On (F.cosmo ∪ F.nuis) := hF
  obtain ⟨inv, sl, m, h1, h2, h3, h4, h5, h6, h7, h8, h9, h10, h11⟩ := marg_ok hen hF hV hW
  have hS : F.cosmo \ A ∪ F.nuis \ A = (F.cosmo ∪ F.nuis) \ A := (Finset.union_sdiff_distrib ..).symm
  have hsub : ∀ a ∈ (F.cosmo ∪ F.nuis) \ A, a ∈ F.cosmo ∪ F.nuis :=
    fun a ha => (Finset.mem_sdiff.mp ha).1
  refine ⟨{ F with inverse := some inv },
      { F.copy with cosmo := F.cosmo \ A, nuis := F.nuis \ A, inverse := some sl,
                    matrix := m.sortIndex }, sl, inv, ?_, ⟨rfl, h2, h3⟩, ?_, rfl, rfl, rfl, rfl, rfl, rfl, ?_, ?_, ?_⟩
  · unfold FM.margCopy
    simp only [On.toFinset hF']
    rw [if_neg (by rw [not_not]; exact Finset.sdiff_eq_empty_iff_subset.mpr hA), h1]
    simp only
    rw [h4]
    simp only
    rw [h7]
    rfl
  · unfold FM.WF
    simp only [hS]; exact On.sortIndex h8
  · simp only [hS]; exact h5
  · simp only [hS]
    exact (h9.symm).congr (fun _ _ _ _ => rfl) (fun a ha b hb => h10 a (hsub a ha) b (hsub b hb))
  · simp only [hS, h6]
    exact fun a ha b hb => h10 a (hsub a ha) b (hsub b hb)

/-- C10. Asking for a parameter the matrix does not have raises and changes nothing. -/
theorem marg_unknown {en : Finset N → List N} {F : FM N K} {A : Finset N} {p : N}
    (hp : p ∈ A) (hm : p ∉ F.matrix.rows) :
    F.margInPlace en A = (F, .error .fisherError) ∧ F.margCopy en A = (F, .error .fisherError) := by
  have : A \ F.matrix.rows.toFinset ≠ ∅ := by
    intro h
    have := Finset.sdiff_eq_empty_iff_subset.mp h hp
    simp at this; exact hm this
  constructor
  · unfold FM.margInPlace; simp only; rw [if_pos this]
  · unfold FM.margCopy; simp only; rw [if_pos this]

/-- C10. A matrix without an inverse raises and is left alone. -/
theorem marg_singular {en : Finset N → List N} {F : FM N K} (hF : F.WF) {A : Finset N}
    (hA : A ⊆ F.cosmo ∪ F.nuis) (hV : ∀ V, ¬ Inverse (F.cosmo ∪ F.nuis) F.matrix.val V) :
    F.margInPlace en A = (F, .error .singular) ∧ F.margCopy en A = (F, .error .singular) := by
  have hF' : F.matrix.On (F.cosmo ∪ F.nuis) := hF
  have h0 : invertDf F.matrix = .error .singular := by
    apply On.invertDf_singular hF'
    by_contra h
    obtain ⟨v, _, hb⟩ := On.invertDf_ok hF' h
    exact hV v (inverse_iff.mpr ⟨h, hb⟩)
  constructor
  · unfold FM.margInPlace
    simp only [On.toFinset hF']
    rw [if_neg (by rw [not_not]; exact Finset.sdiff_eq_empty_iff_subset.mpr hA), h0]
  · unfold FM.margCopy
    simp only [On.toFinset hF']
    rw [if_neg (by rw [not_not]; exact Finset.sdiff_eq_empty_iff_subset.mpr hA), h0]

/-- C10. Marginalising `A` and then `B` gives what marginalising both at once gives. -/
theorem marg_marg {en : Finset N → List N} (hen : Iteration en) {F R₁ R₂ : FM N K} (hF : F.WF)
    {A B : Finset N} (h₁ : F.margInPlace en A = (R₁, .ok ()))
    (h₂ : R₁.margInPlace en B = (R₂, .ok ())) :
    ∃ R, F.margInPlace en (A ∪ B) = (R, .ok ()) ∧ SameContent R R₂ := by
  obtain ⟨hA, V, W, hV, hW⟩ := marg_ok_inv hen hF h₁
  obtain ⟨R, I, e, wf, _, _, c, n, _, _, hinv, _⟩ := margInPlace_spec hen hF hA hV hW
  rw [h₁] at e; cases e
  obtain ⟨hB, V', W', hV', hW'⟩ := marg_ok_inv hen wf h₂
  obtain ⟨R', I', e, wf', _, _, c', n', _, _, hinv', _⟩ := margInPlace_spec hen wf hB hV' hW'
  rw [h₂] at e; cases e
  have hS : R₁.cosmo ∪ R₁.nuis = (F.cosmo ∪ F.nuis) \ A := by
    rw [c, n, ← Finset.union_sdiff_distrib]
  have hS' : R₂.cosmo ∪ R₂.nuis = (F.cosmo ∪ F.nuis) \ (A ∪ B) := by
    rw [c', n', ← Finset.union_sdiff_distrib, hS, sdiff_sdiff_union]
  have hVV : ∀ a ∈ R₁.cosmo ∪ R₁.nuis, ∀ b ∈ R₁.cosmo ∪ R₁.nuis, V' a b = V a b :=
    Inverse.unique hV' hinv
  have hsub : ∀ a ∈ R₂.cosmo ∪ R₂.nuis, a ∈ R₁.cosmo ∪ R₁.nuis := by
    intro a ha; rw [c', n', ← Finset.union_sdiff_distrib] at ha; exact (Finset.mem_sdiff.mp ha).1
  have hW2 : Inverse ((F.cosmo ∪ F.nuis) \ (A ∪ B)) V R₂.matrix.val := by
    rw [← hS']
    exact (hinv'.symm).congr (fun a ha b hb => hVV a (hsub a ha) b (hsub b hb)) (fun _ _ _ _ => rfl)
  have hAB : A ∪ B ⊆ F.cosmo ∪ F.nuis := by
    apply Finset.union_subset hA
    rw [hS] at hB
    exact hB.trans Finset.sdiff_subset
  obtain ⟨R, I, e, wfR, _, _, cR, nR, _, _, hinvR, _⟩ := margInPlace_spec hen hF hAB hV hW2
  have hc : R.cosmo = R₂.cosmo := by rw [cR, c', c, sdiff_sdiff_union]
  have hn : R.nuis = R₂.nuis := by rw [nR, n', n, sdiff_sdiff_union]
  refine ⟨R, e, hc, hn, fun a b => ?_⟩
  have wfR' : R.matrix.On (R.cosmo ∪ R.nuis) := wfR
  have wf2' : R₂.matrix.On (R₂.cosmo ∪ R₂.nuis) := wf'
  rw [On.ent wfR', On.ent wf2', hc, hn]
  split
  · rename_i hab
    have := Inverse.unique hinvR.symm (C := R₂.matrix.val) (by rw [hc, hn, hS']; exact hW2)
    rw [hc, hn] at this
    exact this a hab.1 b hab.2
  · rfl

/-- C10, failure of the second inversion.  The in-place form changes the parameter sets and the
cached inverse before it inverts the restricted inverse; if that raises, the object is left with a
matrix that still has the parameter it no longer declares.  (The matrix has zero diagonal, so it is
no Fisher matrix of data, but a difference of Fisher matrices can be one.) -/
theorem marg_failure_corrupts : ∃ (F : FM ℕ ℚ) (R : FM ℕ ℚ), F.WF ∧
    F.margInPlace (fun s => s.sort (· ≤ ·)) {1} = (R, .error .singular) ∧ R ≠ F ∧ ¬ R.WF := by
  let v : ℕ → ℕ → ℚ := fun a b => if a = b then 0 else 1
  let F : FM ℕ ℚ := { matrix := ⟨[0, 1], [0, 1], v⟩, name := [], cosmo := {0}, nuis := {1} }
  have hWF : F.WF := ⟨rfl, by decide, by intro a; simp [F]⟩
  have hF' : F.matrix.On (F.cosmo ∪ F.nuis) := hWF
  have hu : F.cosmo ∪ F.nuis = {0, 1} := by decide
  have hV : Inverse (F.cosmo ∪ F.nuis) F.matrix.val v := by
    rw [inverse_sum, hu]
    intro a ha b hb
    simp only [Finset.mem_insert, Finset.mem_singleton] at ha hb
    rcases ha with rfl | rfl <;> rcases hb with rfl | rfl <;> simp [F, v]
  obtain ⟨w, hw, hwi, hweq⟩ := On.invertDf_of_inverse hF' hV
  have hon : DF.On { F.matrix with val := w } (F.cosmo ∪ F.nuis) :=
    ⟨hF'.same, hF'.nodup, hF'.mem⟩
  obtain ⟨hl, hlon⟩ := On.locSet sortedIteration hon
    (Finset.sdiff_subset (s := F.cosmo ∪ F.nuis) (t := {1}))
  have hs : (F.cosmo ∪ F.nuis) \ {1} = ({0} : Finset ℕ) := by decide
  have hsing : invertDf (DF.mk (((F.cosmo ∪ F.nuis) \ {1}).sort (· ≤ ·))
      (((F.cosmo ∪ F.nuis) \ {1}).sort (· ≤ ·)) w) = .error .singular := by
    apply On.invertDf_singular hlon
    by_contra h
    obtain ⟨z, _, hb⟩ := On.invertDf_ok hlon h
    have hz := inverse_sum.mp (inverse_iff.mpr ⟨h, hb⟩)
    rw [hs] at hz
    have h1 := hz 0 (by simp) 0 (by simp)
    have h2 := hweq 0 (by rw [hu]; simp) 0 (by rw [hu]; simp)
    simp only [Finset.sum_singleton] at h1
    rw [h2] at h1
    simp [v] at h1
  refine ⟨F, { F with cosmo := F.cosmo \ {1}, nuis := F.nuis \ {1}, 
                      inverse := some (DF.mk (((F.cosmo ∪ F.nuis) \ {1}).sort (· ≤ ·))
                        (((F.cosmo ∪ F.nuis) \ {1}).sort (· ≤ ·)) w) }, hWF, ?_, ?_, ?_⟩
  · unfold FM.margInPlace
    simp only [On.toFinset hF']
    rw [if_neg (by decide), hw]
    simp only
    rw [hl]
    simp only
    rw [hsing]
  · intro h
    have : ({1} : Finset ℕ) \ {1} = {1} := congrArg FM.nuis h
    exact absurd this (by decide)
  · intro h
    have : (1 : ℕ) ∈ (({0} : Finset ℕ) \ {1}) ∪ ({1} \ {1}) :=
      (h.mem 1).mp (show 1 ∈ [0, 1] by decide)
    exact absurd this (by decide)

/-! ### C11: fixing parameters -/

/-- C11. Fixing a set of declared parameters deletes exactly their rows and columns and keeps the
order and the entries of the others. -/
theorem fix_spec {F : FM N K} (hF : F.WF) {A : Finset N} (hA : A ⊆ F.cosmo ∪ F.nuis) :
    ∃ R, F.fix A = (R, .ok ()) ∧ R.WF ∧ R.cosmo = F.cosmo \ A ∧ R.nuis = F.nuis \ A ∧
      R.name = F.name ∧ R.margFlag = F.margFlag ∧
      R.matrix.rows = F.matrix.rows.filter (fun a => decide (a ∉ A)) ∧
      R.matrix.val = F.matrix.val ∧ R.inverse = F.inverse ∧ R.correlation = F.correlation ∧
      ∀ a b, R.matrix.ent a b = if a ∈ A ∨ b ∈ A then 0 else F.matrix.ent a b := by
  have hF' : F.matrix.On (F.cosmo ∪ F.nuis) := hF
  obtain ⟨r, h1, h2, h3, h4⟩ := On.dropSet hF' hA
  have hS : F.cosmo \ A ∪ F.nuis \ A = (F.cosmo ∪ F.nuis) \ A := (Finset.union_sdiff_distrib ..).symm
  refine ⟨{ F with cosmo := F.cosmo \ A, nuis := F.nuis \ A, matrix := r }, ?_, ?_, rfl, rfl, rfl,
    rfl, h4, h3, rfl, rfl, ?_⟩
  · unfold FM.fix FM.phys
    rw [if_neg (by rw [not_not, Finset.union_comm]; exact Finset.sdiff_eq_empty_iff_subset.mpr hA)]
    simp only [h1]
  · unfold FM.WF; simp only [hS]; exact h2
  · intro a b
    simp only
    rw [On.ent h2, On.ent hF', h3]
    simp only [Finset.mem_sdiff]
    by_cases ha : a ∈ A <;> by_cases hb : b ∈ A <;> simp [ha, hb]

/-- C11. An undeclared parameter raises and changes nothing. -/
theorem fix_unknown {F : FM N K} {A : Finset N} {p : N} (hp : p ∈ A)
    (hm : p ∉ F.cosmo ∪ F.nuis) : F.fix A = (F, .error .exception) := by
  unfold FM.fix FM.phys
  rw [if_pos]
  intro h
  have := Finset.sdiff_eq_empty_iff_subset.mp h hp
  rw [Finset.union_comm] at this
  exact hm this

theorem fix_ok_subset {F R : FM N K} {A : Finset N} (h : F.fix A = (R, .ok ())) :
    A ⊆ F.cosmo ∪ F.nuis := by
  by_contra hne
  obtain ⟨p, hp, hq⟩ := Finset.not_subset.mp hne
  rw [fix_unknown hp hq] at h
  cases h

theorem fix_eq {F : FM N K} (hF : F.WF) {A : Finset N} (hA : A ⊆ F.cosmo ∪ F.nuis) :
    F.fix A = ({ F with
      cosmo := F.cosmo \ A, nuis := F.nuis \ A,
      matrix := DF.mk (F.matrix.rows.filter (fun a => decide (a ∉ A)))
                      (F.matrix.cols.filter (fun a => decide (a ∉ A))) F.matrix.val }, .ok ()) := by
  have hF' : F.matrix.On (F.cosmo ∪ F.nuis) := hF
  unfold FM.fix FM.phys
  rw [if_neg (by rw [not_not, Finset.union_comm]; exact Finset.sdiff_eq_empty_iff_subset.mpr hA)]
  have : F.matrix.dropSet A = .ok { F.matrix with
      rows := F.matrix.rows.filter (fun a => decide (a ∉ A)),
      cols := F.matrix.cols.filter (fun a => decide (a ∉ A)) } := by
    unfold DF.dropSet
    rw [if_pos]
    refine ⟨fun a ha => (hF'.mem a).mpr (hA ha), fun a ha => ?_⟩
    rw [hF'.same]; exact (hF'.mem a).mpr (hA ha)
  simp only [this]

/-- C11. Fixing `A` and then `B` leaves the same object as fixing `A ∪ B`. -/
theorem fix_fix {F R₁ R₂ : FM N K} (hF : F.WF) {A B : Finset N}
    (h₁ : F.fix A = (R₁, .ok ())) (h₂ : R₁.fix B = (R₂, .ok ())) :
    F.fix (A ∪ B) = (R₂, .ok ()) := by
  have hA := fix_ok_subset h₁
  have hB := fix_ok_subset h₂
  have wf : R₁.WF := by
    obtain ⟨R, e, w, _⟩ := fix_spec hF hA; rw [h₁] at e; cases e; exact w
  rw [fix_eq hF hA] at h₁
  rw [fix_eq wf hB] at h₂
  cases h₁
  cases h₂
  have hAB : A ∪ B ⊆ F.cosmo ∪ F.nuis := by
    apply Finset.union_subset hA
    simp only [← Finset.union_sdiff_distrib] at hB
    exact hB.trans Finset.sdiff_subset
  rw [fix_eq hF hAB]
  have hp : (fun a => decide (a ∉ A ∪ B)) = fun a => (decide (a ∉ B) && decide (a ∉ A)) := by
    funext a; simp [Finset.mem_union, not_or, Bool.and_comm]
  simp only [List.filter_filter, hp, sdiff_sdiff_union]

/-- C11. Fixing a set present in both operands commutes with addition. -/
theorem fix_add {en : Finset N → List N} (hen : Iteration en) {F G : FM N K} (hF : F.WF)
    (hG : G.WF) {A : Finset N} (hAF : A ⊆ F.cosmo ∪ F.nuis) (hAG : A ⊆ G.cosmo ∪ G.nuis) :
    ∃ S F' G' R R', F.add en G = .ok S ∧ F.fix A = (F', .ok ()) ∧ G.fix A = (G', .ok ()) ∧
      F'.add en G' = .ok R ∧ S.fix A = (R', .ok ()) ∧ SameContent R R' := by
  obtain ⟨S, e1, w1, _, c1, n1, _, _, _, v1⟩ := add_spec hen hF hG
  obtain ⟨F', e2, w2, c2, n2, _, _, _, _, _, _, v2⟩ := fix_spec hF hAF
  obtain ⟨G', e3, w3, c3, n3, _, _, _, _, _, _, v3⟩ := fix_spec hG hAG
  obtain ⟨R, e4, w4, _, c4, n4, _, _, _, v4⟩ := add_spec hen w2 w3
  have hAS : A ⊆ S.cosmo ∪ S.nuis := by
    intro a ha
    have := hAF ha
    rw [c1, n1]
    simp only [Finset.mem_union] at this ⊢
    tauto
  obtain ⟨R', e5, w5, c5, n5, _, _, _, _, _, _, v5⟩ := fix_spec w1 hAS
  refine ⟨S, F', G', R, R', e1, e2, e3, e4, e5, ?_, ?_, fun a b => ?_⟩
  · rw [c4, c5, c2, c3, c1, Finset.union_sdiff_distrib]
  · rw [n4, n5, n2, n3, n1, Finset.union_sdiff_distrib]
  · rw [v4, v5, v2, v3, v1]
    split <;> simp

/-- C11. Fixing `A` and marginalising a disjoint set `B` give the same matrix in either order. -/
theorem fix_marg_comm {en : Finset N → List N} (hen : Iteration en) {F M₁ R₁ M₂ R₂ : FM N K}
    (hF : F.WF) {A B : Finset N} (hAB : Disjoint A B)
    (h₁ : F.fix A = (M₁, .ok ())) (h₁' : M₁.margInPlace en B = (R₁, .ok ()))
    (h₂ : F.margInPlace en B = (M₂, .ok ())) (h₂' : M₂.fix A = (R₂, .ok ())) :
    SameContent R₁ R₂ := by
  have hA := fix_ok_subset h₁
  obtain ⟨_, e, wf1, c1, n1, _, _, _, val1, _⟩ := fix_spec hF hA
  rw [h₁] at e; cases e
  obtain ⟨hB1, V', W', hV', hW'⟩ := marg_ok_inv hen wf1 h₁'
  obtain ⟨_, _, e, wfR1, _, _, cR1, nR1, _, _, hR1, _⟩ := margInPlace_spec hen wf1 hB1 hV' hW'
  rw [h₁'] at e; cases e
  obtain ⟨hB, V, W, hV, hW⟩ := marg_ok_inv hen hF h₂
  obtain ⟨_, _, e, wf2, _, _, c2, n2, _, _, hM2, _⟩ := margInPlace_spec hen hF hB hV hW
  rw [h₂] at e; cases e
  have hA2 := fix_ok_subset h₂'
  obtain ⟨_, e, wfR2, cR2, nR2, _, _, _, valR2, _⟩ := fix_spec wf2 hA2
  rw [h₂'] at e; cases e
  have hc : R₁.cosmo = R₂.cosmo := by
    rw [cR1, cR2, c1, c2]; ext a; simp only [Finset.mem_sdiff]; tauto
  have hn : R₁.nuis = R₂.nuis := by
    rw [nR1, nR2, n1, n2]; ext a; simp only [Finset.mem_sdiff]; tauto
  set S := F.cosmo ∪ F.nuis with hS
  set R := (S \ A) \ B with hR
  have hRset : R₁.cosmo ∪ R₁.nuis = R := by
    rw [cR1, nR1, ← Finset.union_sdiff_distrib, c1, n1, ← Finset.union_sdiff_distrib]
  have hM1set : M₁.cosmo ∪ M₁.nuis = R ∪ B := by
    rw [c1, n1, ← Finset.union_sdiff_distrib, hR, Finset.sdiff_union_of_subset]
    intro b hb
    exact Finset.mem_sdiff.mpr ⟨hB hb, Finset.disjoint_right.mp hAB hb⟩
  have hM2set : M₂.cosmo ∪ M₂.nuis = R ∪ A := by
    rw [c2, n2, ← Finset.union_sdiff_distrib, hR, sdiff_right_comm, Finset.sdiff_union_of_subset]
    intro a ha
    exact Finset.mem_sdiff.mpr ⟨hA ha, Finset.disjoint_left.mp hAB ha⟩
  have hSset : S = R ∪ A ∪ B := by
    ext a
    have h1 := @hA a
    have h2 := @hB a
    simp only [hR, Finset.mem_union, Finset.mem_sdiff]
    tauto
  have hRB : Disjoint R B := Finset.sdiff_disjoint
  have key : Inverse R V' M₂.matrix.val := by
    apply schur_delete (F := F.matrix.val) (V := V) hRB hAB
    · rw [← hSset]; exact hV
    · rw [← hM2set]; exact hM2.symm
    · rw [← hM1set, ← val1]; exact hV'
  have wfR1' : R₁.matrix.On (R₁.cosmo ∪ R₁.nuis) := wfR1
  have wfR2' : R₂.matrix.On (R₂.cosmo ∪ R₂.nuis) := wfR2
  refine ⟨hc, hn, fun a b => ?_⟩
  rw [On.ent wfR1', On.ent wfR2', ← hc, ← hn, hRset, valR2]
  split
  · rename_i hab
    rw [hRset] at hR1
    exact Inverse.unique hR1.symm key a hab.1 b hab.2
  · rfl

example : ∃ R, exF.fix {2} = (R, .ok ()) ∧ R.matrix.rows = [0] ∧ R.matrix.ent 0 0 = 2 := by
  obtain ⟨R, h, _, _, _, _, _, hr, _, _, _, hv⟩ := fix_spec exF_WF (A := {2}) (by decide)
  refine ⟨R, h, by rw [hr]; decide, ?_⟩
  rw [hv]; norm_num [DF.ent, exF]

/-! ### The theorems on these matrices -/

/-- The difference of the two matrices. -/
example : ∃ R, exF.sub (fun s => s.sort (· ≤ ·)) exG = .ok R ∧ R.matrix.ent 0 0 = -1 ∧ R.cosmo = {0, 1} := by
  obtain ⟨R, e, -, -, c, -, -, -, -, v⟩ := sub_spec sortedIteration exF_WF exG_WF
  refine ⟨R, e, ?_, by rw [c]; decide⟩
  rw [v]
  norm_num [DF.ent, exF, exG]

example : ∃ R R', exF.add (fun s => s.sort (· ≤ ·)) exG = .ok R ∧ exG.add (fun s => s.sort (· ≤ ·)) exF = .ok R' ∧
    SameContent R R' := add_comm_content sortedIteration exF_WF exG_WF

example : ∃ R, exF.sub (fun s => s.sort (· ≤ ·)) exF = .ok R ∧ ∀ a b, R.matrix.ent a b = 0 := by
  obtain ⟨R, e, -, -, v⟩ := sub_self_zero sortedIteration exF_WF
  exact ⟨R, e, v⟩

example : ∃ S R, exF.add (fun s => s.sort (· ≤ ·)) exG = .ok S ∧ S.sub (fun s => s.sort (· ≤ ·)) exG = .ok R ∧
    ∀ a b, R.matrix.ent a b = exF.matrix.ent a b := add_sub_cancel_entries sortedIteration exF_WF exG_WF

example : ∃ FG GH R R', exF.add (fun s => s.sort (· ≤ ·)) exG = .ok FG ∧ exG.add (fun s => s.sort (· ≤ ·)) exF = .ok GH ∧
    FG.add (fun s => s.sort (· ≤ ·)) exF = .ok R ∧ exF.add (fun s => s.sort (· ≤ ·)) GH = .ok R' ∧ SameContent R R' ∧
    R.name = R'.name := add_assoc_content sortedIteration exF_WF exG_WF exF_WF

/-- Marginalising over a parameter which the matrix does not have. -/
example : exF.margInPlace (fun s => s.sort (· ≤ ·)) {0, 7} = (exF, .error .fisherError) :=
  (marg_unknown (p := 7) (by decide) (by decide)).1

example : exF.fix {0, 7} = (exF, .error .exception) := fix_unknown (p := 7) (by decide) (by decide)

end Seyfert.Fisher
