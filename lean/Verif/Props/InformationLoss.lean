import Verif.Props.Information

/-!
C125, the false part: adding the auto-correlation of a probe with fewer multipoles can lower the information of a data
vector, and can raise it although the correlation added depends on no parameter. Also examples for C123 to C125.
-/

set_option linter.unusedSectionVars false

namespace Seyfert.Cov

open Matrix
open Fisher hiding Err

/-- Three probes of one bin; the third has two multipoles, the others three. -/
def tGrid (x : Fin 3) : List ℝ := if x = 2 then [1, 2] else [1, 2, 3]

def tPair (x y : Fin 3) : List ℝ := if x = 2 ∨ y = 2 then [1, 2] else [1, 2, 3]

def tNb (_ : Fin 3) : Nat := 1

/-- Spectra and derivatives that do not depend on the multipole. -/
def tSpec (C : Fin 3 → Fin 3 → ℝ) (a b : Fin 3) (_ : ℝ) (_ _ : Nat) : ℝ := C a b

def tStore (C : Fin 3 → Fin 3 → ℝ) : Store (Fin 3) ℝ :=
  ((List.finRange 3).product (List.finRange 3)).map fun p => (p, fullBlock tNb tPair (tSpec C) p.1 p.2)

/-- One free parameter. -/
def tNuis (_ : Fin 3) : List Nat := []

theorem lookup_keyed {A B : Type} [BEq A] [LawfulBEq A] [DecidableEq A] (l : List A) (f : A → B) (k : A) :
    (l.map fun a => (a, f a)).lookup k = if k ∈ l then some (f k) else none := by
  induction l with
  | nil => rfl
  | cons a l ih =>
    rw [List.map_cons, List.lookup_cons]
    by_cases h : k = a
    · subst h; simp
    · have h' : (k == a) = false := by simpa using h
      simp [h', h, ih]

theorem tStore_lookup (C : Fin 3 → Fin 3 → ℝ) (p : Fin 3 × Fin 3) :
    (tStore C).lookup p = some (fullBlock tNb tPair (tSpec C) p.1 p.2) := by
  unfold tStore
  rw [lookup_keyed, if_pos]
  exact (List.pair_mem_product (x := p.1) (y := p.2)).mpr ⟨List.mem_finRange _, List.mem_finRange _⟩

theorem tGrid_sorted (x : Fin 3) : (tGrid x).Pairwise (· < ·) := by
  unfold tGrid
  split <;> norm_num

theorem tHolds {C : Fin 3 → Fin 3 → ℝ} (hs : ∀ a b, C a b = C b a) : Holds (tStore C) tNb tPair (tSpec C) where
  stored := by
    intro a b t h
    rw [tStore_lookup] at h
    exact (Option.some.inj h).symm
  symm := fun a b _ _ _ => hs a b
  gsymm := by
    intro a b
    unfold tPair
    by_cases ha : a = 2 <;> by_cases hb : b = 2 <;> simp [ha, hb]
  sorted := by
    intro a b
    unfold tPair
    split <;> norm_num

theorem tSurvey {C dd : Fin 3 → Fin 3 → ℝ} (hC : (Matrix.of C).PosDef) (hd : ∀ a b, dd a b = dd b a) :
    Survey (List.finRange 3) [0] tNuis (tStore C) (fun _ => some (tStore dd)) tNb tGrid tPair (tSpec C)
      (fun _ => tSpec dd) where
  spectra := tHolds fun a b => by
    have := hC.isHermitian.apply b a
    simpa using this
  grids := by
    intro x y ℓ
    unfold tPair tGrid
    by_cases hx : x = 2 <;> by_cases hy : y = 2 <;> simp [hx, hy] <;> tauto
  increasing := tGrid_sorted
  stored := fun x _ y _ => Or.inl (by rw [tStore_lookup]; rfl)
  free := by simp
  derivs := fun a _ => ⟨_, rfl, tHolds hd, fun x _ y _ => Or.inl (by rw [tStore_lookup]; rfl)⟩
  two := ⟨1, 2, by norm_num, fun x _ => by unfold tGrid; split <;> simp⟩
  positive := by
    intro x _ ℓ hℓ
    unfold tGrid at hℓ
    split at hℓ <;> simp only [List.mem_cons, List.not_mem_nil, or_false] at hℓ
    · rcases hℓ with rfl | rfl <;> norm_num
    · rcases hℓ with rfl | rfl | rfl <;> norm_num
  posDef := by
    intro dv _ ℓ _
    have h : joint tNb (tSpec C) dv ℓ = (Matrix.of C).submatrix (fun x : bins tNb dv => x.1.1) (fun x => x.1.1) := rfl
    rw [h]
    refine hC.submatrix ?_
    intro x y hxy
    have hx := (mem_bins.mp x.2).2
    have hy := (mem_bins.mp y.2).2
    simp only [tNb, Nat.lt_one_iff] at hx hy
    exact Subtype.ext (Prod.ext hxy (hx.trans hy.symm))

/-- The Fisher information from a solution of the linear equations. -/
theorem fisherSpec_of_solution {P N : Type} [DecidableEq P] [LinearOrder N] {nb : P → Nat}
    {δ : P → P → ℝ → Nat → Nat → ℝ} {d : N → P → P → ℝ → Nat → Nat → ℝ} {dv : List (P × P)} {ℓ : ℝ} {a b : N}
    (hdet : (covAt nb δ dv ℓ).det ≠ 0) (z : Fin (layout nb dv).length → ℝ)
    (hz : mulVec (covAt nb δ dv ℓ) z = derivAt nb (d b) dv ℓ) :
    fisherSpec nb δ d dv ℓ a b = dotProduct (derivAt nb (d a) dv ℓ) z := by
  unfold fisherSpec
  rw [← hz, mulVec_mulVec, nonsing_inv_mul _ (isUnit_iff_ne_zero.mpr hdet), one_mulVec]

theorem over3 {dv : List (Fin 3 × Fin 3)} (h : dv ≠ []) (h' : NoRepeats dv) : Over (List.finRange 3) dv :=
  ⟨h, fun x _ => List.mem_finRange x, h'⟩

/-- Tables for all probes. -/
theorem tTables {C dd : Fin 3 → Fin 3 → ℝ} (hC : (Matrix.of C).PosDef) (hd : ∀ a b, dd a b = dd b a) :
    ∃ A : List (Fin 3 × FEll Nat ℝ), ∀ dv : List (Fin 3 × Fin 3),
      RunTables [0] tNuis (tStore C) (fun _ => some (tStore dd)) dv A := by
  have h : ∀ p : Fin 3, ∃ r : DF Nat ℝ × FEll Nat ℝ,
      computeFisher [0] tNuis (tStore C) (fun _ => some (tStore dd)) [(p, p)] [p] none = .ok r := by
    intro p
    obtain ⟨F, fe, h⟩ := survey_auto (tSurvey hC hd) (List.mem_finRange p) [p] none
    exact ⟨(F, fe), h⟩
  choose r hr using h
  refine ⟨(List.finRange 3).map fun p => (p, (r p).2), fun dv p _ => ⟨(r p).1, (r p).2, hr p, ?_⟩⟩
  rw [lookup_keyed, if_pos (List.mem_finRange p)]

/-- The information on the parameter. -/
theorem tValue {C dd : Fin 3 → Fin 3 → ℝ} (hC : (Matrix.of C).PosDef) (hd : ∀ a b, dd a b = dd b a)
    {dv : List (Fin 3 × Fin 3)} (hdv : Over (List.finRange 3) dv) {A : List (Fin 3 × FEll Nat ℝ)}
    (hA : RunTables [0] tNuis (tStore C) (fun _ => some (tStore dd)) dv A) :
    ∃ F fe, computeFisher [0] tNuis (tStore C) (fun _ => some (tStore dd)) dv (autoProbes dv) (some A) = .ok (F, fe) ∧
      F.rows = [0] ∧ F.val 0 0 = totalInfo [0] tNuis tNb tGrid (tSpec C) (fun _ => tSpec dd) dv 0 0 := by
  obtain ⟨F, fe, h1, h2, h3, h4, h5⟩ := survey_fisher (tSurvey hC hd) hdv (order := autoProbes dv)
    ⟨List.nodup_dedup _, fun p => mem_autoProbes⟩ hA
  have hr : F.rows = [0] := by
    refine sorted_ext h3 (by simp) fun a => ?_
    rw [h2]
    simp [tNuis]
  exact ⟨F, fe, h1, hr, h5 0 (by rw [hr]; simp) 0 (by rw [hr]; simp)⟩

/-- Independent probes. -/
def unitC (a b : Fin 3) : ℝ := if a = b then 1 else 0

theorem unitC_posDef : (Matrix.of unitC).PosDef := by
  have : Matrix.of unitC = 1 := by
    ext a b
    simp [unitC, Matrix.one_apply]
  rw [this]
  exact PosDef.one

/-- Only the correlation of the first two probes depends on the parameter. -/
def crossD (a b : Fin 3) : ℝ := if (a = 0 ∧ b = 1) ∨ (a = 1 ∧ b = 0) then 1 else 0

theorem crossD_symm (a b : Fin 3) : crossD a b = crossD b a := by
  unfold crossD
  congr 1
  exact propext ⟨fun h => by tauto, fun h => by tauto⟩

def threeCorr : List (Fin 3 × Fin 3) := [(0, 0), (1, 1), (0, 1)]

def fourCorr : List (Fin 3 × Fin 3) := [(0, 0), (1, 1), (0, 1), (2, 2)]

theorem common_shared {dv : List (Fin 3 × Fin 3)} (hne : dv ≠ []) {l : List ℝ} (h : ∀ x ∈ probesOf dv, tGrid x = l) :
    (commonOf tGrid dv).toFinset = l.toFinset := by
  ext ℓ
  rw [List.mem_toFinset, List.mem_toFinset, mem_commonOf hne]
  obtain ⟨AB, hAB⟩ := List.exists_mem_of_ne_nil _ hne
  constructor
  · intro hx
    rw [← h _ (fst_mem_probes hAB)]
    exact hx _ (fst_mem_probes hAB)
  · intro hℓ x hx
    rw [h x hx]
    exact hℓ

theorem common_third {dv : List (Fin 3 × Fin 3)} (h : 2 ∈ probesOf dv) :
    (commonOf tGrid dv).toFinset = ([1, 2] : List ℝ).toFinset := by
  have hne : dv ≠ [] := by rintro rfl; simp [probesOf] at h
  ext ℓ
  rw [List.mem_toFinset, List.mem_toFinset, mem_commonOf hne]
  constructor
  · intro hx
    exact hx 2 h
  · intro hℓ x _
    unfold tGrid
    split
    · exact hℓ
    · simp only [List.mem_cons, List.not_mem_nil, or_false] at hℓ ⊢
      tauto

/-- The covariance of a data vector is regular at its multipoles. -/
theorem tDet {C : Fin 3 → Fin 3 → ℝ} (hC : (Matrix.of C).PosDef) {dv : List (Fin 3 × Fin 3)} (hne : dv ≠ [])
    (hr : NoRepeats dv) {ℓ : ℝ} (hℓ : ∀ x ∈ probesOf dv, ℓ ∈ tGrid x) :
    (covAt tNb (tSpec C) dv ℓ).det ≠ 0 ∧ 0 < 2 * ℓ + 1 := by
  have hS := tSurvey hC crossD_symm
  obtain ⟨AB, hAB⟩ := List.exists_mem_of_ne_nil _ hne
  exact ⟨(hS.cov_posDef (over3 hne hr) hℓ).det_pos.ne',
    hS.positive AB.1 (List.mem_finRange _) ℓ (hℓ _ (fst_mem_probes hAB))⟩

theorem fisherSpec_zero {d : Nat → Fin 3 → Fin 3 → ℝ → Nat → Nat → ℝ} {δ : Fin 3 → Fin 3 → ℝ → Nat → Nat → ℝ}
    {dv : List (Fin 3 × Fin 3)} (h : Insensitive d dv 0) (ℓ : ℝ) : fisherSpec tNb δ d dv ℓ 0 0 = 0 := by
  have : derivAt tNb (d 0) dv ℓ = 0 := by
    funext i
    obtain ⟨h1, _⟩ := mem_layout.mp (List.get_mem (layout tNb dv) i)
    exact h _ h1 _ _ _
  unfold fisherSpec
  rw [this, zero_dotProduct]

theorem three_info (ℓ : ℝ) (hℓ : ∀ x ∈ probesOf threeCorr, ℓ ∈ tGrid x) :
    fisherSpec tNb (tSpec unitC) (fun _ : Nat => tSpec crossD) threeCorr ℓ 0 0 = 2 * ℓ + 1 := by
  obtain ⟨hdet, hpos⟩ := tDet unitC_posDef (by decide) ⟨by decide, by decide⟩ hℓ
  rw [fisherSpec_of_solution hdet (fun i => if i.1 = 2 then 2 * ℓ + 1 else 0)]
  · show ∑ i : Fin 3, _ = _
    rw [Fin.sum_univ_three]
    show crossD 0 0 * 0 + crossD 1 1 * 0 + crossD 0 1 * (2 * ℓ + 1) = _
    simp [crossD]
  · funext i
    unfold mulVec dotProduct
    show (∑ j : Fin 3, (_ : ℝ)) = _
    rw [Fin.sum_univ_three]
    show covSpec (tSpec unitC) ℓ _ ((0, 0), (0, 0)) * 0 + covSpec (tSpec unitC) ℓ _ ((1, 0), (1, 0)) * 0 +
      covSpec (tSpec unitC) ℓ _ ((0, 0), (1, 0)) * (2 * ℓ + 1) = _
    have h : ∀ i : Fin 3, covSpec (tSpec unitC) ℓ ((layout tNb threeCorr).get i) ((0, 0), (1, 0)) * (2 * ℓ + 1) =
        dcomp (tSpec crossD) ℓ ((layout tNb threeCorr).get i) := by
      intro i
      fin_cases i
      · show (unitC 0 0 * unitC 0 1 + unitC 0 1 * unitC 0 0) / (2 * ℓ + 1) * (2 * ℓ + 1) = crossD 0 0
        simp [unitC, crossD]
      · show (unitC 1 0 * unitC 1 1 + unitC 1 1 * unitC 1 0) / (2 * ℓ + 1) * (2 * ℓ + 1) = crossD 1 1
        simp [unitC, crossD]
      · show (unitC 0 0 * unitC 1 1 + unitC 0 1 * unitC 1 0) / (2 * ℓ + 1) * (2 * ℓ + 1) = crossD 0 1
        simp [unitC, crossD, hpos.ne']
    rw [mul_zero, mul_zero, zero_add, zero_add]
    exact h i

theorem four_info (ℓ : ℝ) (hℓ : ∀ x ∈ probesOf fourCorr, ℓ ∈ tGrid x) :
    fisherSpec tNb (tSpec unitC) (fun _ : Nat => tSpec crossD) fourCorr ℓ 0 0 = 2 * ℓ + 1 := by
  obtain ⟨hdet, hpos⟩ := tDet unitC_posDef (by decide) ⟨by decide, by decide⟩ hℓ
  rw [fisherSpec_of_solution hdet (fun i => if i.1 = 2 then 2 * ℓ + 1 else 0)]
  · show ∑ i : Fin 4, _ = _
    rw [Fin.sum_univ_four]
    show crossD 0 0 * 0 + crossD 1 1 * 0 + crossD 0 1 * (2 * ℓ + 1) + crossD 2 2 * 0 = _
    simp [crossD]
  · funext i
    unfold mulVec dotProduct
    show (∑ j : Fin 4, (_ : ℝ)) = _
    rw [Fin.sum_univ_four]
    show covSpec (tSpec unitC) ℓ _ ((0, 0), (0, 0)) * 0 + covSpec (tSpec unitC) ℓ _ ((1, 0), (1, 0)) * 0 +
      covSpec (tSpec unitC) ℓ _ ((0, 0), (1, 0)) * (2 * ℓ + 1) + covSpec (tSpec unitC) ℓ _ ((2, 0), (2, 0)) * 0 = _
    have h : ∀ i : Fin 4, covSpec (tSpec unitC) ℓ ((layout tNb fourCorr).get i) ((0, 0), (1, 0)) * (2 * ℓ + 1) =
        dcomp (tSpec crossD) ℓ ((layout tNb fourCorr).get i) := by
      intro i
      fin_cases i
      · show (unitC 0 0 * unitC 0 1 + unitC 0 1 * unitC 0 0) / (2 * ℓ + 1) * (2 * ℓ + 1) = crossD 0 0
        simp [unitC, crossD]
      · show (unitC 1 0 * unitC 1 1 + unitC 1 1 * unitC 1 0) / (2 * ℓ + 1) * (2 * ℓ + 1) = crossD 1 1
        simp [unitC, crossD]
      · show (unitC 0 0 * unitC 1 1 + unitC 0 1 * unitC 1 0) / (2 * ℓ + 1) * (2 * ℓ + 1) = crossD 0 1
        simp [unitC, crossD, hpos.ne']
      · show (unitC 2 0 * unitC 2 1 + unitC 2 1 * unitC 2 0) / (2 * ℓ + 1) * (2 * ℓ + 1) = crossD 2 2
        simp [unitC, crossD]
    rw [mul_zero, mul_zero, mul_zero, zero_add, zero_add, add_zero]
    exact h i

theorem without_third {dv : List (Fin 3 × Fin 3)} (h : ∀ x ∈ probesOf dv, x ≠ 2) (x : Fin 3) (hx : x ∈ probesOf dv) :
    tGrid x = [1, 2, 3] := if_neg (h x hx)

/-- All multipoles of the probes are shared: nothing is added. -/
theorem total_shared {δ : Fin 3 → Fin 3 → ℝ → Nat → Nat → ℝ} {d : Nat → Fin 3 → Fin 3 → ℝ → Nat → Nat → ℝ}
    {dv : List (Fin 3 × Fin 3)} (hne : dv ≠ []) (h : ∀ x ∈ probesOf dv, x ≠ 2) {f : ℝ → ℝ}
    (hf : ∀ ℓ, (∀ x ∈ probesOf dv, ℓ ∈ tGrid x) → fisherSpec tNb δ d dv ℓ 0 0 = f ℓ) :
    totalInfo [0] tNuis tNb tGrid δ d dv 0 0 = f 1 + f 2 + f 3 := by
  have hc := common_shared hne (without_third h)
  have hz : (∑ p ∈ (autoProbes dv).toFinset, ∑ ℓ ∈ (tGrid p).toFinset \ (commonOf tGrid dv).toFinset,
      if Has1 [0] tNuis p 0 ∧ Has1 [0] tNuis p 0 then fisherSpec tNb δ d [(p, p)] ℓ 0 0 else 0) = 0 := by
    refine Finset.sum_eq_zero fun p hp => ?_
    have hp' := fst_mem_probes (mem_autoProbes.mp (List.mem_toFinset.mp hp))
    rw [hc, without_third h p hp', Finset.sdiff_self, Finset.sum_empty]
  unfold totalInfo
  rw [hz, add_zero, Finset.sum_congr rfl (fun ℓ hℓ => hf ℓ ((mem_commonOf hne).mp (List.mem_toFinset.mp hℓ))), hc,
    List.sum_toFinset _ (by norm_num)]
  simp
  ring

/-- The third probe is there: the third multipole counts for the auto-correlations of the others only. -/
theorem total_third {δ : Fin 3 → Fin 3 → ℝ → Nat → Nat → ℝ} {d : Nat → Fin 3 → Fin 3 → ℝ → Nat → Nat → ℝ}
    {dv : List (Fin 3 × Fin 3)} (hA : (autoProbes dv).toFinset = {0, 1, 2}) {f : ℝ → ℝ}
    (hf : ∀ ℓ, (∀ x ∈ probesOf dv, ℓ ∈ tGrid x) → fisherSpec tNb δ d dv ℓ 0 0 = f ℓ) :
    totalInfo [0] tNuis tNb tGrid δ d dv 0 0 =
      f 1 + f 2 + fisherSpec tNb δ d [(0, 0)] 3 0 0 + fisherSpec tNb δ d [(1, 1)] 3 0 0 := by
  have h2 : (2 : Fin 3) ∈ probesOf dv := by
    have : (2 : Fin 3) ∈ (autoProbes dv).toFinset := by rw [hA]; simp
    exact fst_mem_probes (mem_autoProbes.mp (List.mem_toFinset.mp this))
  have hne : dv ≠ [] := by rintro rfl; simp [probesOf] at h2
  have hc := common_third h2
  have h3 : ([1, 2, 3] : List ℝ).toFinset \ ([1, 2] : List ℝ).toFinset = {3} := by
    ext x
    simp only [List.toFinset_cons, List.toFinset_nil, Finset.mem_sdiff, Finset.mem_insert, Finset.mem_singleton,
      insert_empty_eq]
    constructor
    · tauto
    · rintro rfl
      norm_num
  have h4 : ∀ p : Fin 3, Has1 [0] tNuis p 0 := fun p => Or.inl (by simp)
  unfold totalInfo
  rw [Finset.sum_congr rfl (fun ℓ hℓ => hf ℓ ((mem_commonOf hne).mp (List.mem_toFinset.mp hℓ))), hc,
    List.sum_toFinset _ (by norm_num), hA, Finset.sum_insert (by decide), Finset.sum_insert (by decide),
    Finset.sum_singleton]
  have g0 : tGrid 0 = [1, 2, 3] := rfl
  have g1 : tGrid 1 = [1, 2, 3] := rfl
  have g2 : tGrid 2 = [1, 2] := rfl
  rw [g0, g1, g2, h3, Finset.sdiff_self, Finset.sum_empty, Finset.sum_singleton, Finset.sum_singleton,
    if_pos ⟨h4 0, h4 0⟩, if_pos ⟨h4 1, h4 1⟩]
  simp
  ring

/-- C125, false in general. Two probes that share three multipoles: their auto-correlations and their correlation give the
information 15 on a parameter. With the auto-correlation of a third probe, which has only two of the multipoles, it is 8: the
correlation of the first two is left out at the third multipole. The auto-correlation added is independent of
the rest. -/
theorem information_lost : ∃ (A : List (Fin 3 × FEll Nat ℝ)) (F F' : DF Nat ℝ) (fe fe' : FEll Nat ℝ),
    Survey (List.finRange 3) [0] tNuis (tStore unitC) (fun _ => some (tStore crossD)) tNb tGrid tPair (tSpec unitC)
      (fun _ => tSpec crossD) ∧
    RunTables [0] tNuis (tStore unitC) (fun _ => some (tStore crossD)) fourCorr A ∧
    Within threeCorr fourCorr ∧ Over (List.finRange 3) threeCorr ∧ Over (List.finRange 3) fourCorr ∧
    computeFisher [0] tNuis (tStore unitC) (fun _ => some (tStore crossD)) threeCorr (autoProbes threeCorr) (some A)
      = .ok (F, fe) ∧
    computeFisher [0] tNuis (tStore unitC) (fun _ => some (tStore crossD)) fourCorr (autoProbes fourCorr) (some A)
      = .ok (F', fe') ∧
    F.rows = [0] ∧ F'.rows = [0] ∧ F.val 0 0 = 15 ∧ F'.val 0 0 = 8 := by
  obtain ⟨A, hA⟩ := tTables unitC_posDef crossD_symm
  have h3 : Over (List.finRange 3) threeCorr := over3 (by decide) ⟨by decide, by decide⟩
  have h4 : Over (List.finRange 3) fourCorr := over3 (by decide) ⟨by decide, by decide⟩
  obtain ⟨F, fe, e1, e2, e3⟩ := tValue unitC_posDef crossD_symm h3 (hA _)
  obtain ⟨F', fe', e1', e2', e3'⟩ := tValue unitC_posDef crossD_symm h4 (hA _)
  refine ⟨A, F, F', fe, fe', tSurvey unitC_posDef crossD_symm, hA _, ?_, h3, h4, e1, e1', e2, e2', ?_, ?_⟩
  · intro a b h
    simp only [Lists, threeCorr, fourCorr, List.mem_cons, List.not_mem_nil, or_false] at h ⊢
    tauto
  · rw [e3, total_shared (by decide) (by decide) three_info]
    norm_num
  · rw [e3', total_third (by decide) four_info, fisherSpec_zero, fisherSpec_zero]
    · norm_num
    · intro AB h _ _ _
      rw [List.mem_singleton] at h
      subst h
      simp [tSpec, crossD]
    · intro AB h _ _ _
      rw [List.mem_singleton] at h
      subst h
      simp [tSpec, crossD]

/-! ### Too much information -/

/-- The first two probes are correlated. -/
noncomputable def corrC (a b : Fin 3) : ℝ :=
  if a = b then 1 else if a = 2 ∨ b = 2 then 0 else 1 / 2

theorem corrC_posDef : (Matrix.of corrC).PosDef := by
  rw [posDef_iff_dotProduct_mulVec]
  refine ⟨?_, ?_⟩
  · ext a b
    fin_cases a <;> fin_cases b <;> simp [corrC]
  · intro x hx
    have : dotProduct (star x) (mulVec (Matrix.of corrC) x) = x 0 * x 0 + x 0 * x 1 + x 1 * x 1 + x 2 * x 2 := by
      simp only [star_trivial, dotProduct, mulVec, Fin.sum_univ_three, Matrix.of_apply, corrC]
      simp
      ring
    rw [this]
    have hne : x 0 ≠ 0 ∨ x 1 ≠ 0 ∨ x 2 ≠ 0 := by
      by_contra hc
      push Not at hc
      apply hx
      funext i
      fin_cases i
      · exact hc.1
      · exact hc.2.1
      · exact hc.2.2
    rcases hne with h | h | h
    · have := mul_self_pos.mpr h
      nlinarith [mul_self_nonneg (x 0 + 2 * x 1), mul_self_nonneg (x 2)]
    · have := mul_self_pos.mpr h
      nlinarith [mul_self_nonneg (2 * x 0 + x 1), mul_self_nonneg (x 2)]
    · have := mul_self_pos.mpr h
      nlinarith [mul_self_nonneg (2 * x 0 + x 1), mul_self_nonneg (x 1)]

/-- The auto-correlations of the first two probes depend on the parameter. -/
def autoD (a b : Fin 3) : ℝ := if a = b ∧ a ≠ 2 then 1 else 0

theorem autoD_symm (a b : Fin 3) : autoD a b = autoD b a := by
  unfold autoD
  congr 1
  refine propext ⟨?_, ?_⟩ <;> rintro ⟨rfl, h⟩ <;> exact ⟨rfl, h⟩

def twoAuto : List (Fin 3 × Fin 3) := [(0, 0), (1, 1)]

def threeAuto : List (Fin 3 × Fin 3) := [(0, 0), (1, 1), (2, 2)]

theorem twoAuto_info (ℓ : ℝ) (hℓ : ∀ x ∈ probesOf twoAuto, ℓ ∈ tGrid x) :
    fisherSpec tNb (tSpec corrC) (fun _ : Nat => tSpec autoD) twoAuto ℓ 0 0 = 4 / 5 * (2 * ℓ + 1) := by
  obtain ⟨hdet, hpos⟩ := tDet corrC_posDef (by decide) ⟨by decide, by decide⟩ hℓ
  rw [fisherSpec_of_solution hdet (fun _ => 2 / 5 * (2 * ℓ + 1))]
  · show ∑ i : Fin 2, _ = _
    rw [Fin.sum_univ_two]
    show autoD 0 0 * (2 / 5 * (2 * ℓ + 1)) + autoD 1 1 * (2 / 5 * (2 * ℓ + 1)) = _
    simp [autoD]
    ring
  · funext i
    unfold mulVec dotProduct
    show (∑ j : Fin 2, (_ : ℝ)) = _
    rw [Fin.sum_univ_two]
    have h : ∀ i : Fin 2, covSpec (tSpec corrC) ℓ ((layout tNb twoAuto).get i) ((0, 0), (0, 0)) * (2 / 5 * (2 * ℓ + 1)) +
        covSpec (tSpec corrC) ℓ ((layout tNb twoAuto).get i) ((1, 0), (1, 0)) * (2 / 5 * (2 * ℓ + 1)) =
        dcomp (tSpec autoD) ℓ ((layout tNb twoAuto).get i) := by
      intro i
      fin_cases i
      · show (corrC 0 0 * corrC 0 0 + corrC 0 0 * corrC 0 0) / (2 * ℓ + 1) * (2 / 5 * (2 * ℓ + 1)) +
          (corrC 0 1 * corrC 0 1 + corrC 0 1 * corrC 0 1) / (2 * ℓ + 1) * (2 / 5 * (2 * ℓ + 1)) = autoD 0 0
        simp [corrC, autoD]
        field_simp
        ring
      · show (corrC 1 0 * corrC 1 0 + corrC 1 0 * corrC 1 0) / (2 * ℓ + 1) * (2 / 5 * (2 * ℓ + 1)) +
          (corrC 1 1 * corrC 1 1 + corrC 1 1 * corrC 1 1) / (2 * ℓ + 1) * (2 / 5 * (2 * ℓ + 1)) = autoD 1 1
        simp [corrC, autoD]
        field_simp
        ring
    exact h i

theorem threeAuto_info (ℓ : ℝ) (hℓ : ∀ x ∈ probesOf threeAuto, ℓ ∈ tGrid x) :
    fisherSpec tNb (tSpec corrC) (fun _ : Nat => tSpec autoD) threeAuto ℓ 0 0 = 4 / 5 * (2 * ℓ + 1) := by
  obtain ⟨hdet, hpos⟩ := tDet corrC_posDef (by decide) ⟨by decide, by decide⟩ hℓ
  rw [fisherSpec_of_solution hdet (fun i => if i.1 = 2 then 0 else 2 / 5 * (2 * ℓ + 1))]
  · show ∑ i : Fin 3, _ = _
    rw [Fin.sum_univ_three]
    show autoD 0 0 * (2 / 5 * (2 * ℓ + 1)) + autoD 1 1 * (2 / 5 * (2 * ℓ + 1)) + autoD 2 2 * 0 = _
    simp [autoD]
    ring
  · funext i
    unfold mulVec dotProduct
    show (∑ j : Fin 3, (_ : ℝ)) = _
    rw [Fin.sum_univ_three]
    have h : ∀ i : Fin 3,
        covSpec (tSpec corrC) ℓ ((layout tNb threeAuto).get i) ((0, 0), (0, 0)) * (2 / 5 * (2 * ℓ + 1)) +
        covSpec (tSpec corrC) ℓ ((layout tNb threeAuto).get i) ((1, 0), (1, 0)) * (2 / 5 * (2 * ℓ + 1)) +
        covSpec (tSpec corrC) ℓ ((layout tNb threeAuto).get i) ((2, 0), (2, 0)) * 0 =
        dcomp (tSpec autoD) ℓ ((layout tNb threeAuto).get i) := by
      intro i
      rw [mul_zero, add_zero]
      fin_cases i
      · show (corrC 0 0 * corrC 0 0 + corrC 0 0 * corrC 0 0) / (2 * ℓ + 1) * (2 / 5 * (2 * ℓ + 1)) +
          (corrC 0 1 * corrC 0 1 + corrC 0 1 * corrC 0 1) / (2 * ℓ + 1) * (2 / 5 * (2 * ℓ + 1)) = autoD 0 0
        simp [corrC, autoD]
        field_simp
        ring
      · show (corrC 1 0 * corrC 1 0 + corrC 1 0 * corrC 1 0) / (2 * ℓ + 1) * (2 / 5 * (2 * ℓ + 1)) +
          (corrC 1 1 * corrC 1 1 + corrC 1 1 * corrC 1 1) / (2 * ℓ + 1) * (2 / 5 * (2 * ℓ + 1)) = autoD 1 1
        simp [corrC, autoD]
        field_simp
        ring
      · show (corrC 2 0 * corrC 2 0 + corrC 2 0 * corrC 2 0) / (2 * ℓ + 1) * (2 / 5 * (2 * ℓ + 1)) +
          (corrC 2 1 * corrC 2 1 + corrC 2 1 * corrC 2 1) / (2 * ℓ + 1) * (2 / 5 * (2 * ℓ + 1)) = autoD 2 2
        simp [corrC, autoD]
    exact h i

theorem oneAuto_info {p : Fin 3} (hp : p ≠ 2) :
    fisherSpec tNb (tSpec corrC) (fun _ : Nat => tSpec autoD) [(p, p)] 3 0 0 = 7 / 2 := by
  obtain ⟨hdet, hpos⟩ := tDet corrC_posDef (dv := [(p, p)]) (ℓ := 3) (by simp) ⟨by simp, by simp⟩ (by
    intro x hx
    have : x = p := by simpa [probesOf] using hx
    rw [this, tGrid, if_neg hp]
    simp)
  have hs : autoD p p = 1 := by simp [autoD, hp]
  have hc : corrC p p = 1 := by simp [corrC]
  have hp' : p = 0 ∨ p = 1 := by omega
  rcases hp' with rfl | rfl
  · rw [fisherSpec_of_solution hdet (fun _ => 7 / 2)]
    · show ∑ i : Fin 1, (_ : ℝ) = _
      rw [Fin.sum_univ_one]
      show autoD 0 0 * (7 / 2) = _
      rw [hs, one_mul]
    · funext i
      unfold mulVec dotProduct
      show (∑ j : Fin 1, (_ : ℝ)) = _
      rw [Fin.sum_univ_one]
      have h : ∀ i : Fin 1, covSpec (tSpec corrC) 3 ((layout tNb [(0, 0)]).get i) ((0, 0), (0, 0)) * (7 / 2) =
          dcomp (tSpec autoD) 3 ((layout tNb [(0, 0)]).get i) := by
        intro i
        fin_cases i
        show (corrC 0 0 * corrC 0 0 + corrC 0 0 * corrC 0 0) / (2 * 3 + 1) * (7 / 2) = autoD 0 0
        rw [hs, hc]
        norm_num
      exact h i
  · rw [fisherSpec_of_solution hdet (fun _ => 7 / 2)]
    · show ∑ i : Fin 1, (_ : ℝ) = _
      rw [Fin.sum_univ_one]
      show autoD 1 1 * (7 / 2) = _
      rw [hs, one_mul]
    · funext i
      unfold mulVec dotProduct
      show (∑ j : Fin 1, (_ : ℝ)) = _
      rw [Fin.sum_univ_one]
      have h : ∀ i : Fin 1, covSpec (tSpec corrC) 3 ((layout tNb [(1, 1)]).get i) ((1, 0), (1, 0)) * (7 / 2) =
          dcomp (tSpec autoD) 3 ((layout tNb [(1, 1)]).get i) := by
        intro i
        fin_cases i
        show (corrC 1 1 * corrC 1 1 + corrC 1 1 * corrC 1 1) / (2 * 3 + 1) * (7 / 2) = autoD 1 1
        rw [hs, hc]
        norm_num
      exact h i

/-- C125, false in general. Adding the auto-correlation of a probe that depends on no parameter and is independent of the
rest raises the information on the parameter from 12 to 13.4: at the multipole it does not have, the correlated
auto-correlations of the first two probes are added as if they were independent. -/
theorem information_made_up : ∃ (A : List (Fin 3 × FEll Nat ℝ)) (F F' : DF Nat ℝ) (fe fe' : FEll Nat ℝ),
    Survey (List.finRange 3) [0] tNuis (tStore corrC) (fun _ => some (tStore autoD)) tNb tGrid tPair (tSpec corrC)
      (fun _ => tSpec autoD) ∧
    RunTables [0] tNuis (tStore corrC) (fun _ => some (tStore autoD)) threeAuto A ∧
    threeAuto = twoAuto ++ [(2, 2)] ∧ Insensitive (fun _ : Nat => tSpec autoD) [(2, 2), (2, 0), (2, 1)] 0 ∧
    computeFisher [0] tNuis (tStore corrC) (fun _ => some (tStore autoD)) twoAuto (autoProbes twoAuto) (some A)
      = .ok (F, fe) ∧
    computeFisher [0] tNuis (tStore corrC) (fun _ => some (tStore autoD)) threeAuto (autoProbes threeAuto) (some A)
      = .ok (F', fe') ∧
    F.rows = [0] ∧ F'.rows = [0] ∧ F.val 0 0 = 12 ∧ F'.val 0 0 = 67 / 5 := by
  obtain ⟨A, hA⟩ := tTables corrC_posDef autoD_symm
  have h2 : Over (List.finRange 3) twoAuto := over3 (by decide) ⟨by decide, by decide⟩
  have h3 : Over (List.finRange 3) threeAuto := over3 (by decide) ⟨by decide, by decide⟩
  obtain ⟨F, fe, e1, e2, e3⟩ := tValue corrC_posDef autoD_symm h2 (hA _)
  obtain ⟨F', fe', e1', e2', e3'⟩ := tValue corrC_posDef autoD_symm h3 (hA _)
  refine ⟨A, F, F', fe, fe', tSurvey corrC_posDef autoD_symm, hA _, rfl, ?_, e1, e1', e2, e2', ?_, ?_⟩
  · intro AB h _ _ _
    simp only [List.mem_cons, List.not_mem_nil, or_false] at h
    rcases h with rfl | rfl | rfl <;> simp [tSpec, autoD]
  · rw [e3, total_shared (by decide) (by decide) twoAuto_info]
    norm_num
  · rw [e3', total_third (by decide) threeAuto_info, oneAuto_info (by decide), oneAuto_info (by decide)]
    norm_num

/-! ### Examples -/

/-- C123: the information of two auto-correlations. -/
example : ∃ A : List (Fin 3 × FEll Nat ℝ), ∃ F fe,
    computeFisher [0] tNuis (tStore corrC) (fun _ => some (tStore autoD)) twoAuto [1, 0] (some A) = .ok (F, fe) ∧
    F.val 0 0 = 12 := by
  obtain ⟨A, hA⟩ := tTables corrC_posDef autoD_symm
  obtain ⟨F, fe, h1, h2, _, _, h5⟩ := survey_fisher (tSurvey corrC_posDef autoD_symm)
    (over3 (by decide) ⟨by decide, by decide⟩ : Over (List.finRange 3) twoAuto) (order := [1, 0])
    ⟨by decide, by decide⟩ (hA _)
  have h0 : (0 : Nat) ∈ F.rows := (h2 0).mpr (Or.inl (by simp))
  refine ⟨A, F, fe, h1, ?_⟩
  rw [h5 0 h0 0 h0, total_shared (by decide) (by decide) twoAuto_info]
  norm_num

/-- C124: the correlations in another order and with their probes exchanged. -/
example : ∃ A : List (Fin 3 × FEll Nat ℝ), ∃ F fe F' fe',
    computeFisher [0] tNuis (tStore corrC) (fun _ => some (tStore crossD)) [(0, 0), (1, 1), (0, 1)] [0, 1] (some A)
      = .ok (F, fe) ∧
    computeFisher [0] tNuis (tStore corrC) (fun _ => some (tStore crossD)) [(1, 0), (1, 1), (0, 0)] [1, 0] (some A)
      = .ok (F', fe') ∧ F'.rows = F.rows ∧ F'.cols = F.cols ∧ ∀ a ∈ F.rows, ∀ b ∈ F.rows, F'.val a b = F.val a b := by
  obtain ⟨A, hA⟩ := tTables corrC_posDef crossD_symm
  refine ⟨A, order_irrelevant (tSurvey corrC_posDef crossD_symm) (over3 (by decide) ⟨by decide, by decide⟩)
    (over3 (by decide) ⟨by decide, by decide⟩) ?_ ⟨by decide, by decide⟩ ⟨by decide, by decide⟩ (hA _)⟩
  intro a b
  simp only [Lists, List.mem_cons, List.not_mem_nil, or_false]
  decide +revert

/-- C125: with the same multipoles, adding the correlation of two probes to their auto-correlations. -/
example : ∃ A : List (Fin 3 × FEll Nat ℝ), ∃ F fe F' fe',
    computeFisher [0] tNuis (tStore corrC) (fun _ => some (tStore crossD)) twoAuto [0, 1] (some A) = .ok (F, fe) ∧
    computeFisher [0] tNuis (tStore corrC) (fun _ => some (tStore crossD)) threeCorr [0, 1] (some A) = .ok (F', fe') ∧
    F.rows ⊆ F'.rows ∧ ∀ v : Nat → ℝ, quadForm F.rows.toFinset v F.val ≤ quadForm F'.rows.toFinset v F'.val := by
  obtain ⟨A, hA⟩ := tTables corrC_posDef crossD_symm
  refine ⟨A, more_information_partial (tSurvey corrC_posDef crossD_symm) (over3 (by decide) ⟨by decide, by decide⟩)
    (over3 (by decide) ⟨by decide, by decide⟩) ?_ (Or.inl ?_) ⟨by decide, by decide⟩ ⟨by decide, by decide⟩ (hA _) ?_⟩
  · intro a b
    simp only [Lists, twoAuto, threeCorr, List.mem_cons, List.not_mem_nil, or_false]
    tauto
  · intro ℓ hℓ
    rw [mem_commonOf (by decide)] at hℓ ⊢
    intro x hx
    exact hℓ x (by revert x; decide)
  · rintro a ⟨p, _, h⟩
    simp [tNuis] at h

/-- C125: a single auto-correlation within a data vector of probes with fewer multipoles in common. -/
example : ∃ A : List (Fin 3 × FEll Nat ℝ), ∃ F fe F' fe',
    computeFisher [0] tNuis (tStore corrC) (fun _ => some (tStore autoD)) [(0, 0)] [0] (some A) = .ok (F, fe) ∧
    computeFisher [0] tNuis (tStore corrC) (fun _ => some (tStore autoD)) threeAuto [0, 1, 2] (some A) = .ok (F', fe') ∧
    F.rows ⊆ F'.rows ∧ ∀ v : Nat → ℝ, quadForm F.rows.toFinset v F.val ≤ quadForm F'.rows.toFinset v F'.val := by
  obtain ⟨A, hA⟩ := tTables corrC_posDef autoD_symm
  refine ⟨A, more_information_partial (tSurvey corrC_posDef autoD_symm) (over3 (by decide) ⟨by decide, by decide⟩)
    (over3 (by decide) ⟨by decide, by decide⟩) ?_ (Or.inr rfl) ⟨by decide, by decide⟩ ⟨by decide, by decide⟩ (hA _) ?_⟩
  · intro a b
    simp only [Lists, threeAuto, List.mem_cons, List.not_mem_nil, or_false]
    tauto
  · rintro a ⟨p, _, h⟩
    simp [tNuis] at h

end Seyfert.Cov
