import Verif.Props.Evaluator
import Verif.Spec.Information
import Mathlib.Analysis.Matrix.Order

/-!
C61: the covariance of a data vector is positive definite, hence invertible.
-/

set_option linter.unusedSectionVars false

namespace Seyfert.Cov

open scoped Kronecker

variable {P N : Type} [DecidableEq P] [LinearOrder N]

theorem mem_bins {nb : P → Nat} {dv : List (P × P)} {x : P × Nat} :
    x ∈ bins nb dv ↔ x.1 ∈ probesOf dv ∧ x.2 < nb x.1 := by
  unfold bins
  rw [List.mem_toFinset, List.mem_flatMap]
  constructor
  · rintro ⟨p, hp, h⟩
    obtain ⟨i, hi, rfl⟩ := List.mem_map.mp h
    exact ⟨hp, List.mem_range.mp hi⟩
  · rintro ⟨h1, h2⟩
    exact ⟨x.1, h1, List.mem_map.mpr ⟨x.2, List.mem_range.mpr h2, rfl⟩⟩

theorem mem_layout {nb : P → Nat} {dv : List (P × P)} {x : (P × Nat) × (P × Nat)} :
    x ∈ layout nb dv ↔ (x.1.1, x.2.1) ∈ dv ∧ (x.1.2, x.2.2) ∈ binPairs nb (x.1.1, x.2.1) := by
  unfold layout
  rw [List.mem_flatMap]
  constructor
  · rintro ⟨AB, hAB, h⟩
    obtain ⟨p, hp, rfl⟩ := List.mem_map.mp h
    exact ⟨hAB, hp⟩
  · rintro ⟨h1, h2⟩
    exact ⟨_, h1, List.mem_map.mpr ⟨_, h2, rfl⟩⟩

theorem layout_bins {nb : P → Nat} {dv : List (P × P)} {x : (P × Nat) × (P × Nat)}
    (h : x ∈ layout nb dv) : x.1 ∈ bins nb dv ∧ x.2 ∈ bins nb dv := by
  obtain ⟨h1, h2⟩ := mem_layout.mp h
  obtain ⟨h3, h4⟩ := mem_binPairs h2
  exact ⟨mem_bins.mpr ⟨fst_mem_probes h1, h3⟩, mem_bins.mpr ⟨snd_mem_probes h1, h4⟩⟩

theorem binPairs_nodup (nb : P → Nat) (AB : P × P) : (binPairs nb AB).Nodup := by
  unfold binPairs
  rw [List.nodup_flatMap]
  refine ⟨fun j _ => List.nodup_range.map (fun a b h => (Prod.mk.inj h).1), ?_⟩
  refine List.nodup_range.pairwise_of_forall_ne ?_
  intro a _ b _ hab x hx hy
  obtain ⟨_, _, rfl⟩ := List.mem_map.mp hx
  obtain ⟨_, _, h⟩ := List.mem_map.mp hy
  exact hab (Prod.mk.inj h).2.symm

theorem binPairs_auto {nb : P → Nat} {p : P} {x : Nat × Nat} (h : x ∈ binPairs nb (p, p)) : x.1 ≤ x.2 := by
  unfold binPairs at h
  obtain ⟨j, _, h⟩ := List.mem_flatMap.mp h
  obtain ⟨i, hi, rfl⟩ := List.mem_map.mp h
  rw [if_pos rfl, List.mem_range] at hi
  exact Nat.lt_succ_iff.mp hi

theorem layout_nodup {nb : P → Nat} {dv : List (P × P)} (h : dv.Nodup) : (layout nb dv).Nodup := by
  unfold layout
  rw [List.nodup_flatMap]
  refine ⟨fun AB _ => (binPairs_nodup nb AB).map ?_, ?_⟩
  · intro a b hab
    simp only [Prod.mk.injEq, true_and] at hab
    exact Prod.ext hab.1 hab.2
  · refine h.pairwise_of_forall_ne ?_
    intro A _ B _ hAB x hx hy
    obtain ⟨_, _, rfl⟩ := List.mem_map.mp hx
    obtain ⟨_, _, h⟩ := List.mem_map.mp hy
    simp only [Prod.mk.injEq] at h
    exact hAB (Prod.ext h.1.1.symm h.2.1.symm)

/-- A component of the data vector is in it only once, also as an unordered pair of bins. -/
theorem layout_swap {nb : P → Nat} {dv : List (P × P)} (h : NoRepeats dv)
    {x : (P × Nat) × (P × Nat)} (h1 : x ∈ layout nb dv) (h2 : (x.2, x.1) ∈ layout nb dv) : x.1 = x.2 := by
  obtain ⟨a1, b1⟩ := mem_layout.mp h1
  obtain ⟨a2, b2⟩ := mem_layout.mp h2
  by_cases hp : x.1.1 = x.2.1
  · simp only at b2
    rw [hp] at b1 b2
    have := binPairs_auto b1
    have := binPairs_auto b2
    simp only at *
    exact Prod.ext hp (by omega)
  · exact absurd a2 (h.2 _ a1 hp)

/-- C61. If the spectra between all bins of the involved probes form a positive definite matrix at a
multipole, then so does the covariance of a data vector without repeated correlations. -/
theorem covariance_posDef {nb : P → Nat} {δ : P → P → ℝ → Nat → Nat → ℝ} {dv : List (P × P)}
    (hr : NoRepeats dv) {ℓ : ℝ} (hℓ : 0 < 2 * ℓ + 1) (hpd : (joint nb δ dv ℓ).PosDef) :
    (covAt nb δ dv ℓ).PosDef := by
  set L := layout nb dv with hL
  let a : Fin L.length → bins nb dv := fun R => ⟨(L.get R).1, (layout_bins (L.get_mem R)).1⟩
  let b : Fin L.length → bins nb dv := fun R => ⟨(L.get R).2, (layout_bins (L.get_mem R)).2⟩
  set D := joint nb δ dv ℓ with hD
  have hcov : ∀ R S, covAt nb δ dv ℓ R S
      = (D (a R) (a S) * D (b R) (b S) + D (a R) (b S) * D (b R) (a S)) / (2 * ℓ + 1) := fun R S => rfl
  have hDs : ∀ x y, D x y = D y x := fun x y => by
    have := hpd.isHermitian.apply x y
    simpa using this.symm
  have hK := hpd.kronecker hpd
  rw [Matrix.posDef_iff_dotProduct_mulVec]
  refine ⟨?_, ?_⟩
  · ext R S
    rw [Matrix.conjTranspose_apply, hcov, hcov, hDs (a S) (a R), hDs (b S) (b R), hDs (a S) (b R),
      hDs (b S) (a R), star_trivial, mul_comm (D (b R) (a S))]
  · intro x hx
    let e : Fin L.length → (bins nb dv × bins nb dv) → ℝ := fun R =>
      Pi.single (a R, b R) 1 + Pi.single (b R, a R) 1
    let s : (bins nb dv × bins nb dv) → ℝ := ∑ R, x R • e R
    have hbil : ∀ R S, dotProduct (e R) (Matrix.mulVec (D ⊗ₖ D) (e S))
        = 2 * (D (a R) (a S) * D (b R) (b S) + D (a R) (b S) * D (b R) (a S)) := by
      intro R S
      simp only [e, Matrix.mulVec_add, dotProduct_add, add_dotProduct, single_dotProduct, one_mul,
        Matrix.mulVec_single, MulOpposite.op_one, one_smul, Matrix.col_apply, Matrix.kroneckerMap_apply]
      ring
    have hq : dotProduct s (Matrix.mulVec (D ⊗ₖ D) s)
        = 2 * (2 * ℓ + 1) * dotProduct (star x) (Matrix.mulVec (covAt nb δ dv ℓ) x) := by
      have h1 : dotProduct s (Matrix.mulVec (D ⊗ₖ D) s) = ∑ R, ∑ S, x R * x S *
          (2 * (D (a R) (a S) * D (b R) (b S) + D (a R) (b S) * D (b R) (a S))) := by
        simp only [s]
        rw [sum_dotProduct]
        refine Finset.sum_congr rfl (fun R _ => ?_)
        rw [Matrix.mulVec_sum, dotProduct_sum]
        refine Finset.sum_congr rfl (fun S _ => ?_)
        rw [Matrix.mulVec_smul, dotProduct_smul, smul_dotProduct, hbil, smul_eq_mul, smul_eq_mul]
        ring
      rw [h1]
      simp only [dotProduct, Matrix.mulVec, Finset.mul_sum, star_trivial]
      refine Finset.sum_congr rfl (fun R _ => Finset.sum_congr rfl (fun S _ => ?_))
      rw [hcov]
      field_simp
    have hs : s ≠ 0 := by
      intro h0
      apply hx
      funext R
      have h2 := congrFun h0 (a R, b R)
      simp only [s, Finset.sum_apply, Pi.smul_apply, smul_eq_mul, Pi.zero_apply] at h2
      rw [Finset.sum_eq_single R] at h2
      · have h3 : 0 < e R (a R, b R) := by
          simp only [e, Pi.add_apply, Pi.single_eq_same]
          have : (0 : ℝ) ≤ Pi.single (M := fun _ => ℝ) (b R, a R) 1 (a R, b R) := by
            rw [Pi.single_apply]
            split <;> norm_num
          linarith
        rcases mul_eq_zero.mp h2 with h | h
        · exact h
        · exact absurd h h3.ne'
      · intro Q _ hQ
        have h4 : (a R, b R) ≠ (a Q, b Q) := by
          intro h
          have e1 : (L.get R).1 = (L.get Q).1 := congrArg (fun z => z.1.1) h
          have e2 : (L.get R).2 = (L.get Q).2 := congrArg (fun z => z.2.1) h
          exact hQ ((layout_nodup hr.1).injective_get (Prod.ext e1.symm e2.symm))
        have h5 : (a R, b R) ≠ (b Q, a Q) := by
          intro h
          have e1 : (L.get R).1 = (L.get Q).2 := congrArg (fun z => z.1.1) h
          have e2 : (L.get R).2 = (L.get Q).1 := congrArg (fun z => z.2.1) h
          have hm : ((L.get R).2, (L.get R).1) ∈ L := by
            rw [e1, e2]
            exact L.get_mem Q
          have e3 := layout_swap hr (L.get_mem R) hm
          exact hQ ((layout_nodup hr.1).injective_get (Prod.ext (by rw [← e2, ← e3]) (by rw [← e1, e3])))
        simp only [e, Pi.add_apply]
        rw [Pi.single_eq_of_ne h4, Pi.single_eq_of_ne h5]
        ring
      · intro h
        exact absurd (Finset.mem_univ R) h
    have := hK.dotProduct_mulVec_pos hs
    rw [star_trivial, hq] at this
    exact (mul_pos_iff_of_pos_left (by positivity)).mp this

theorem covariance_det_ne {nb : P → Nat} {δ : P → P → ℝ → Nat → Nat → ℝ} {dv : List (P × P)}
    (hr : NoRepeats dv) {ℓ : ℝ} (hℓ : 0 < 2 * ℓ + 1) (hpd : (joint nb δ dv ℓ).PosDef) :
    (covAt nb δ dv ℓ).det ≠ 0 := (covariance_posDef hr hℓ hpd).det_pos.ne'

/-- C61. The converse: a correlation listed twice, or once in each order of its probes, makes the
covariance singular at every multipole, whatever the spectra are. -/
theorem covariance_repeated {nb : P → Nat} {δ : P → P → ℝ → Nat → Nat → ℝ} {dv : List (P × P)}
    {ℓ : ℝ} {i j : Nat} (hij : i < j) {AB CD : P × P} (h1 : dv[i]? = some AB) (h2 : dv[j]? = some CD)
    (h : CD = AB ∨ CD = (AB.2, AB.1)) (hb : 0 < nb AB.1) (hb' : 0 < nb AB.2) :
    (covAt nb δ dv ℓ).det = 0 := by
  have hfirst : ∀ EF : P × P, 0 < nb EF.1 → 0 < nb EF.2 → (binPairs nb EF)[0]? = some (0, 0) := by
    intro EF hE hF
    unfold binPairs
    obtain ⟨m, hm⟩ := Nat.exists_eq_succ_of_ne_zero hF.ne'
    obtain ⟨k, hk⟩ := Nat.exists_eq_succ_of_ne_zero hE.ne'
    rw [hm, List.range_succ_eq_map, List.flatMap_cons]
    rw [show (if EF.1 = EF.2 then 0 + 1 else nb EF.1) = (if EF.1 = EF.2 then 0 else k) + 1 by
      rw [hk]; split <;> rfl, List.range_succ_eq_map]
    rfl
  have hpos : ∀ (k : Nat) (EF : P × P), dv[k]? = some EF → 0 < nb EF.1 → 0 < nb EF.2 →
      (layout nb dv)[(layout nb (dv.take k)).length]? = some ((EF.1, 0), (EF.2, 0)) := by
    intro k EF hk hE hF
    have hsplit : dv = dv.take k ++ EF :: dv.drop (k + 1) := by
      obtain ⟨hlt, rfl⟩ := List.getElem?_eq_some_iff.mp hk
      rw [← List.drop_eq_getElem_cons hlt, List.take_append_drop]
    have : layout nb dv = layout nb (dv.take k) ++ ((binPairs nb EF).map
        (fun p => ((EF.1, p.1), (EF.2, p.2))) ++ layout nb (dv.drop (k + 1))) := by
      conv_lhs => rw [hsplit]
      unfold layout
      rw [List.flatMap_append, List.flatMap_cons]
    rw [this, List.getElem?_append_right (le_refl _), Nat.sub_self, List.getElem?_append_left
      (by
        have := List.getElem?_eq_some_iff.mp (hfirst EF hE hF)
        simpa using this.1), List.getElem?_map, hfirst EF hE hF]
    rfl
  have hp1 := hpos i AB h1 hb hb'
  have hCD : 0 < nb CD.1 ∧ 0 < nb CD.2 := by rcases h with rfl | rfl <;> exact ⟨‹_›, ‹_›⟩
  have hp2 := hpos j CD h2 hCD.1 hCD.2
  obtain ⟨hlt1, he1⟩ := List.getElem?_eq_some_iff.mp hp1
  obtain ⟨hlt2, he2⟩ := List.getElem?_eq_some_iff.mp hp2
  have hne : (layout nb (dv.take i)).length < (layout nb (dv.take j)).length := by
    have hlt : i < dv.length := (List.getElem?_eq_some_iff.mp h1).1
    have hsub : dv.take j = dv.take (i + 1) ++ (dv.take j).drop (i + 1) := by
      conv_lhs => rw [← List.take_append_drop (i + 1) (dv.take j)]
      rw [List.take_take, Nat.min_eq_left hij]
    rw [hsub]
    have htake : dv.take (i + 1) = dv.take i ++ [AB] := by
      rw [List.take_add_one, h1]
      rfl
    rw [htake]
    unfold layout
    rw [List.flatMap_append, List.flatMap_append, List.length_append, List.length_append]
    have : 0 < (List.flatMap (fun AB => (binPairs nb AB).map (fun p => ((AB.1, p.1), (AB.2, p.2))))
        [AB]).length := by
      have := (List.getElem?_eq_some_iff.mp (hfirst AB hb hb')).1
      simpa using this
    omega
  apply Matrix.det_zero_of_row_eq (i := ⟨_, hlt1⟩) (j := ⟨_, hlt2⟩)
    (fun e => absurd (Fin.mk.inj e) hne.ne)
  funext c
  show covSpec δ ℓ ((layout nb dv).get ⟨_, hlt1⟩) _ = covSpec δ ℓ ((layout nb dv).get ⟨_, hlt2⟩) _
  simp only [List.get_eq_getElem]
  rw [he1, he2]
  rcases h with rfl | rfl
  · rfl
  · simp only [covSpec]
    ring

/-- C61. With positive definite spectra and no repeated correlation, the evaluation of the Fisher
matrix cannot fail because of a singular covariance: everything needed is there as soon as the spectra,
the derivatives and at least two common multipoles are. -/
theorem ready_of_posDef {cosmo : List N} {nuis : P → List N} {delta : Store P ℝ}
    {D : N → Option (Store P ℝ)} {dv : List (P × P)} {nb : P → Nat} {g : P → P → List ℝ}
    {δ : P → P → ℝ → Nat → Nat → ℝ} {gd : P → P → List ℝ} {d : N → P → P → ℝ → Nat → Nat → ℝ}
    {ells : List ℝ} (spectra : Holds delta nb g δ) (nonempty : dv ≠ []) (available : Available delta dv)
    (free : freeParams cosmo nuis dv ≠ [])
    (derivs : HasDerivs D (freeParams cosmo nuis dv) nb gd d dv)
    (sorted : ells.Pairwise (· < ·))
    (common : ∀ ℓ, ℓ ∈ ells ↔ ∀ x ∈ probesOf dv, ∀ y ∈ probesOf dv, ℓ ∈ g x y)
    (commonD : ∀ ℓ, ℓ ∈ ells ↔ ∀ AB ∈ dv, ℓ ∈ gd AB.1 AB.2) (two : 2 ≤ ells.length)
    (hr : NoRepeats dv) (hpos : ∀ ℓ ∈ ells, 0 < 2 * ℓ + 1)
    (hpd : ∀ ℓ ∈ ells, (joint nb δ dv ℓ).PosDef) :
    Ready cosmo nuis delta D dv nb g δ gd d ells :=
  ⟨spectra, nonempty, available, free, derivs, sorted, common, commonD, two,
    fun ℓ hℓ => covariance_det_ne hr (hpos ℓ hℓ) (hpd ℓ hℓ)⟩

/-- C16. The Fisher matrix of a data vector of several correlations, with the tables stored by the
runs of its auto-correlations, is symmetric and has a nonnegative quadratic form if the spectra
between the bins are positive definite. -/
theorem fisher_total_nonneg {cosmo : List N} {nuis : P → List N} {delta : Store P ℝ}
    {D : N → Option (Store P ℝ)} {dv : List (P × P)} {nb : P → Nat} {g : P → P → List ℝ}
    {δ : P → P → ℝ → Nat → Nat → ℝ} {gd : P → P → List ℝ} {d : N → P → P → ℝ → Nat → Nat → ℝ}
    {ells : List ℝ} (R : Ready cosmo nuis delta D dv nb g δ gd d ells) {order : List P}
    (ho : IsOrder order dv) {eA : P → List ℝ}
    (hR : ∀ p, (p, p) ∈ dv → Ready cosmo nuis delta D [(p, p)] nb g δ gd d (eA p))
    {A : List (P × FEll N ℝ)}
    (hA : ∀ p, (p, p) ∈ dv → ∃ F fe, computeFisher cosmo nuis delta D [(p, p)] [p] none = .ok (F, fe) ∧
      A.lookup p = some fe) (hr : NoRepeats dv)
    (hpos : ∀ ℓ ∈ ells, 0 < 2 * ℓ + 1 ∧ (joint nb δ dv ℓ).PosDef)
    (hposA : ∀ p, (p, p) ∈ dv → ∀ ℓ ∈ eA p, 0 < 2 * ℓ + 1 ∧ (joint nb δ [(p, p)] ℓ).PosDef)
    {F : Fisher.DF N ℝ} {fe : FEll N ℝ}
    (h : computeFisher cosmo nuis delta D dv order (some A) = .ok (F, fe)) :
    (∀ a ∈ F.rows, ∀ b ∈ F.rows, F.val a b = F.val b a) ∧
    ∀ v : N → ℝ, 0 ≤ ∑ a ∈ F.rows.toFinset, ∑ b ∈ F.rows.toFinset, v a * v b * F.val a b := by
  have hT : Tables A dv (freeParams cosmo nuis dv).toFinset eA
      (fun p => (freeParams cosmo nuis [(p, p)]).toFinset)
      (fun p ℓ => fisherSpec nb δ d [(p, p)] ℓ) := tables_of_runs hR hA
  refine ⟨fisher_symmetric R ho hT (fun p ℓ a b => fisherSpec_symm R.spectra.symm d _ ℓ a b) h,
    fisher_nonneg R ho hT ?_ ?_ h⟩
  · intro ℓ hℓ y
    have := (covariance_posDef hr (hpos ℓ hℓ).1 (hpos ℓ hℓ).2).posSemidef.dotProduct_mulVec_nonneg y
    simpa using this
  · intro p hp ℓ hℓ v
    refine fisherSpec_nonneg R.spectra.symm d _ ℓ ((hR p hp).regular ℓ hℓ) ?_ _ v
    intro y
    have := (covariance_posDef (dv := [(p, p)]) ⟨by simp, by simp⟩ (hposA p hp ℓ hℓ).1
      (hposA p hp ℓ hℓ).2).posSemidef.dotProduct_mulVec_nonneg y
    simpa using this

/-- Unit spectra of two probes: the hypotheses of `covariance_posDef` hold. -/
example : (covAt (fun _ : Bool => 2) (fun a b _ i j => if a = b ∧ i = j then 1 else 0)
    [(true, true), (true, false)] (10 : ℝ)).PosDef := by
  apply covariance_posDef
  · exact ⟨by decide, by decide⟩
  · norm_num
  · have : joint (fun _ : Bool => 2) (fun a b _ i j => if a = b ∧ i = j then 1 else 0)
        [(true, true), (true, false)] (10 : ℝ) = 1 := by
      ext x y
      simp only [joint, Matrix.of_apply, Matrix.one_apply]
      by_cases h : x = y
      · simp [h]
      · rw [if_neg h, if_neg]
        exact fun e => h (Subtype.ext (Prod.ext e.1 e.2))
    rw [this]
    exact Matrix.PosDef.one

end Seyfert.Cov
