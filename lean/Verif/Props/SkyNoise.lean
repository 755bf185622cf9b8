import Verif.Props.Information
import Verif.Props.InformationLoss
import Verif.Props.DeltaCl

/-!
C157: what the fraction of the sky and the shot noise do to Fisher matrices and reported errors. Real spectra; `sq` is the
square root.
-/

set_option linter.unusedSectionVars false

namespace Seyfert.Cov

open Fisher hiding Err
open Matrix
open scoped Kronecker

variable {P N : Type} [DecidableEq P] [LinearOrder N]

/-! ### Specification -/

/-- The spectra `C` with their shot noise, normalised for a fraction `f` of the sky and widths `w` of multipoles: what a
block holds after its evaluation (`evaluate_spec`). -/
noncomputable def normalised (w : P → P → ℝ → ℝ) (f : ℝ) (C : P → P → ℝ → Nat → Nat → ℝ) (cfg : NoiseCfg P ℝ) (a b : P)
    (ℓ : ℝ) (i j : Nat) : ℝ :=
  Real.sqrt (1 / (w a b ℓ * f)) * (C a b ℓ i j + noiseSpec cfg a b i j)

/-- No bin of the probes has less shot noise with `cfg'` than with `cfg`. -/
def Noisier (probes : List P) (nb : P → Nat) (cfg cfg' : NoiseCfg P ℝ) : Prop :=
  ∀ p ∈ probes, ∀ i < nb p, noiseSpec cfg p p i i ≤ noiseSpec cfg' p p i i

/-! ### The covariance grows with the spectra -/

/-- The covariance as a part of a Kronecker square. -/
theorem cov_lift (nb : P → Nat) (dv : List (P × P)) (x : Fin (layout nb dv).length → ℝ) :
    ∃ s : (bins nb dv × bins nb dv) → ℝ, ∀ (δ : P → P → ℝ → Nat → Nat → ℝ) (ℓ : ℝ), 0 < 2 * ℓ + 1 →
      dotProduct s (mulVec (joint nb δ dv ℓ ⊗ₖ joint nb δ dv ℓ) s)
        = 2 * (2 * ℓ + 1) * dotProduct x (mulVec (covAt nb δ dv ℓ) x) := by
  let a : Fin (layout nb dv).length → bins nb dv := fun R => ⟨((layout nb dv).get R).1, (layout_bins (List.get_mem _ R)).1⟩
  let b : Fin (layout nb dv).length → bins nb dv := fun R => ⟨((layout nb dv).get R).2, (layout_bins (List.get_mem _ R)).2⟩
  let e : Fin (layout nb dv).length → (bins nb dv × bins nb dv) → ℝ := fun R =>
    Pi.single (a R, b R) 1 + Pi.single (b R, a R) 1
  refine ⟨∑ R, x R • e R, fun δ ℓ hℓ => ?_⟩
  set D := joint nb δ dv ℓ with hD
  have hcov : ∀ R S, covAt nb δ dv ℓ R S
      = (D (a R) (a S) * D (b R) (b S) + D (a R) (b S) * D (b R) (a S)) / (2 * ℓ + 1) := fun R S => rfl
  have hbil : ∀ R S, dotProduct (e R) (mulVec (D ⊗ₖ D) (e S))
      = 2 * (D (a R) (a S) * D (b R) (b S) + D (a R) (b S) * D (b R) (a S)) := by
    intro R S
    simp only [e, mulVec_add, dotProduct_add, add_dotProduct, single_dotProduct, one_mul,
      mulVec_single, MulOpposite.op_one, one_smul, col_apply, kroneckerMap_apply]
    ring
  have h1 : dotProduct (∑ R, x R • e R) (mulVec (D ⊗ₖ D) (∑ R, x R • e R)) = ∑ R, ∑ S, x R * x S *
      (2 * (D (a R) (a S) * D (b R) (b S) + D (a R) (b S) * D (b R) (a S))) := by
    rw [sum_dotProduct]
    refine Finset.sum_congr rfl (fun R _ => ?_)
    rw [mulVec_sum, dotProduct_sum]
    refine Finset.sum_congr rfl (fun S _ => ?_)
    rw [mulVec_smul, dotProduct_smul, smul_dotProduct, hbil, smul_eq_mul, smul_eq_mul]
    ring
  rw [h1]
  simp only [dotProduct, mulVec, Finset.mul_sum]
  refine Finset.sum_congr rfl (fun R _ => Finset.sum_congr rfl (fun S _ => ?_))
  rw [hcov]
  field_simp

/-- Larger spectra, larger covariance. -/
theorem cov_mono {nb : P → Nat} {δ δ' : P → P → ℝ → Nat → Nat → ℝ} {dv : List (P × P)} {ℓ : ℝ} (hℓ : 0 < 2 * ℓ + 1)
    (h : (joint nb δ dv ℓ).PosDef) (h' : (joint nb δ' dv ℓ).PosDef)
    (hE : (joint nb δ' dv ℓ - joint nb δ dv ℓ).PosSemidef) (x : Fin (layout nb dv).length → ℝ) :
    dotProduct x (mulVec (covAt nb δ dv ℓ) x) ≤ dotProduct x (mulVec (covAt nb δ' dv ℓ) x) := by
  obtain ⟨s, hs⟩ := cov_lift nb dv x
  have k1 := hs δ ℓ hℓ
  have k2 := hs δ' ℓ hℓ
  have p1 := (hE.kronecker h'.posSemidef).dotProduct_mulVec_nonneg s
  have p2 := (h.posSemidef.kronecker hE).dotProduct_mulVec_nonneg s
  rw [star_trivial] at p1 p2
  set X := joint nb δ dv ℓ
  set Y := joint nb δ' dv ℓ
  have hk : Y ⊗ₖ Y = X ⊗ₖ X + ((Y - X) ⊗ₖ Y + X ⊗ₖ (Y - X)) := by
    ext i j
    simp only [Matrix.add_apply, kroneckerMap_apply, Matrix.sub_apply]
    ring
  rw [hk, add_mulVec, add_mulVec, dotProduct_add, dotProduct_add, k1] at k2
  have : 2 * (2 * ℓ + 1) * dotProduct x (mulVec (covAt nb δ dv ℓ) x)
      ≤ 2 * (2 * ℓ + 1) * dotProduct x (mulVec (covAt nb δ' dv ℓ) x) := by linarith
  exact le_of_mul_le_mul_left this (by positivity)

/-- A larger covariance, less information. -/
theorem info_antitone {n : Type} [Fintype n] [DecidableEq n] {M M' : Matrix n n ℝ} (hM : M.PosDef) (hM' : M'.PosDef)
    (h : ∀ x, dotProduct x (mulVec M x) ≤ dotProduct x (mulVec M' x)) (u : n → ℝ) :
    dotProduct u (mulVec M'⁻¹ u) ≤ dotProduct u (mulVec M⁻¹ u) := by
  have hu : IsUnit M'.det := isUnit_iff_ne_zero.mpr hM'.det_pos.ne'
  set y := mulVec M'⁻¹ u with hy
  have hMy : mulVec M' y = u := by rw [hy, mulVec_mulVec, mul_nonsing_inv _ hu, one_mulVec]
  have h1 := info_variational hM u y
  have h2 := h y
  rw [hMy, dotProduct_comm y u] at h2
  linarith

section
variable {probes : List P} {cosmo : List N} {nuis : P → List N} {delta delta' : Store P ℝ} {D : N → Option (Store P ℝ)}
  {nb : P → Nat} {e : P → List ℝ} {g : P → P → List ℝ} {δ δ' : P → P → ℝ → Nat → Nat → ℝ}
  {d : N → P → P → ℝ → Nat → Nat → ℝ}

theorem quad_less (S : Survey probes cosmo nuis delta D nb e g δ d) (S' : Survey probes cosmo nuis delta' D nb e g δ' d)
    (hE : ∀ dv : List (P × P), (∀ x ∈ probesOf dv, x ∈ probes) → ∀ ℓ, (∀ x ∈ probesOf dv, ℓ ∈ e x) →
      (joint nb δ' dv ℓ - joint nb δ dv ℓ).PosSemidef)
    {dv : List (P × P)} (hdv : Over probes dv) {ℓ : ℝ} (hℓ : ∀ x ∈ probesOf dv, ℓ ∈ e x) (T : Finset N) (v : N → ℝ) :
    quadForm T v (fisherSpec nb δ' d dv ℓ) ≤ quadForm T v (fisherSpec nb δ d dv ℓ) := by
  rw [quad_fisher, quad_fisher]
  obtain ⟨AB, h⟩ := List.exists_mem_of_ne_nil _ hdv.nonempty
  have hpos := S.positive _ (hdv.probes _ (fst_mem_probes h)) ℓ (hℓ _ (fst_mem_probes h))
  exact info_antitone (S.cov_posDef hdv hℓ) (S'.cov_posDef hdv hℓ)
    (cov_mono hpos (S.posDef dv hdv.probes ℓ hℓ) (S'.posDef dv hdv.probes ℓ hℓ) (hE dv hdv.probes ℓ hℓ)) _

/-- C157. If the spectra of one survey exceed those of the other by a positive semidefinite matrix, then every data vector
has at most as much information in every direction of the parameters. -/
theorem larger_spectra (S : Survey probes cosmo nuis delta D nb e g δ d)
    (S' : Survey probes cosmo nuis delta' D nb e g δ' d)
    (hE : ∀ dv : List (P × P), (∀ x ∈ probesOf dv, x ∈ probes) → ∀ ℓ, (∀ x ∈ probesOf dv, ℓ ∈ e x) →
      (joint nb δ' dv ℓ - joint nb δ dv ℓ).PosSemidef)
    {dv : List (P × P)} (hdv : Over probes dv) {order : List P} (ho : IsOrder order dv) {A A' : List (P × FEll N ℝ)}
    (hA : RunTables cosmo nuis delta D dv A) (hA' : RunTables cosmo nuis delta' D dv A') :
    ∃ F fe F' fe', computeFisher cosmo nuis delta D dv order (some A) = .ok (F, fe) ∧
      computeFisher cosmo nuis delta' D dv order (some A') = .ok (F', fe') ∧ F'.rows = F.rows ∧
      ∀ v : N → ℝ, quadForm F'.rows.toFinset v F'.val ≤ quadForm F.rows.toFinset v F.val := by
  obtain ⟨F, fe, h1, h2, h3, h4, h5⟩ := survey_fisher S hdv ho hA
  obtain ⟨F', fe', h1', h2', h3', h4', h5'⟩ := survey_fisher S' hdv ho hA'
  have hrows : F'.rows = F.rows := sorted_ext h3' h3 fun a => by rw [h2, h2']
  refine ⟨F, fe, F', fe', h1, h1', hrows, fun v => ?_⟩
  have own_sub : ∀ p, (p, p) ∈ dv → own cosmo nuis p ⊆ F.rows.toFinset := by
    intro p hp a ha
    rw [List.mem_toFinset, h2]
    rcases mem_own.mp ha with hc | hc
    · exact Or.inl hc
    · exact Or.inr ⟨p, fst_mem_probes hp, hc⟩
  rw [hrows] at h5' ⊢
  rw [quadForm_congr v fun a ha b hb => h5 a (List.mem_toFinset.mp ha) b (List.mem_toFinset.mp hb),
    quadForm_congr v fun a ha b hb => h5' a (List.mem_toFinset.mp ha) b (List.mem_toFinset.mp hb),
    quad_total _ v own_sub, quad_total _ v own_sub]
  refine add_le_add (Finset.sum_le_sum fun ℓ hℓ => ?_) (Finset.sum_le_sum fun p hp => Finset.sum_le_sum fun ℓ hℓ => ?_)
  · exact quad_less S S' hE hdv ((mem_commonOf hdv.nonempty).mp (List.mem_toFinset.mp hℓ)) _ v
  · refine quad_less S S' hE (over_auto hdv (mem_autoProbes.mp (List.mem_toFinset.mp hp))) ?_ _ v
    intro x hx
    have : x = p := by simpa [probesOf] using hx
    rw [this]
    exact List.mem_toFinset.mp (Finset.mem_sdiff.mp hℓ).1

theorem fm_rows {dv : List (P × P)} {nm : Str} {X : DF N ℝ} (hX : PD (fisherMatrixOf cosmo nuis dv nm X)) :
    (fisherMatrixOf cosmo nuis dv nm X).cosmo ∪ (fisherMatrixOf cosmo nuis dv nm X).nuis = X.rows.toFinset := by
  ext a
  rw [List.mem_toFinset]
  exact (hX.1.mem a).symm

/-- C157. Then no reported error is smaller, and the figure of merit is not larger. -/
theorem larger_spectra_errors (S : Survey probes cosmo nuis delta D nb e g δ d)
    (S' : Survey probes cosmo nuis delta' D nb e g δ' d)
    (hE : ∀ dv : List (P × P), (∀ x ∈ probesOf dv, x ∈ probes) → ∀ ℓ, (∀ x ∈ probesOf dv, ℓ ∈ e x) →
      (joint nb δ' dv ℓ - joint nb δ dv ℓ).PosSemidef)
    {dv : List (P × P)} (hdv : Over probes dv) {order : List P} (ho : IsOrder order dv) {A A' : List (P × FEll N ℝ)}
    (hA : RunTables cosmo nuis delta D dv A) (hA' : RunTables cosmo nuis delta' D dv A')
    {en : Finset N → List N} (hen : Iteration en) {w0 wa : N} (hw : w0 ≠ wa) (fom oc : Bool) (name : Str) :
    ∃ F fe F' fe', computeFisher cosmo nuis delta D dv order (some A) = .ok (F, fe) ∧
      computeFisher cosmo nuis delta' D dv order (some A') = .ok (F', fe') ∧
      (PD (fisherMatrixOf cosmo nuis dv name F) → PD (fisherMatrixOf cosmo nuis dv name F') → ∃ G G' out out',
        (fisherMatrixOf cosmo nuis dv name F).margErrors en Real.sqrt w0 wa fom oc = (G, .ok out) ∧
        (fisherMatrixOf cosmo nuis dv name F').margErrors en Real.sqrt w0 wa fom oc = (G', .ok out') ∧
        Better out out') := by
  obtain ⟨F, fe, F', fe', h1, h1', hrows, hq⟩ := larger_spectra S S' hE hdv ho hA hA'
  refine ⟨F, fe, F', fe', h1, h1', fun hP hP' => ?_⟩
  obtain ⟨G, out, e1, e2⟩ := errors_of_new hen hw fom oc hP rfl
  obtain ⟨G', out', e1', e2'⟩ := errors_of_new hen hw fom oc hP' rfl
  refine ⟨G, G', out, out', e1, e1', ?_⟩
  have r := fm_rows hP
  have r' := fm_rows hP'
  refine better_of hw hP'.2 hP.2 ?_ ?_ e2' e2 ?_
  · split
    · exact Finset.subset_union_left
    · exact Finset.Subset.refl _
  · split
    · exact Finset.subset_union_left
    · exact Finset.Subset.refl _
  · intro c _ x
    refine ⟨x, ?_, ?_⟩
    · rw [r, r', quad_quadForm, quad_quadForm]
      exact hq x
    · rw [r, r', hrows]

/-- More shot noise adds a positive semidefinite matrix. -/
theorem noise_semidef {w : P → P → ℝ → ℝ} {f : ℝ} {C : P → P → ℝ → Nat → Nat → ℝ} {cfg cfg' : NoiseCfg P ℝ}
    (hn : Noisier probes nb cfg cfg') {dv : List (P × P)} (hdv : ∀ x ∈ probesOf dv, x ∈ probes) (ℓ : ℝ) :
    (joint nb (normalised w f C cfg') dv ℓ - joint nb (normalised w f C cfg) dv ℓ).PosSemidef := by
  have hd : joint nb (normalised w f C cfg') dv ℓ - joint nb (normalised w f C cfg) dv ℓ =
      Matrix.diagonal fun x : bins nb dv => Real.sqrt (1 / (w x.1.1 x.1.1 ℓ * f)) *
        (noiseSpec cfg' x.1.1 x.1.1 x.1.2 x.1.2 - noiseSpec cfg x.1.1 x.1.1 x.1.2 x.1.2) := by
    ext x y
    simp only [joint, Matrix.sub_apply, of_apply, normalised]
    by_cases hxy : x = y
    · subst hxy
      rw [diagonal_apply_eq]
      ring
    · rw [diagonal_apply_ne _ hxy]
      have hne : ¬ (x.1.1 = y.1.1 ∧ x.1.2 = y.1.2) := fun h => hxy (Subtype.ext (Prod.ext h.1 h.2))
      unfold noiseSpec
      rw [if_neg hne, if_neg hne]
      ring
  rw [hd, posSemidef_diagonal_iff]
  intro x
  obtain ⟨h1, h2⟩ := mem_bins.mp x.2
  exact mul_nonneg (Real.sqrt_nonneg _) (sub_nonneg.mpr (hn _ (hdv _ h1) _ h2))

/-- C157. With more shot noise in any bins, and everything else the same, no data vector gives a smaller error or a larger
figure of merit. -/
theorem more_noise {w : P → P → ℝ → ℝ} {f : ℝ} {C : P → P → ℝ → Nat → Nat → ℝ} {cfg cfg' : NoiseCfg P ℝ}
    (S : Survey probes cosmo nuis delta D nb e g (normalised w f C cfg) d)
    (S' : Survey probes cosmo nuis delta' D nb e g (normalised w f C cfg') d) (hn : Noisier probes nb cfg cfg')
    {dv : List (P × P)} (hdv : Over probes dv) {order : List P} (ho : IsOrder order dv) {A A' : List (P × FEll N ℝ)}
    (hA : RunTables cosmo nuis delta D dv A) (hA' : RunTables cosmo nuis delta' D dv A')
    {en : Finset N → List N} (hen : Iteration en) {w0 wa : N} (hw : w0 ≠ wa) (fom oc : Bool) (name : Str) :
    ∃ F fe F' fe', computeFisher cosmo nuis delta D dv order (some A) = .ok (F, fe) ∧
      computeFisher cosmo nuis delta' D dv order (some A') = .ok (F', fe') ∧
      (PD (fisherMatrixOf cosmo nuis dv name F) → PD (fisherMatrixOf cosmo nuis dv name F') → ∃ G G' out out',
        (fisherMatrixOf cosmo nuis dv name F).margErrors en Real.sqrt w0 wa fom oc = (G, .ok out) ∧
        (fisherMatrixOf cosmo nuis dv name F').margErrors en Real.sqrt w0 wa fom oc = (G', .ok out') ∧
        Better out out') :=
  larger_spectra_errors S S' (fun _ hp ℓ _ => noise_semidef hn hp ℓ) hdv ho hA hA' hen hw fom oc name

/-! ### The fraction of the sky -/

theorem normalised_sky {w : P → P → ℝ → ℝ} {f f' : ℝ} (hf : 0 < f) (hf' : 0 < f') (C : P → P → ℝ → Nat → Nat → ℝ)
    (cfg : NoiseCfg P ℝ) (a b : P) (ℓ : ℝ) (i j : Nat) :
    normalised w f' C cfg a b ℓ i j = Real.sqrt (f / f') * normalised w f C cfg a b ℓ i j := by
  unfold normalised
  rw [← mul_assoc, ← Real.sqrt_mul (div_nonneg hf.le hf'.le)]
  congr 2
  by_cases h : w a b ℓ = 0
  · simp [h]
  · field_simp

theorem fisherSpec_sky {w : P → P → ℝ → ℝ} {f f' : ℝ} (hf : 0 < f) (hf' : 0 < f') (C : P → P → ℝ → Nat → Nat → ℝ)
    (cfg : NoiseCfg P ℝ) (dv : List (P × P)) (ℓ : ℝ) (hdet : (covAt nb (normalised w f C cfg) dv ℓ).det ≠ 0) (a b : N) :
    fisherSpec nb (normalised w f' C cfg) d dv ℓ a b = f' / f * fisherSpec nb (normalised w f C cfg) d dv ℓ a b := by
  have hc : covAt nb (normalised w f' C cfg) dv ℓ = (f / f') • covAt nb (normalised w f C cfg) dv ℓ := by
    ext R S
    have hs := Real.mul_self_sqrt (div_nonneg hf.le hf'.le)
    simp only [covAt, covSpec, of_apply, Matrix.smul_apply, smul_eq_mul, normalised_sky hf hf']
    generalize Real.sqrt (f / f') = t at hs ⊢
    rw [← hs]
    ring
  have hk : f / f' ≠ 0 := (div_pos hf hf').ne'
  have hinv : (covAt nb (normalised w f' C cfg) dv ℓ)⁻¹ = (f' / f) • (covAt nb (normalised w f C cfg) dv ℓ)⁻¹ := by
    rw [hc]
    refine inv_eq_right_inv ?_
    rw [smul_mul_smul_comm, mul_nonsing_inv _ (isUnit_iff_ne_zero.mpr hdet)]
    rw [show f / f' * (f' / f) = 1 by field_simp, one_smul]
  unfold fisherSpec
  rw [hinv, smul_mulVec, dotProduct_smul, smul_eq_mul]

/-- C157. The Fisher matrix of every data vector is proportional to the fraction of the sky. -/
theorem sky_fraction {w : P → P → ℝ → ℝ} {f f' : ℝ} (hf : 0 < f) (hf' : 0 < f') {C : P → P → ℝ → Nat → Nat → ℝ}
    {cfg : NoiseCfg P ℝ} (S : Survey probes cosmo nuis delta D nb e g (normalised w f C cfg) d)
    (S' : Survey probes cosmo nuis delta' D nb e g (normalised w f' C cfg) d)
    {dv : List (P × P)} (hdv : Over probes dv) {order : List P} (ho : IsOrder order dv) {A A' : List (P × FEll N ℝ)}
    (hA : RunTables cosmo nuis delta D dv A) (hA' : RunTables cosmo nuis delta' D dv A') :
    ∃ F fe F' fe', computeFisher cosmo nuis delta D dv order (some A) = .ok (F, fe) ∧
      computeFisher cosmo nuis delta' D dv order (some A') = .ok (F', fe') ∧ F'.rows = F.rows ∧ F'.cols = F.cols ∧
      ∀ a ∈ F.rows, ∀ b ∈ F.rows, F'.val a b = f' / f * F.val a b := by
  obtain ⟨F, fe, h1, h2, h3, h4, h5⟩ := survey_fisher S hdv ho hA
  obtain ⟨F', fe', h1', h2', h3', h4', h5'⟩ := survey_fisher S' hdv ho hA'
  have hrows : F'.rows = F.rows := sorted_ext h3' h3 fun a => by rw [h2, h2']
  refine ⟨F, fe, F', fe', h1, h1', hrows, by rw [h4, h4', hrows], fun a ha b hb => ?_⟩
  rw [h5 a ha b hb, h5' a (hrows ▸ ha) b (hrows ▸ hb)]
  unfold totalInfo
  rw [mul_add, Finset.mul_sum, Finset.mul_sum]
  congr 1
  · refine Finset.sum_congr rfl fun ℓ hℓ => fisherSpec_sky hf hf' C cfg dv ℓ ?_ a b
    exact (S.cov_posDef hdv ((mem_commonOf hdv.nonempty).mp (List.mem_toFinset.mp hℓ))).det_pos.ne'
  · refine Finset.sum_congr rfl fun p hp => ?_
    rw [Finset.mul_sum]
    refine Finset.sum_congr rfl fun ℓ hℓ => ?_
    split
    · refine fisherSpec_sky hf hf' C cfg _ ℓ ?_ a b
      refine (S.cov_posDef (over_auto hdv (mem_autoProbes.mp (List.mem_toFinset.mp hp))) ?_).det_pos.ne'
      intro x hx
      have : x = p := by simpa [probesOf] using hx
      rw [this]
      exact List.mem_toFinset.mp (Finset.mem_sdiff.mp hℓ).1
    · rw [mul_zero]

/-- Errors of a matrix times a number. -/
theorem errors_scaled {w0 wa : N} {fom : Bool} {T R : Finset N} {v v' : N → N → ℝ} {k : ℝ} (hk : 0 < k)
    (hR : R ⊆ T) (hv : ∀ a ∈ T, ∀ b ∈ T, v' a b = k * v a b) {out out' : List (N × ℝ) × Option ℝ}
    (h : ErrorsOf Real.sqrt w0 wa T R fom v out) (h' : ErrorsOf Real.sqrt w0 wa T R fom v' out') :
    (∀ p s s', (p, s) ∈ out.1 → (p, s') ∈ out'.1 → s' = s / Real.sqrt k) ∧
      out'.1.map Prod.fst = out.1.map Prod.fst ∧ out'.2 = out.2.map (k * ·) := by
  obtain ⟨V, hV, o1, d1, e1, f1⟩ := h
  obtain ⟨W, hW, o2, d2, e2, f2⟩ := h'
  have hVW : Inverse T v' fun a b => k⁻¹ * V a b := by
    have h1 : block T v' = k • block T v := by
      ext a b
      exact hv a a.2 b b.2
    have h2 : (block T fun a b => k⁻¹ * V a b) = k⁻¹ • block T V := by
      ext a b
      rfl
    unfold Inverse
    rw [h1, h2, smul_mul_smul_comm, hV, mul_inv_cancel₀ hk.ne', one_smul]
  have hu : ∀ a ∈ T, ∀ b ∈ T, W a b = k⁻¹ * V a b := fun a ha b hb => Inverse.unique hW hVW a ha b hb
  refine ⟨?_, sorted_ext o2 o1 fun a => by rw [d1, d2], ?_⟩
  · intro p s s' hs hs'
    have hp : p ∈ T := hR ((d1 p).mp (List.mem_map.mpr ⟨_, hs, rfl⟩))
    have q1 := e1 _ hs
    have q2 := e2 _ hs'
    simp only at q1 q2
    rw [q1, q2, hu p hp p hp, Real.sqrt_mul (inv_nonneg.mpr hk.le), Real.sqrt_inv]
    rw [div_eq_mul_inv, mul_comm]
  · rw [f1, f2]
    split
    · rename_i hc
      rw [hu _ hc.2.1 _ hc.2.1, hu _ hc.2.2 _ hc.2.2, hu _ hc.2.1 _ hc.2.2, hu _ hc.2.2 _ hc.2.1]
      rw [Option.map_some, show k⁻¹ * V w0 w0 * (k⁻¹ * V wa wa) - k⁻¹ * V w0 wa * (k⁻¹ * V wa w0)
        = (k⁻¹ * k⁻¹) * (V w0 w0 * V wa wa - V w0 wa * V wa w0) by ring, Real.sqrt_mul (by positivity),
        Real.sqrt_mul_self (inv_nonneg.mpr hk.le)]
      congr 1
      rw [one_div, mul_inv, inv_inv, one_div]
    · rfl

/-- C157. Reported errors are inversely proportional to the square root of the fraction of the sky, and the figure of merit
is proportional to it. -/
theorem sky_errors {w : P → P → ℝ → ℝ} {f f' : ℝ} (hf : 0 < f) (hf' : 0 < f') {C : P → P → ℝ → Nat → Nat → ℝ}
    {cfg : NoiseCfg P ℝ} (S : Survey probes cosmo nuis delta D nb e g (normalised w f C cfg) d)
    (S' : Survey probes cosmo nuis delta' D nb e g (normalised w f' C cfg) d)
    {dv : List (P × P)} (hdv : Over probes dv) {order : List P} (ho : IsOrder order dv) {A A' : List (P × FEll N ℝ)}
    (hA : RunTables cosmo nuis delta D dv A) (hA' : RunTables cosmo nuis delta' D dv A')
    {en : Finset N → List N} (hen : Iteration en) {w0 wa : N} (hw : w0 ≠ wa) (fom oc : Bool) (name : Str) :
    ∃ F fe F' fe', computeFisher cosmo nuis delta D dv order (some A) = .ok (F, fe) ∧
      computeFisher cosmo nuis delta' D dv order (some A') = .ok (F', fe') ∧
      (PD (fisherMatrixOf cosmo nuis dv name F) → ∃ G G' out out',
        (fisherMatrixOf cosmo nuis dv name F).margErrors en Real.sqrt w0 wa fom oc = (G, .ok out) ∧
        (fisherMatrixOf cosmo nuis dv name F').margErrors en Real.sqrt w0 wa fom oc = (G', .ok out') ∧
        (∀ p s s', (p, s) ∈ out.1 → (p, s') ∈ out'.1 → s' = s / Real.sqrt (f' / f)) ∧
        out'.1.map Prod.fst = out.1.map Prod.fst ∧ out'.2 = out.2.map (f' / f * ·)) := by
  obtain ⟨F, fe, F', fe', h1, h1', hrows, hcols, hval⟩ := sky_fraction hf hf' S S' hdv ho hA hA'
  refine ⟨F, fe, F', fe', h1, h1', fun hP => ?_⟩
  have hk : 0 < f' / f := div_pos hf' hf
  have r := fm_rows hP
  have hscale : ∀ a ∈ F.rows.toFinset, ∀ b ∈ F.rows.toFinset, F'.val a b = f' / f * F.val a b :=
    fun a ha b hb => hval a (List.mem_toFinset.mp ha) b (List.mem_toFinset.mp hb)
  have hP' : PD (fisherMatrixOf cosmo nuis dv name F') := by
    refine ⟨⟨?_, ?_, ?_⟩, ?_⟩
    · show F'.cols = F'.rows
      rw [hcols, hrows]
      exact hP.1.same
    · show F'.rows.Nodup
      rw [hrows]
      exact hP.1.nodup
    · intro a
      show a ∈ F'.rows ↔ _
      rw [hrows]
      exact hP.1.mem a
    · have hb : block ((fisherMatrixOf cosmo nuis dv name F').cosmo ∪ (fisherMatrixOf cosmo nuis dv name F').nuis) F'.val
          = (f' / f) • block ((fisherMatrixOf cosmo nuis dv name F).cosmo ∪ (fisherMatrixOf cosmo nuis dv name F).nuis)
            F.val := by
        ext a b
        refine hscale a ?_ b ?_
        · rw [← r]; exact a.2
        · rw [← r]; exact b.2
      exact hb ▸ hP.2.smul hk
  obtain ⟨G, out, e1, e2⟩ := errors_of_new hen hw fom oc hP rfl
  obtain ⟨G', out', e1', e2'⟩ := errors_of_new hen hw fom oc hP' rfl
  refine ⟨G, G', out, out', e1, e1', errors_scaled (T := (fisherMatrixOf cosmo nuis dv name F).cosmo ∪
    (fisherMatrixOf cosmo nuis dv name F).nuis) hk ?_ ?_ e2 e2'⟩
  · split
    · exact Finset.subset_union_left
    · exact Finset.Subset.refl _
  · intro a ha b hb
    rw [r] at ha hb
    exact hscale a ha b hb

end

/-! ### Example -/

/-- Noise `n` in the single bin of each of three probes. -/
def nCfg (n : ℝ) : NoiseCfg (Fin 3) ℝ := ⟨fun _ => [n], 2, false, 1, 1⟩

noncomputable def nSpec (f n : ℝ) : Fin 3 → Fin 3 → ℝ → Nat → Nat → ℝ :=
  normalised (fun _ _ _ => 1) f (tSpec unitC) (nCfg n)

noncomputable def nStore (f n : ℝ) : Store (Fin 3) ℝ :=
  ((List.finRange 3).product (List.finRange 3)).map fun p => (p, fullBlock tNb tPair (nSpec f n) p.1 p.2)

theorem nStore_lookup (f n : ℝ) (p : Fin 3 × Fin 3) :
    (nStore f n).lookup p = some (fullBlock tNb tPair (nSpec f n) p.1 p.2) := by
  unfold nStore
  rw [lookup_keyed, if_pos]
  exact (List.pair_mem_product (x := p.1) (y := p.2)).mpr ⟨List.mem_finRange _, List.mem_finRange _⟩

theorem nSurvey {f n : ℝ} (hf : 0 < f) (hn : 0 ≤ n) :
    Survey (List.finRange 3) [0] tNuis (nStore f n) (fun _ => some (tStore crossD)) tNb tGrid tPair (nSpec f n)
      (fun _ => tSpec crossD) := by
  have T := tSurvey unitC_posDef crossD_symm
  refine ⟨⟨?_, ?_, T.spectra.gsymm, T.spectra.sorted⟩, T.grids, T.increasing, ?_, T.free, T.derivs, T.two, T.positive, ?_⟩
  · intro a b t h
    rw [nStore_lookup] at h
    exact (Option.some.inj h).symm
  · intro a b ℓ i j
    have h1 := T.spectra.symm a b ℓ i j
    have h2 : noiseSpec (nCfg n) a b i j = noiseSpec (nCfg n) b a j i := by
      unfold noiseSpec
      by_cases h : a = b ∧ i = j
      · obtain ⟨rfl, rfl⟩ := h
        rfl
      · rw [if_neg h, if_neg fun h' => h ⟨h'.1.symm, h'.2.symm⟩]
    show Real.sqrt _ * _ = Real.sqrt _ * _
    rw [h1, h2]
  · exact fun x _ y _ => Or.inl (by rw [nStore_lookup]; rfl)
  · intro dv _ ℓ _
    have h : joint tNb (nSpec f n) dv ℓ = (Real.sqrt (1 / (1 * f)) * (1 + n)) • (1 : Matrix (bins tNb dv) (bins tNb dv) ℝ) := by
      ext x y
      have hx := (mem_bins.mp x.2).2
      have hy := (mem_bins.mp y.2).2
      simp only [tNb, Nat.lt_one_iff] at hx hy
      rw [Matrix.smul_apply, Matrix.one_apply]
      show Real.sqrt (1 / (1 * f)) * (unitC x.1.1 y.1.1 + noiseSpec (nCfg n) x.1.1 y.1.1 x.1.2 y.1.2) = _
      by_cases hxy : x = y
      · subst hxy
        simp [unitC, noiseSpec, nCfg, hx]
      · have : x.1.1 ≠ y.1.1 := fun h => hxy (Subtype.ext (Prod.ext h (hx.trans hy.symm)))
        simp [unitC, noiseSpec, this, hxy]
    rw [h]
    exact PosDef.one.smul (mul_pos (Real.sqrt_pos.mpr (by positivity)) (by linarith))

theorem nTables {f n : ℝ} (hf : 0 < f) (hn : 0 ≤ n) : ∃ A : List (Fin 3 × FEll Nat ℝ), ∀ dv : List (Fin 3 × Fin 3),
    RunTables [0] tNuis (nStore f n) (fun _ => some (tStore crossD)) dv A := by
  have h : ∀ p : Fin 3, ∃ r : DF Nat ℝ × FEll Nat ℝ,
      computeFisher [0] tNuis (nStore f n) (fun _ => some (tStore crossD)) [(p, p)] [p] none = .ok r := by
    intro p
    obtain ⟨F, fe, h⟩ := survey_auto (nSurvey hf hn) (List.mem_finRange p) [p] none
    exact ⟨(F, fe), h⟩
  choose r hr using h
  refine ⟨(List.finRange 3).map fun p => (p, (r p).2), fun dv p _ => ⟨(r p).1, (r p).2, hr p, ?_⟩⟩
  rw [lookup_keyed, if_pos (List.mem_finRange p)]

/-- Twice the sky: twice the Fisher matrix. -/
example : ∃ F F' : DF Nat ℝ, ∃ fe fe' A A',
    computeFisher [0] tNuis (nStore (1 / 4) 1) (fun _ => some (tStore crossD)) threeCorr [0, 1] (some A) = .ok (F, fe) ∧
    computeFisher [0] tNuis (nStore (1 / 2) 1) (fun _ => some (tStore crossD)) threeCorr [0, 1] (some A') = .ok (F', fe') ∧
    ∀ a ∈ F.rows, ∀ b ∈ F.rows, F'.val a b = 2 * F.val a b := by
  obtain ⟨A, hA⟩ := nTables (f := 1 / 4) (n := 1) (by norm_num) (by norm_num)
  obtain ⟨A', hA'⟩ := nTables (f := 1 / 2) (n := 1) (by norm_num) (by norm_num)
  obtain ⟨F, fe, F', fe', h1, h2, _, _, h3⟩ := sky_fraction (by norm_num) (by norm_num)
    (nSurvey (f := 1 / 4) (n := 1) (by norm_num) (by norm_num)) (nSurvey (f := 1 / 2) (n := 1) (by norm_num) (by norm_num))
    (over3 (dv := threeCorr) (by decide) ⟨by decide, by decide⟩) (order := [0, 1]) ⟨by decide, by decide⟩ (hA _) (hA' _)
  refine ⟨F, F', fe, fe', A, A', h1, h2, fun a ha b hb => ?_⟩
  rw [h3 a ha b hb]
  norm_num

/-- Three times the noise: not more information. -/
example : ∃ F F' : DF Nat ℝ, ∃ fe fe' A A',
    computeFisher [0] tNuis (nStore (1 / 4) 1) (fun _ => some (tStore crossD)) threeCorr [0, 1] (some A) = .ok (F, fe) ∧
    computeFisher [0] tNuis (nStore (1 / 4) 3) (fun _ => some (tStore crossD)) threeCorr [0, 1] (some A') = .ok (F', fe') ∧
    ∀ v : Nat → ℝ, quadForm F'.rows.toFinset v F'.val ≤ quadForm F.rows.toFinset v F.val := by
  obtain ⟨A, hA⟩ := nTables (f := 1 / 4) (n := 1) (by norm_num) (by norm_num)
  obtain ⟨A', hA'⟩ := nTables (f := 1 / 4) (n := 3) (by norm_num) (by norm_num)
  have hn : Noisier (List.finRange 3) tNb (nCfg 1) (nCfg 3) := by
    intro p _ i hi
    simp only [tNb, Nat.lt_one_iff] at hi
    subst hi
    simp [noiseSpec, nCfg]
  obtain ⟨F, fe, F', fe', h1, h2, _, h3⟩ := larger_spectra
    (nSurvey (f := 1 / 4) (n := 1) (by norm_num) (by norm_num)) (nSurvey (f := 1 / 4) (n := 3) (by norm_num) (by norm_num))
    (fun _ hp ℓ _ => noise_semidef hn hp ℓ)
    (over3 (dv := threeCorr) (by decide) ⟨by decide, by decide⟩) (order := [0, 1]) ⟨by decide, by decide⟩ (hA _) (hA' _)
  exact ⟨F, F', fe, fe', A, A', h1, h2, h3⟩

end Seyfert.Cov
