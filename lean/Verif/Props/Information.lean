import Verif.Lemmas.Information
import Verif.Model.FisherCore
import Verif.Props.FisherOrder

/-!
The Fisher information of data vectors: what is computed from a complete set of spectra and derivatives (C123), that the
way the correlations are listed does not matter (C124), and when more correlations give more information (C125).
-/

set_option linter.unusedSectionVars false

namespace Seyfert.Cov

open Fisher hiding Err
open Matrix

variable {P N : Type} [DecidableEq P] [LinearOrder N]

theorem mem_probes_lists {dv : List (P × P)} {x : P} : x ∈ probesOf dv ↔ ∃ y, Lists dv x y := by
  rw [mem_probesOf]
  constructor
  · rintro ⟨⟨a, b⟩, h, h1 | h1⟩
    · exact ⟨b, Or.inl (by rw [h1]; exact h)⟩
    · exact ⟨a, Or.inr (by rw [h1]; exact h)⟩
  · rintro ⟨y, h | h⟩
    · exact ⟨_, h, Or.inl rfl⟩
    · exact ⟨_, h, Or.inr rfl⟩

theorem mem_commonOf {K : Type} [Field K] [LinearOrder K] {e : P → List K} {dv : List (P × P)} (hne : dv ≠ []) {ℓ : K} :
    ℓ ∈ commonOf e dv ↔ ∀ x ∈ probesOf dv, ℓ ∈ e x := by
  unfold commonOf
  cases h : probesOf dv with
  | nil =>
    cases dv with
    | nil => exact absurd rfl hne
    | cons AB l => simp [probesOf] at h
  | cons x xs => simp

theorem commonOf_sorted {K : Type} [Field K] [LinearOrder K] {e : P → List K} (he : ∀ x, (e x).Pairwise (· < ·))
    (dv : List (P × P)) : (commonOf e dv).Pairwise (· < ·) := by
  unfold commonOf
  split
  · exact List.Pairwise.nil
  · exact (he _).filter _

theorem two_le {K : Type} {l : List K} {a b : K} (hab : a ≠ b) (ha : a ∈ l) (hb : b ∈ l) : 2 ≤ l.length := by
  match l, ha, hb with
  | [c], ha, hb =>
    rw [List.mem_singleton] at ha hb
    exact absurd (ha.trans hb.symm) hab
  | c :: c' :: l, _, _ => simp

section
variable {probes : List P} {cosmo : List N} {nuis : P → List N} {delta : Store P ℝ} {D : N → Option (Store P ℝ)}
  {nb : P → Nat} {e : P → List ℝ} {g : P → P → List ℝ} {δ : P → P → ℝ → Nat → Nat → ℝ}
  {d : N → P → P → ℝ → Nat → Nat → ℝ}

theorem Survey.cov_posDef (S : Survey probes cosmo nuis delta D nb e g δ d) {dv : List (P × P)} (hdv : Over probes dv)
    {ℓ : ℝ} (hℓ : ∀ x ∈ probesOf dv, ℓ ∈ e x) : (covAt nb δ dv ℓ).PosDef := by
  refine covariance_posDef hdv.once ?_ (S.posDef dv hdv.probes ℓ hℓ)
  obtain ⟨AB, h⟩ := List.exists_mem_of_ne_nil _ hdv.nonempty
  exact S.positive _ (hdv.probes _ (fst_mem_probes h)) ℓ (hℓ _ (fst_mem_probes h))

theorem Survey.ready (S : Survey probes cosmo nuis delta D nb e g δ d) {dv : List (P × P)} (hdv : Over probes dv) :
    Ready cosmo nuis delta D dv nb g δ g d (commonOf e dv) where
  spectra := S.spectra
  nonempty := hdv.nonempty
  available := fun x hx y hy => S.stored x (hdv.probes x hx) y (hdv.probes y hy)
  free := by
    obtain ⟨a, ha⟩ := List.exists_mem_of_ne_nil _ S.free
    exact List.ne_nil_of_mem ((mem_freeParams cosmo nuis dv a).mpr (Or.inl ha))
  derivs := by
    intro a ha
    obtain ⟨s, h1, h2, h3⟩ := S.derivs a (by
      rcases (mem_freeParams cosmo nuis dv a).mp ha with h | ⟨p, hp, h⟩
      · exact Or.inl h
      · exact Or.inr ⟨p, hdv.probes p hp, h⟩)
    exact ⟨s, h1, h2, fun AB hAB => h3 _ (hdv.probes _ (fst_mem_probes hAB)) _ (hdv.probes _ (snd_mem_probes hAB))⟩
  sorted := commonOf_sorted S.increasing dv
  common := by
    intro ℓ
    rw [mem_commonOf hdv.nonempty]
    constructor
    · intro h x hx y hy
      exact (S.grids x y ℓ).mpr ⟨h x hx, h y hy⟩
    · intro h x hx
      exact ((S.grids x x ℓ).mp (h x hx x hx)).1
  commonD := by
    intro ℓ
    rw [mem_commonOf hdv.nonempty]
    constructor
    · intro h AB hAB
      exact (S.grids _ _ ℓ).mpr ⟨h _ (fst_mem_probes hAB), h _ (snd_mem_probes hAB)⟩
    · intro h x hx
      obtain ⟨AB, hAB, h1 | h1⟩ := mem_probesOf.mp hx
      · rw [h1]; exact ((S.grids _ _ ℓ).mp (h AB hAB)).1
      · rw [h1]; exact ((S.grids _ _ ℓ).mp (h AB hAB)).2
  two := by
    obtain ⟨l, l', hne, h⟩ := S.two
    exact two_le hne ((mem_commonOf hdv.nonempty).mpr fun x hx => (h x (hdv.probes x hx)).1)
      ((mem_commonOf hdv.nonempty).mpr fun x hx => (h x (hdv.probes x hx)).2)
  regular := fun ℓ hℓ => (S.cov_posDef hdv ((mem_commonOf hdv.nonempty).mp hℓ)).det_pos.ne'

theorem over_auto {dv : List (P × P)} (hdv : Over probes dv) {p : P} (hp : (p, p) ∈ dv) : Over probes [(p, p)] := by
  refine ⟨by simp, ?_, by simp, by simp⟩
  intro x hx
  obtain ⟨AB, hAB, h⟩ := mem_probesOf.mp hx
  rw [List.mem_singleton] at hAB
  subst hAB
  have : x = p := by tauto
  subst this
  exact hdv.probes _ (fst_mem_probes hp)

theorem commonOf_auto {K : Type} [Field K] [LinearOrder K] (e : P → List K) (p : P) : commonOf e [(p, p)] = e p := by
  show List.filter _ (e p) = e p
  rw [List.filter_eq_self]
  intro ℓ hℓ
  simpa using hℓ

theorem singleAuto_eq {dv : List (P × P)} (h : singleAuto dv = true) : ∃ p, dv = [(p, p)] := by
  unfold singleAuto at h
  split at h
  · rename_i AB
    exact ⟨AB.1, by rw [decide_eq_true_eq] at h; exact congrArg (fun x => [x]) (Prod.ext rfl h.symm)⟩
  · cases h

/-- C123. From a complete set of spectra and derivatives, the Fisher matrix of every data vector without repetitions is
computed. Its names are the free parameters, and its entries are the total information of the data vector. -/
theorem survey_fisher (S : Survey probes cosmo nuis delta D nb e g δ d) {dv : List (P × P)} (hdv : Over probes dv)
    {order : List P} (ho : IsOrder order dv) {A : List (P × FEll N ℝ)} (hA : RunTables cosmo nuis delta D dv A) :
    ∃ F fe, computeFisher cosmo nuis delta D dv order (some A) = .ok (F, fe) ∧
      (∀ a, a ∈ F.rows ↔ a ∈ cosmo ∨ ∃ p ∈ probesOf dv, a ∈ nuis p) ∧ F.rows.Pairwise (· < ·) ∧ F.cols = F.rows ∧
      ∀ a ∈ F.rows, ∀ b ∈ F.rows, F.val a b = totalInfo cosmo nuis nb e δ d dv a b := by
  have hR : ∀ p, (p, p) ∈ dv → Ready cosmo nuis delta D [(p, p)] nb g δ g d (e p) := fun p hp => by
    have := S.ready (over_auto hdv hp)
    rwa [commonOf_auto] at this
  obtain ⟨F, fe, h1, h2, h3, h4, h5⟩ := fisher_spec (S.ready hdv) ho (tables_of_runs hR hA)
  refine ⟨F, fe, h1, h2, h3, h4, ?_⟩
  intro a ha b hb
  rw [h5 a ha b hb]
  unfold totalInfo
  congr 1
  simp only [mem_freeAuto]
  split
  · rename_i hs
    obtain ⟨p, rfl⟩ := singleAuto_eq hs
    rw [commonOf_auto]
    refine (Finset.sum_eq_zero fun q hq => ?_).symm
    have : q = p := by simpa [autoProbes] using hq
    subst this
    simp
  · rfl

/-- A single auto-correlation needs no tables. -/
theorem survey_auto (S : Survey probes cosmo nuis delta D nb e g δ d) {p : P} (hp : p ∈ probes) (order : List P)
    (auto : Option (List (P × FEll N ℝ))) :
    ∃ F fe, computeFisher cosmo nuis delta D [(p, p)] order auto = .ok (F, fe) := by
  have hdv : Over probes [(p, p)] := ⟨by simp, by simpa [probesOf] using hp, by simp, by simp⟩
  obtain ⟨F, fe, h, _⟩ := fisher_auto (S.ready hdv) order auto
  exact ⟨F, fe, h⟩

/-! ### C124 -/

theorem same_probes {dv dv' : List (P × P)} (h : SameCorr dv dv') (x : P) : x ∈ probesOf dv ↔ x ∈ probesOf dv' := by
  rw [mem_probes_lists, mem_probes_lists]
  exact exists_congr fun y => h x y

theorem same_auto {dv dv' : List (P × P)} (h : SameCorr dv dv') (p : P) : (p, p) ∈ dv ↔ (p, p) ∈ dv' := by
  have := h p p
  simpa [Lists] using this

theorem mem_autoProbes {dv : List (P × P)} {p : P} : p ∈ autoProbes dv ↔ (p, p) ∈ dv := by
  simp only [autoProbes, List.mem_dedup, List.mem_map, List.mem_filter, decide_eq_true_eq]
  constructor
  · rintro ⟨⟨x, y⟩, ⟨hm, he⟩, rfl⟩
    simp only at he
    subst he
    exact hm
  · intro h
    exact ⟨(p, p), ⟨h, rfl⟩, rfl⟩

theorem sorted_ext {l l' : List N} (h : l.Pairwise (· < ·)) (h' : l'.Pairwise (· < ·)) (hm : ∀ a, a ∈ l ↔ a ∈ l') :
    l = l' := by
  refine List.Perm.eq_of_pairwise (fun a b _ _ hab hba => absurd (hab.trans hba) (lt_irrefl _)) h h' ?_
  exact (List.perm_ext_iff_of_nodup (h.imp fun h => h.ne) (h'.imp fun h => h.ne)).mpr hm

theorem commonOf_congr {dv dv' : List (P × P)} (h : SameCorr dv dv') (hne : dv ≠ []) (hne' : dv' ≠ [])
    (he : ∀ x, (e x).Pairwise (· < ·)) : commonOf e dv = commonOf e dv' := by
  refine sorted_ext (commonOf_sorted he dv) (commonOf_sorted he dv') fun ℓ => ?_
  rw [mem_commonOf hne, mem_commonOf hne']
  exact forall_congr' fun x => by rw [same_probes h x]

theorem autoProbes_congr {dv dv' : List (P × P)} (h : SameCorr dv dv') :
    (autoProbes dv).toFinset = (autoProbes dv').toFinset := by
  ext p
  rw [List.mem_toFinset, List.mem_toFinset, mem_autoProbes, mem_autoProbes, same_auto h]

/-- The derivatives of a free parameter are transposed when the probes are exchanged. -/
theorem Survey.deriv_symm (S : Survey probes cosmo nuis delta D nb e g δ d) {a : N}
    (ha : a ∈ cosmo ∨ ∃ p ∈ probes, a ∈ nuis p) : ∀ x y ℓ i j, d a x y ℓ i j = d a y x ℓ j i := by
  obtain ⟨s, _, h, _⟩ := S.derivs a ha
  exact h.symm

/-- C124. Two data vectors with the same correlations, listed in any order and in any order of the two probes, have the same
Fisher matrix. -/
theorem order_irrelevant (S : Survey probes cosmo nuis delta D nb e g δ d) {dv dv' : List (P × P)} (hdv : Over probes dv)
    (hdv' : Over probes dv') (h : SameCorr dv dv') {order order' : List P} (ho : IsOrder order dv) (ho' : IsOrder order' dv')
    {A : List (P × FEll N ℝ)} (hA : RunTables cosmo nuis delta D dv A) :
    ∃ F fe F' fe', computeFisher cosmo nuis delta D dv order (some A) = .ok (F, fe) ∧
      computeFisher cosmo nuis delta D dv' order' (some A) = .ok (F', fe') ∧ F'.rows = F.rows ∧ F'.cols = F.cols ∧
      ∀ a ∈ F.rows, ∀ b ∈ F.rows, F'.val a b = F.val a b := by
  have hA' : RunTables cosmo nuis delta D dv' A := fun p hp => hA p ((same_auto h p).mpr hp)
  obtain ⟨F, fe, h1, h2, h3, h4, h5⟩ := survey_fisher S hdv ho hA
  obtain ⟨F', fe', h1', h2', h3', h4', h5'⟩ := survey_fisher S hdv' ho' hA'
  have hrows : F'.rows = F.rows := by
    refine sorted_ext h3' h3 fun a => ?_
    rw [h2, h2']
    simp only [same_probes h]
  refine ⟨F, fe, F', fe', h1, h1', hrows, by rw [h4, h4', hrows], ?_⟩
  intro a ha b hb
  have hfree : ∀ c ∈ F.rows, c ∈ cosmo ∨ ∃ p ∈ probes, c ∈ nuis p := by
    intro c hc
    rcases (h2 c).mp hc with h | ⟨p, hp, h⟩
    · exact Or.inl h
    · exact Or.inr ⟨p, hdv.probes p hp, h⟩
  rw [h5 a ha b hb, h5' a (hrows ▸ ha) b (hrows ▸ hb)]
  unfold totalInfo
  rw [commonOf_congr h hdv.nonempty hdv'.nonempty S.increasing, autoProbes_congr h]
  congr 1
  refine Finset.sum_congr rfl fun ℓ _ => ?_
  exact (fisherSpec_same hdv.once hdv'.once h (S.deriv_symm (hfree a ha)) (S.deriv_symm (hfree b hb)) ℓ).symm

/-! ### C125 -/

theorem within_probes {dv dv' : List (P × P)} (h : Within dv dv') {x : P} (hx : x ∈ probesOf dv) : x ∈ probesOf dv' := by
  rw [mem_probes_lists] at hx ⊢
  obtain ⟨y, hy⟩ := hx
  exact ⟨y, h x y hy⟩

theorem within_auto {dv dv' : List (P × P)} (h : Within dv dv') {p : P} (hp : (p, p) ∈ dv) : (p, p) ∈ dv' := by
  have := h p p (Or.inl hp)
  simpa [Lists] using this

theorem within_common {dv dv' : List (P × P)} (h : Within dv dv') (hne : dv ≠ []) (hne' : dv' ≠ []) {ℓ : ℝ}
    (hℓ : ℓ ∈ commonOf e dv') : ℓ ∈ commonOf e dv :=
  (mem_commonOf hne).mpr fun x hx => (mem_commonOf hne').mp hℓ x (within_probes h hx)

/-- The names of a probe. -/
def own (cosmo : List N) (nuis : P → List N) (p : P) : Finset N := (cosmo ++ nuis p).toFinset

theorem mem_own {a : N} {p : P} : a ∈ own cosmo nuis p ↔ Has1 cosmo nuis p a := by
  simp [own, Has1]

theorem quadForm_restrict {T S : Finset N} (h : S ⊆ T) (v : N → ℝ) (f : N → N → ℝ) :
    quadForm T v (fun a b => if a ∈ S ∧ b ∈ S then f a b else 0) = quadForm S v f := by
  unfold quadForm
  rw [← Finset.sum_subset h (fun a _ ha => Finset.sum_eq_zero (fun b _ => by simp [ha]))]
  refine Finset.sum_congr rfl (fun a ha => ?_)
  rw [← Finset.sum_subset h (fun b _ hb => by simp [hb])]
  exact Finset.sum_congr rfl (fun b hb => by simp [ha, hb])

theorem quadForm_congr {T : Finset N} (v : N → ℝ) {f f' : N → N → ℝ} (h : ∀ a ∈ T, ∀ b ∈ T, f a b = f' a b) :
    quadForm T v f = quadForm T v f' :=
  Finset.sum_congr rfl fun a ha => Finset.sum_congr rfl fun b hb => by rw [h a ha b hb]

/-- The total information in a direction of parameters. -/
theorem quad_total (T : Finset N) (v : N → ℝ) {dv : List (P × P)} (hT : ∀ p, (p, p) ∈ dv → own cosmo nuis p ⊆ T) :
    quadForm T v (totalInfo cosmo nuis nb e δ d dv) =
      (∑ ℓ ∈ (commonOf e dv).toFinset, quadForm T v (fisherSpec nb δ d dv ℓ)) +
        ∑ p ∈ (autoProbes dv).toFinset, ∑ ℓ ∈ (e p).toFinset \ (commonOf e dv).toFinset,
          quadForm (own cosmo nuis p) v (fisherSpec nb δ d [(p, p)] ℓ) := by
  have : quadForm T v (totalInfo cosmo nuis nb e δ d dv) = quadForm T v (fun a b =>
      (∑ ℓ ∈ (commonOf e dv).toFinset, fisherSpec nb δ d dv ℓ a b) +
        ∑ p ∈ (autoProbes dv).toFinset, ∑ ℓ ∈ (e p).toFinset \ (commonOf e dv).toFinset,
          if a ∈ own cosmo nuis p ∧ b ∈ own cosmo nuis p then fisherSpec nb δ d [(p, p)] ℓ a b else 0) := by
    refine quadForm_congr v fun a _ b _ => ?_
    unfold totalInfo
    simp only [mem_own]
  rw [this, quadForm_add, quadForm_sum, quadForm_sum]
  congr 1
  refine Finset.sum_congr rfl fun p hp => ?_
  rw [quadForm_sum]
  refine Finset.sum_congr rfl fun ℓ _ => ?_
  exact quadForm_restrict (hT p (mem_autoProbes.mp (List.mem_toFinset.mp hp))) v _

/-- Parameters the correlations do not depend on do not matter. -/
theorem quad_insensitive {T T' : Finset N} (hT : T ⊆ T') {dv : List (P × P)}
    (hi : ∀ a ∈ T', a ∉ T → Insensitive d dv a) (ℓ : ℝ) (v : N → ℝ) :
    quadForm T v (fisherSpec nb δ d dv ℓ) = quadForm T' v (fisherSpec nb δ d dv ℓ) := by
  have : (∑ a ∈ T, v a • derivAt nb (d a) dv ℓ) = ∑ a ∈ T', v a • derivAt nb (d a) dv ℓ := by
    refine Finset.sum_subset hT fun a ha hna => ?_
    have : derivAt nb (d a) dv ℓ = 0 := by
      funext i
      obtain ⟨h1, _⟩ := mem_layout.mp (List.get_mem (layout nb dv) i)
      exact hi a ha hna _ h1 _ _ _
    rw [this, smul_zero]
  rw [quad_fisher, quad_fisher, this]

theorem Survey.quad_nonneg (S : Survey probes cosmo nuis delta D nb e g δ d) {p : P} (hp : p ∈ probes) {ℓ : ℝ}
    (hℓ : ℓ ∈ e p) (T : Finset N) (v : N → ℝ) : 0 ≤ quadForm T v (fisherSpec nb δ d [(p, p)] ℓ) := by
  have hdv : Over probes [(p, p)] := ⟨by simp, by simpa [probesOf] using hp, by simp, by simp⟩
  have := (S.cov_posDef hdv (ℓ := ℓ) (by simpa [probesOf] using hℓ)).inv.posSemidef.dotProduct_mulVec_nonneg
    (∑ a ∈ T, v a • derivAt nb (d a) [(p, p)] ℓ)
  rw [quad_fisher]
  simpa using this

/-- C125. Adding correlations to a data vector does not lower the information in any direction of the parameters, if all
multipoles that its probes share are still shared afterwards, or if the data vector is a single auto-correlation; the
correlations that were there must not depend on the parameters that come with new probes. -/
theorem more_information_partial (S : Survey probes cosmo nuis delta D nb e g δ d) {dv dv' : List (P × P)} (hdv : Over probes dv)
    (hdv' : Over probes dv') (h : Within dv dv')
    (hE : (∀ ℓ ∈ commonOf e dv, ℓ ∈ commonOf e dv') ∨ singleAuto dv = true)
    {order order' : List P} (ho : IsOrder order dv) (ho' : IsOrder order' dv')
    {A : List (P × FEll N ℝ)} (hA : RunTables cosmo nuis delta D dv' A)
    (hi : ∀ a, (∃ p ∈ probesOf dv', a ∈ nuis p) → a ∉ cosmo → (∀ p ∈ probesOf dv, a ∉ nuis p) → Insensitive d dv a) :
    ∃ F fe F' fe', computeFisher cosmo nuis delta D dv order (some A) = .ok (F, fe) ∧
      computeFisher cosmo nuis delta D dv' order' (some A) = .ok (F', fe') ∧ F.rows ⊆ F'.rows ∧
      ∀ v : N → ℝ, quadForm F.rows.toFinset v F.val ≤ quadForm F'.rows.toFinset v F'.val := by
  have hA1 : RunTables cosmo nuis delta D dv A := fun p hp => hA p (within_auto h hp)
  obtain ⟨F, fe, h1, h2, h3, h4, h5⟩ := survey_fisher S hdv ho hA1
  obtain ⟨F', fe', h1', h2', h3', h4', h5'⟩ := survey_fisher S hdv' ho' hA
  have hsub : F.rows ⊆ F'.rows := by
    intro a ha
    rw [h2'] 
    rcases (h2 a).mp ha with hc | ⟨p, hp, hc⟩
    · exact Or.inl hc
    · exact Or.inr ⟨p, within_probes h hp, hc⟩
  refine ⟨F, fe, F', fe', h1, h1', hsub, fun v => ?_⟩
  have own_sub : ∀ (G : DF N ℝ) (w : List (P × P)), (∀ a, a ∈ G.rows ↔ a ∈ cosmo ∨ ∃ p ∈ probesOf w, a ∈ nuis p) →
      ∀ p, (p, p) ∈ w → own cosmo nuis p ⊆ G.rows.toFinset := by
    intro G w hG p hp a ha
    rw [List.mem_toFinset, hG]
    rcases mem_own.mp ha with hc | hc
    · exact Or.inl hc
    · exact Or.inr ⟨p, fst_mem_probes hp, hc⟩
  have hq : quadForm F.rows.toFinset v F.val = quadForm F.rows.toFinset v (totalInfo cosmo nuis nb e δ d dv) :=
    quadForm_congr v fun a ha b hb => h5 a (List.mem_toFinset.mp ha) b (List.mem_toFinset.mp hb)
  have hq' : quadForm F'.rows.toFinset v F'.val = quadForm F'.rows.toFinset v (totalInfo cosmo nuis nb e δ d dv') :=
    quadForm_congr v fun a ha b hb => h5' a (List.mem_toFinset.mp ha) b (List.mem_toFinset.mp hb)
  rw [hq, hq', quad_total _ v (own_sub F dv h2), quad_total _ v (own_sub F' dv' h2')]
  have hTT : F.rows.toFinset ⊆ F'.rows.toFinset := fun a ha => List.mem_toFinset.mpr (hsub (List.mem_toFinset.mp ha))
  have hins : ∀ a ∈ F'.rows.toFinset, a ∉ F.rows.toFinset → Insensitive d dv a := by
    intro a ha hna
    rw [List.mem_toFinset, h2] at hna
    rw [List.mem_toFinset, h2'] at ha
    push Not at hna
    rcases ha with hc | hc
    · exact absurd hc hna.1
    · exact hi a hc hna.1 hna.2
  have hfree : ∀ a ∈ F'.rows.toFinset, ∀ x y ℓ i j, d a x y ℓ i j = d a y x ℓ j i := by
    intro a ha
    refine S.deriv_symm ?_
    rcases (h2' a).mp (List.mem_toFinset.mp ha) with hc | ⟨p, hp, hc⟩
    · exact Or.inl hc
    · exact Or.inr ⟨p, hdv'.probes p hp, hc⟩
  have hat : ∀ ℓ ∈ (commonOf e dv').toFinset, quadForm F.rows.toFinset v (fisherSpec nb δ d dv ℓ) ≤
      quadForm F'.rows.toFinset v (fisherSpec nb δ d dv' ℓ) := by
    intro ℓ hℓ
    rw [quad_insensitive hTT hins]
    exact fisherSpec_le hdv.once h hfree
      (S.cov_posDef hdv' ((mem_commonOf hdv'.nonempty).mp (List.mem_toFinset.mp hℓ))) v
  have hsubE : (commonOf e dv').toFinset ⊆ (commonOf e dv).toFinset := fun ℓ hℓ =>
    List.mem_toFinset.mpr (within_common h hdv.nonempty hdv'.nonempty (List.mem_toFinset.mp hℓ))
  have hnn : ∀ p ∈ (autoProbes dv').toFinset, 0 ≤ ∑ ℓ ∈ (e p).toFinset \ (commonOf e dv').toFinset,
      quadForm (own cosmo nuis p) v (fisherSpec nb δ d [(p, p)] ℓ) := by
    intro p hp
    refine Finset.sum_nonneg fun ℓ hℓ => ?_
    exact S.quad_nonneg (hdv'.probes _ (fst_mem_probes (mem_autoProbes.mp (List.mem_toFinset.mp hp))))
      (List.mem_toFinset.mp (Finset.mem_sdiff.mp hℓ).1) _ v
  have hauto : (autoProbes dv).toFinset ⊆ (autoProbes dv').toFinset := by
    intro p hp
    rw [List.mem_toFinset, mem_autoProbes] at hp ⊢
    exact within_auto h hp
  rcases hE with hE | hE
  · have hEq : (commonOf e dv).toFinset = (commonOf e dv').toFinset :=
      Finset.Subset.antisymm (fun ℓ hℓ => List.mem_toFinset.mpr (hE ℓ (List.mem_toFinset.mp hℓ))) hsubE
    rw [hEq]
    refine add_le_add (Finset.sum_le_sum hat) ?_
    exact Finset.sum_le_sum_of_subset_of_nonneg hauto fun p hp _ => hnn p hp
  · obtain ⟨p, rfl⟩ := singleAuto_eq hE
    have hz : (∑ q ∈ (autoProbes [(p, p)]).toFinset, ∑ ℓ ∈ (e q).toFinset \ (commonOf e [(p, p)]).toFinset,
        quadForm (own cosmo nuis q) v (fisherSpec nb δ d [(q, q)] ℓ)) = 0 := by
      refine Finset.sum_eq_zero fun q hq => ?_
      have : q = p := by simpa [autoProbes] using hq
      subst this
      rw [commonOf_auto]
      simp
    have hrows : F.rows.toFinset = own cosmo nuis p := by
      ext a
      rw [List.mem_toFinset, h2, mem_own]
      simp [probesOf, Has1]
    have hp : p ∈ (autoProbes dv').toFinset := hauto (by simp [autoProbes])
    rw [hz, add_zero, ← Finset.sum_sdiff hsubE, add_comm]
    refine add_le_add (Finset.sum_le_sum hat) ?_
    rw [commonOf_auto, hrows]
    exact Finset.single_le_sum (f := fun p => ∑ ℓ ∈ (e p).toFinset \ (commonOf e dv').toFinset,
      quadForm (own cosmo nuis p) v (fisherSpec nb δ d [(p, p)] ℓ)) hnn hp

theorem wf_fisherMatrixOf {dv : List (P × P)} {F : DF N ℝ} (name : Str)
    (h : ∀ a, a ∈ F.rows ↔ a ∈ cosmo ∨ ∃ p ∈ probesOf dv, a ∈ nuis p) (hs : F.rows.Pairwise (· < ·)) (hc : F.cols = F.rows) :
    (fisherMatrixOf cosmo nuis dv name F).WF := by
  refine ⟨hc, hs.imp fun h => h.ne, fun a => ?_⟩
  simp only [fisherMatrixOf, Finset.mem_union, List.mem_toFinset, mem_freeNuisance]
  exact h a

theorem quad_quadForm (T : Finset N) (f : N → N → ℝ) (x : N → ℝ) : quad T f x = quadForm T x f := by
  unfold quad quadForm
  exact Finset.sum_congr rfl fun a _ => Finset.sum_congr rfl fun b _ => by ring

/-- C125. Under the same conditions, and if both Fisher matrices are positive definite, the reported marginalised error of
no parameter grows and the figure of merit does not fall. -/
theorem errors_do_not_grow_partial (S : Survey probes cosmo nuis delta D nb e g δ d) {dv dv' : List (P × P)}
    (hdv : Over probes dv) (hdv' : Over probes dv') (h : Within dv dv')
    (hE : (∀ ℓ ∈ commonOf e dv, ℓ ∈ commonOf e dv') ∨ singleAuto dv = true)
    {order order' : List P} (ho : IsOrder order dv) (ho' : IsOrder order' dv')
    {A : List (P × FEll N ℝ)} (hA : RunTables cosmo nuis delta D dv' A)
    (hi : ∀ a, (∃ p ∈ probesOf dv', a ∈ nuis p) → a ∉ cosmo → (∀ p ∈ probesOf dv, a ∉ nuis p) → Insensitive d dv a)
    {en : Finset N → List N} (hen : Iteration en) {w0 wa : N} (hw : w0 ≠ wa) (fom oc : Bool) (name name' : Str) :
    ∃ F fe F' fe', computeFisher cosmo nuis delta D dv order (some A) = .ok (F, fe) ∧
      computeFisher cosmo nuis delta D dv' order' (some A) = .ok (F', fe') ∧
      (PD (fisherMatrixOf cosmo nuis dv name F) → PD (fisherMatrixOf cosmo nuis dv' name' F') → ∃ G G' out out',
        (fisherMatrixOf cosmo nuis dv name F).margErrors en Real.sqrt w0 wa fom oc = (G, .ok out) ∧
        (fisherMatrixOf cosmo nuis dv' name' F').margErrors en Real.sqrt w0 wa fom oc = (G', .ok out') ∧
        Better out' out) := by
  obtain ⟨F, fe, F', fe', h1, h1', hsub, hq⟩ := more_information_partial S hdv hdv' h hE ho ho' hA hi
  refine ⟨F, fe, F', fe', h1, h1', fun hP hP' => ?_⟩
  obtain ⟨G, out, e1, e2⟩ := errors_of_new hen hw fom oc hP rfl
  obtain ⟨G', out', e1', e2'⟩ := errors_of_new hen hw fom oc hP' rfl
  refine ⟨G, G', out, out', e1, e1', ?_⟩
  have hrows : ∀ (w : List (P × P)) (nm : Str) (X : DF N ℝ), PD (fisherMatrixOf cosmo nuis w nm X) →
      (fisherMatrixOf cosmo nuis w nm X).cosmo ∪ (fisherMatrixOf cosmo nuis w nm X).nuis = X.rows.toFinset := by
    intro w nm X hX
    ext a
    rw [List.mem_toFinset]
    exact (hX.1.mem a).symm
  have r := hrows dv name F hP
  have r' := hrows dv' name' F' hP'
  refine better_of hw hP.2 hP'.2 ?_ ?_ e2 e2' ?_
  · split
    · exact Finset.subset_union_left
    · exact Finset.Subset.refl _
  · split
    · exact Finset.subset_union_left
    · exact Finset.Subset.refl _
  · intro c hc x
    refine ⟨x, ?_, ?_⟩
    · rw [r, r', quad_quadForm, quad_quadForm]
      exact hq x
    · refine Finset.sum_subset ?_ fun a _ hna => ?_
      · rw [r, r']
        exact fun a ha => List.mem_toFinset.mpr (hsub (List.mem_toFinset.mp ha))
      · by_cases h0 : c a = 0
        · rw [h0, zero_mul]
        · exact absurd (hc a h0).1 hna

end

end Seyfert.Cov
