import Verif.Lemmas.Independence
import Verif.Spec.Independence
import Verif.Props.InformationLoss

/-!
C130: the Fisher matrices of independent groups of probes add up.
-/

set_option linter.unusedSectionVars false

namespace Seyfert.Cov

open Fisher hiding Err
open Matrix

variable {P N : Type} [DecidableEq P] [LinearOrder N]

section
variable {probes : List P} {cosmo : List N} {nuis : P → List N} {delta : Store P ℝ} {D : N → Option (Store P ℝ)}
  {nb : P → Nat} {e : P → List ℝ} {g : P → P → List ℝ} {δ : P → P → ℝ → Nat → Nat → ℝ}
  {d : N → P → P → ℝ → Nat → Nat → ℝ}

theorem probesOf_mono {dv dv' : List (P × P)} (h : dv ⊆ dv') {x : P} (hx : x ∈ probesOf dv) : x ∈ probesOf dv' := by
  rw [mem_probesOf] at hx ⊢
  obtain ⟨AB, h1, h2⟩ := hx
  exact ⟨AB, h h1, h2⟩

theorem norepeats_mono {dv dv' : List (P × P)} (h : dv ⊆ dv') (hn : dv.Nodup) (hr : NoRepeats dv') : NoRepeats dv :=
  ⟨hn, fun AB hAB hne hm => hr.2 AB (h hAB) hne (h hm)⟩

theorem over_mono {dv dv' : List (P × P)} (h : dv ⊆ dv') (hn : dv.Nodup) (hne : dv ≠ []) (hdv : Over probes dv') :
    Over probes dv :=
  ⟨hne, fun x hx => hdv.probes x (probesOf_mono h hx), norepeats_mono h hn hdv.once⟩

/-- The covariance of a part of a data vector is regular. -/
theorem Survey.part_det (S : Survey probes cosmo nuis delta D nb e g δ d) {dv dv' : List (P × P)} (hdv : Over probes dv')
    (h : dv ⊆ dv') (hn : dv.Nodup) {ℓ : ℝ} (hℓ : ∀ x ∈ probesOf dv', ℓ ∈ e x) : (covAt nb δ dv ℓ).det ≠ 0 := by
  by_cases hne : dv = []
  · subst hne
    haveI : IsEmpty (Fin (layout nb ([] : List (P × P))).length) := Fin.isEmpty
    rw [Matrix.det_isEmpty]
    exact one_ne_zero
  · exact (S.cov_posDef (over_mono h hn hne hdv) fun x hx => hℓ x (probesOf_mono h hx)).det_pos.ne'

/-- Correlations that share no correlated probes have no covariance. -/
theorem cov_apart {dv dv' : List (P × P)} (h : ∀ AB ∈ dv, ∀ CD ∈ dv', Uncorrelated δ AB.1 CD.1 ∧ Uncorrelated δ AB.1 CD.2 ∨
      Uncorrelated δ AB.2 CD.1 ∧ Uncorrelated δ AB.2 CD.2 ∨ Uncorrelated δ AB.1 CD.1 ∧ Uncorrelated δ AB.2 CD.1 ∨
      Uncorrelated δ AB.1 CD.2 ∧ Uncorrelated δ AB.2 CD.2) (ℓ : ℝ) :
    ∀ x ∈ layout nb dv, ∀ y ∈ layout nb dv', covSpec δ ℓ x y = 0 ∧ covSpec δ ℓ y x = 0 := by
  intro x hx y hy
  have := h _ (mem_layout.mp hx).1 _ (mem_layout.mp hy).1
  unfold covSpec
  simp only at this
  rcases this with ⟨h1, h2⟩ | ⟨h1, h2⟩ | ⟨h1, h2⟩ | ⟨h1, h2⟩ <;>
    simp [(h1 _ _ _).1, (h1 _ _ _).2, (h2 _ _ _).1, (h2 _ _ _).2]

/-- The information of uncorrelated auto-correlations. -/
theorem Survey.autos_info (S : Survey probes cosmo nuis delta D nb e g δ d) {dv : List (P × P)} (hdv : Over probes dv) {ℓ : ℝ}
    (hℓ : ∀ x ∈ probesOf dv, ℓ ∈ e x) (hu : ∀ x ∈ probesOf dv, ∀ y ∈ probesOf dv, x ≠ y → Uncorrelated δ x y) (a b : N) :
    ∀ ps : List P, ps.Nodup → (∀ p ∈ ps, (p, p) ∈ dv) →
      fisherSpec nb δ d (ps.map fun p => (p, p)) ℓ a b = ∑ p ∈ ps.toFinset, fisherSpec nb δ d [(p, p)] ℓ a b := by
  intro ps
  induction ps with
  | nil =>
    intro _ _
    show dotProduct (fun i : Fin 0 => _) _ = _
    simp [dotProduct]
  | cons p ps ih =>
    intro hn hp
    rw [List.nodup_cons] at hn
    have hinj : Function.Injective fun q : P => (q, q) := fun x y h => congrArg Prod.fst h
    have hps : ∀ q ∈ ps, (q, q) ∈ dv := fun q hq => hp q (List.mem_cons_of_mem _ hq)
    have hp0 : (p, p) ∈ dv := hp p List.mem_cons_self
    rw [List.toFinset_cons, Finset.sum_insert (by rw [List.mem_toFinset]; exact hn.1), ← ih hn.2 hps]
    show fisherSpec nb δ d ([(p, p)] ++ ps.map fun q => (q, q)) ℓ a b = _
    refine fisherSpec_append ?_ ?_ ?_ a b
    · exact S.part_det hdv (by simpa using hp0) (by simp) hℓ
    · refine S.part_det hdv ?_ (hn.2.map hinj) hℓ
      intro x hx
      obtain ⟨q, hq, rfl⟩ := List.mem_map.mp hx
      exact hps q hq
    · refine cov_apart ?_ ℓ
      intro AB hAB CD hCD
      rw [List.mem_singleton] at hAB
      subst hAB
      obtain ⟨q, hq, rfl⟩ := List.mem_map.mp hCD
      have := hu p (fst_mem_probes hp0) q (fst_mem_probes (hps q hq)) (by rintro rfl; exact hn.1 hq)
      exact Or.inl ⟨this, this⟩

/-- The information of a data vector of separate probes at a multipole. -/
theorem Survey.separate_info (S : Survey probes cosmo nuis delta D nb e g δ d) {dv : List (P × P)} (hdv : Over probes dv)
    (hs : Separate δ d dv) {ℓ : ℝ} (hℓ : ∀ x ∈ probesOf dv, ℓ ∈ e x) {a b : N}
    (ha : ∀ x y ℓ i j, d a x y ℓ i j = d a y x ℓ j i) (hb : ∀ x y ℓ i j, d b x y ℓ i j = d b y x ℓ j i) :
    fisherSpec nb δ d dv ℓ a b = ∑ p ∈ (autoProbes dv).toFinset, fisherSpec nb δ d [(p, p)] ℓ a b := by
  have hinj : Function.Injective fun q : P => (q, q) := fun x y h => congrArg Prod.fst h
  have hn : (autoProbes dv).Nodup := List.nodup_dedup _
  have hsub1 : (autoProbes dv).map (fun p => (p, p)) ⊆ dv := by
    intro x hx
    obtain ⟨q, hq, rfl⟩ := List.mem_map.mp hx
    exact mem_autoProbes.mp hq
  have hsub2 : dv.filter (fun AB => decide (AB.1 ≠ AB.2)) ⊆ dv := List.filter_sublist.subset
  have hnd : ((autoProbes dv).map (fun p => (p, p)) ++ dv.filter (fun AB => decide (AB.1 ≠ AB.2))).Nodup := by
    refine (hn.map hinj).append (hdv.once.1.filter _) ?_
    intro x hx hx'
    obtain ⟨q, hq, rfl⟩ := List.mem_map.mp hx
    simp at hx'
  have hmem : ∀ AB, AB ∈ (autoProbes dv).map (fun p => (p, p)) ++ dv.filter (fun AB => decide (AB.1 ≠ AB.2)) ↔ AB ∈ dv := by
    rintro ⟨x, y⟩
    rw [List.mem_append]
    constructor
    · rintro (h | h)
      · exact hsub1 h
      · exact hsub2 h
    · intro h
      by_cases hxy : x = y
      · subst hxy
        exact Or.inl (List.mem_map.mpr ⟨x, mem_autoProbes.mpr h, rfl⟩)
      · exact Or.inr (List.mem_filter.mpr ⟨h, by simpa using hxy⟩)
  have hsame : SameCorr dv ((autoProbes dv).map (fun p => (p, p)) ++ dv.filter (fun AB => decide (AB.1 ≠ AB.2))) := by
    intro x y
    unfold Lists
    rw [hmem, hmem]
  rw [fisherSpec_same hdv.once (norepeats_mono (fun x hx => (hmem x).mp hx) hnd hdv.once) hsame ha hb, fisherSpec_append,
    S.autos_info hdv hℓ hs.uncorrelated a b _ hn (fun p hp => mem_autoProbes.mp hp),
    fisherSpec_insensitive (dv := dv.filter _) (Or.inl ?_), add_zero]
  · intro AB hAB ℓ i j
    obtain ⟨h1, h2⟩ := List.mem_filter.mp hAB
    exact hs.idle AB h1 (by simpa using h2) a ℓ i j
  · exact S.part_det hdv hsub1 (hn.map hinj) hℓ
  · exact S.part_det hdv hsub2 (hdv.once.1.filter _) hℓ
  · refine cov_apart ?_ ℓ
    intro AB hAB CD hCD
    obtain ⟨q, hq, rfl⟩ := List.mem_map.mp hAB
    obtain ⟨h1, h2⟩ := List.mem_filter.mp hCD
    have h2 : CD.1 ≠ CD.2 := by simpa using h2
    have hq' := fst_mem_probes (mem_autoProbes.mp hq)
    by_cases hx : q = CD.1
    · have := hs.uncorrelated q hq' CD.2 (snd_mem_probes h1) (by rintro h; exact h2 (hx.symm.trans h))
      exact Or.inr (Or.inr (Or.inr ⟨this, this⟩))
    · have := hs.uncorrelated q hq' CD.1 (fst_mem_probes h1) hx
      exact Or.inr (Or.inr (Or.inl ⟨this, this⟩))

/-- The data vector has a parameter. -/
def HasV (cosmo : List N) (nuis : P → List N) (dv : List (P × P)) (a : N) : Prop :=
  a ∈ cosmo ∨ ∃ p ∈ probesOf dv, a ∈ nuis p

/-- A free parameter. -/
def Free (cosmo : List N) (nuis : P → List N) (a : N) : Prop := a ∈ cosmo ∨ ∃ p, a ∈ nuis p

theorem insensitive_of (ho : OwnOnly cosmo nuis d) {dv : List (P × P)} {a : N} (hf : Free cosmo nuis a)
    (h : ¬ HasV cosmo nuis dv a) : Insensitive d dv a := by
  intro AB hAB ℓ i j
  unfold HasV at h
  push Not at h
  obtain ⟨p, hp⟩ := hf.resolve_left h.1
  exact ho p a hp h.1 _ _ (h.2 _ (fst_mem_probes hAB)) (h.2 _ (snd_mem_probes hAB)) ℓ i j

theorem auto_own (ho : OwnOnly cosmo nuis d) (p : P) (ℓ : ℝ) {a b : N} (fa : Free cosmo nuis a) (fb : Free cosmo nuis b) :
    (if Has1 cosmo nuis p a ∧ Has1 cosmo nuis p b then fisherSpec nb δ d [(p, p)] ℓ a b else 0) =
      fisherSpec nb δ d [(p, p)] ℓ a b := by
  have key : ∀ c, Free cosmo nuis c → ¬ Has1 cosmo nuis p c → Insensitive d [(p, p)] c := by
    intro c hf hc
    refine insensitive_of ho hf fun h => hc ?_
    rcases h with h | ⟨q, hq, h⟩
    · exact Or.inl h
    · have : q = p := by simpa [probesOf] using hq
      subst this
      exact Or.inr h
  split
  · rfl
  · rename_i h
    rw [not_and_or] at h
    rcases h with h | h
    · rw [fisherSpec_insensitive (Or.inl (key a fa h))]
    · rw [fisherSpec_insensitive (Or.inr (key b fb h))]

theorem total_insensitive (ho : OwnOnly cosmo nuis d) {dv : List (P × P)} {a b : N} (fa : Free cosmo nuis a)
    (fb : Free cosmo nuis b) (h : ¬ (HasV cosmo nuis dv a ∧ HasV cosmo nuis dv b)) : totalInfo cosmo nuis nb e δ d dv a b = 0 := by
  have hi : Insensitive d dv a ∨ Insensitive d dv b := by
    rw [not_and_or] at h
    exact h.imp (insensitive_of ho fa) (insensitive_of ho fb)
  unfold totalInfo
  rw [Finset.sum_eq_zero (fun ℓ _ => fisherSpec_insensitive hi), zero_add]
  refine Finset.sum_eq_zero fun p hp => Finset.sum_eq_zero fun ℓ _ => ?_
  have hp' : (p, p) ∈ dv := mem_autoProbes.mp (List.mem_toFinset.mp hp)
  rw [auto_own ho p ℓ fa fb]
  refine fisherSpec_insensitive (hi.imp ?_ ?_) <;>
  · intro h' AB hAB
    rw [List.mem_singleton] at hAB
    subst hAB
    exact h' _ hp'

/-- The total information of separate probes, taken apart at any multipoles among the shared ones. -/
theorem Survey.separate_total (S : Survey probes cosmo nuis delta D nb e g δ d) {dv : List (P × P)} (hdv : Over probes dv)
    (hs : Separate δ d dv) (ho : OwnOnly cosmo nuis d) {a b : N}
    (fa : Free cosmo nuis a) (fb : Free cosmo nuis b)
    (ha : ∀ x y ℓ i j, d a x y ℓ i j = d a y x ℓ j i) (hb : ∀ x y ℓ i j, d b x y ℓ i j = d b y x ℓ j i) :
    totalInfo cosmo nuis nb e δ d dv a b = ∑ p ∈ (autoProbes dv).toFinset, ∑ ℓ ∈ (e p).toFinset,
      fisherSpec nb δ d [(p, p)] ℓ a b := by
  unfold totalInfo
  rw [Finset.sum_congr rfl fun ℓ hℓ => S.separate_info hdv hs
    ((mem_commonOf hdv.nonempty).mp (List.mem_toFinset.mp hℓ)) ha hb, Finset.sum_comm, ← Finset.sum_add_distrib]
  refine Finset.sum_congr rfl fun p hp => ?_
  have hsub : (commonOf e dv).toFinset ⊆ (e p).toFinset := by
    intro ℓ hℓ
    rw [List.mem_toFinset] at hℓ ⊢
    exact (mem_commonOf hdv.nonempty).mp hℓ p (fst_mem_probes (mem_autoProbes.mp (List.mem_toFinset.mp hp)))
  simp only [auto_own ho _ _ fa fb]
  rw [add_comm, Finset.sum_sdiff hsub]

/-- The total information of a group, taken apart at fewer multipoles. -/
theorem Survey.group_total (S : Survey probes cosmo nuis delta D nb e g δ d) {dv : List (P × P)} (hdv : Over probes dv)
    (ho : OwnOnly cosmo nuis d) {E : Finset ℝ} (hE : E ⊆ (commonOf e dv).toFinset)
    (h : (∀ ℓ ∈ commonOf e dv, ℓ ∈ E) ∨ Separate δ d dv) {a b : N}
    (fa : Free cosmo nuis a) (fb : Free cosmo nuis b)
    (ha : ∀ x y ℓ i j, d a x y ℓ i j = d a y x ℓ j i) (hb : ∀ x y ℓ i j, d b x y ℓ i j = d b y x ℓ j i) :
    totalInfo cosmo nuis nb e δ d dv a b = (∑ ℓ ∈ E, fisherSpec nb δ d dv ℓ a b) +
      ∑ p ∈ (autoProbes dv).toFinset, ∑ ℓ ∈ (e p).toFinset \ E, fisherSpec nb δ d [(p, p)] ℓ a b := by
  rcases h with h | h
  · have : E = (commonOf e dv).toFinset := Finset.Subset.antisymm hE fun ℓ hℓ => h ℓ (List.mem_toFinset.mp hℓ)
    unfold totalInfo
    simp only [auto_own ho _ _ fa fb]
    rw [this]
  · rw [S.separate_total hdv h ho fa fb ha hb, Finset.sum_congr rfl fun ℓ hℓ => S.separate_info hdv h
      ((mem_commonOf hdv.nonempty).mp (List.mem_toFinset.mp (hE hℓ))) ha hb, Finset.sum_comm, ← Finset.sum_add_distrib]
    refine Finset.sum_congr rfl fun p hp => ?_
    have hsub : E ⊆ (e p).toFinset := by
      intro ℓ hℓ
      rw [List.mem_toFinset]
      exact (mem_commonOf hdv.nonempty).mp (List.mem_toFinset.mp (hE hℓ)) p
        (fst_mem_probes (mem_autoProbes.mp (List.mem_toFinset.mp hp)))
    rw [add_comm, Finset.sum_sdiff hsub]

/-- The total information of two groups. -/
theorem Survey.groups_total (S : Survey probes cosmo nuis delta D nb e g δ d) {dv dv' : List (P × P)} (hdv : Over probes (dv ++ dv'))
    (hne : dv ≠ []) (hne' : dv' ≠ []) (ho : OwnOnly cosmo nuis d)
    (hu : ∀ x ∈ probesOf dv, ∀ y ∈ probesOf dv', Uncorrelated δ x y)
    (h : (∀ ℓ ∈ commonOf e dv, ℓ ∈ commonOf e (dv ++ dv')) ∨ Separate δ d dv)
    (h' : (∀ ℓ ∈ commonOf e dv', ℓ ∈ commonOf e (dv ++ dv')) ∨ Separate δ d dv') {a b : N}
    (fa : Free cosmo nuis a) (fb : Free cosmo nuis b)
    (ha : ∀ x y ℓ i j, d a x y ℓ i j = d a y x ℓ j i) (hb : ∀ x y ℓ i j, d b x y ℓ i j = d b y x ℓ j i) :
    totalInfo cosmo nuis nb e δ d (dv ++ dv') a b =
      totalInfo cosmo nuis nb e δ d dv a b + totalInfo cosmo nuis nb e δ d dv' a b := by
  have hn := List.nodup_append'.mp hdv.once.1
  have s1 : dv ⊆ dv ++ dv' := List.subset_append_left _ _
  have s2 : dv' ⊆ dv ++ dv' := List.subset_append_right _ _
  have hsub : ∀ {w : List (P × P)}, w ⊆ dv ++ dv' → w ≠ [] → (commonOf e (dv ++ dv')).toFinset ⊆ (commonOf e w).toFinset := by
    intro w hw hwne ℓ hℓ
    rw [List.mem_toFinset] at hℓ ⊢
    exact (mem_commonOf hwne).mpr fun x hx => (mem_commonOf hdv.nonempty).mp hℓ x (probesOf_mono hw hx)
  have hdisj : Disjoint (autoProbes dv).toFinset (autoProbes dv').toFinset := by
    rw [Finset.disjoint_left]
    intro p hp hp'
    rw [List.mem_toFinset, mem_autoProbes] at hp hp'
    exact hn.2.2 hp hp'
  have hautos : (autoProbes (dv ++ dv')).toFinset = (autoProbes dv).toFinset ∪ (autoProbes dv').toFinset := by
    ext p
    rw [Finset.mem_union, List.mem_toFinset, List.mem_toFinset, List.mem_toFinset, mem_autoProbes, mem_autoProbes,
      mem_autoProbes, List.mem_append]
  rw [S.group_total (over_mono s1 hn.1 hne hdv) ho (hsub s1 hne)
      (h.imp_left fun h ℓ hℓ => List.mem_toFinset.mpr (h ℓ hℓ)) fa fb ha hb,
    S.group_total (over_mono s2 hn.2.1 hne' hdv) ho (hsub s2 hne')
      (h'.imp_left fun h ℓ hℓ => List.mem_toFinset.mpr (h ℓ hℓ)) fa fb ha hb]
  unfold totalInfo
  simp only [auto_own ho _ _ fa fb]
  rw [hautos, Finset.sum_union hdisj, add_add_add_comm, ← Finset.sum_add_distrib]
  congr 1
  refine Finset.sum_congr rfl fun ℓ hℓ => ?_
  have hℓ' := (mem_commonOf hdv.nonempty).mp (List.mem_toFinset.mp hℓ)
  refine fisherSpec_append (S.part_det hdv s1 hn.1 hℓ') (S.part_det hdv s2 hn.2.1 hℓ') (cov_apart ?_ ℓ) a b
  intro AB hAB CD hCD
  exact Or.inl ⟨hu _ (fst_mem_probes hAB) _ (fst_mem_probes hCD), hu _ (fst_mem_probes hAB) _ (snd_mem_probes hCD)⟩

/-- What is computed, as entries. -/
theorem Survey.ent (S : Survey probes cosmo nuis delta D nb e g δ d) {dv : List (P × P)} (hdv : Over probes dv)
    (ho : OwnOnly cosmo nuis d) {order : List P} (hord : IsOrder order dv) {A : List (P × FEll N ℝ)}
    (hA : RunTables cosmo nuis delta D dv A) :
    ∃ F fe, computeFisher cosmo nuis delta D dv order (some A) = .ok (F, fe) ∧
      (∀ name, (fisherMatrixOf cosmo nuis dv name F).WF) ∧
      (∀ a b, ¬ (HasV cosmo nuis dv a ∧ HasV cosmo nuis dv b) → F.ent a b = 0) ∧
      ∀ a b, Free cosmo nuis a → Free cosmo nuis b → F.ent a b = totalInfo cosmo nuis nb e δ d dv a b := by
  obtain ⟨F, fe, h1, h2, h3, h4, h5⟩ := survey_fisher S hdv hord hA
  have hz : ∀ a b, ¬ (HasV cosmo nuis dv a ∧ HasV cosmo nuis dv b) → F.ent a b = 0 := by
    intro a b h
    unfold DF.ent
    rw [h4, if_neg]
    rwa [h2, h2]
  refine ⟨F, fe, h1, fun name => wf_fisherMatrixOf name h2 h3 h4, hz, fun a b fa fb => ?_⟩
  by_cases h : HasV cosmo nuis dv a ∧ HasV cosmo nuis dv b
  · unfold DF.ent
    rw [h4, if_pos ⟨(h2 a).mpr h.1, (h2 b).mpr h.2⟩]
    exact h5 a ((h2 a).mpr h.1) b ((h2 b).mpr h.2)
  · rw [hz a b h, total_insensitive ho fa fb h]

theorem hasV_mono {dv dv' : List (P × P)} (h : dv ⊆ dv') {a : N} (ha : HasV cosmo nuis dv a) : HasV cosmo nuis dv' a :=
  ha.imp_right fun ⟨p, hp, h'⟩ => ⟨p, probesOf_mono h hp, h'⟩

theorem free_of {dv : List (P × P)} {a : N} (ha : HasV cosmo nuis dv a) : Free cosmo nuis a :=
  ha.imp_right fun ⟨p, _, h'⟩ => ⟨p, h'⟩

theorem Survey.symm_of (S : Survey probes cosmo nuis delta D nb e g δ d) {dv : List (P × P)} (hdv : Over probes dv) {a : N}
    (ha : HasV cosmo nuis dv a) : ∀ x y ℓ i j, d a x y ℓ i j = d a y x ℓ j i :=
  S.deriv_symm (ha.imp_right fun ⟨p, hp, h'⟩ => ⟨p, hdv.probes p hp, h'⟩)

/-- C130. The Fisher matrix of two groups of correlations whose probes are uncorrelated is the sum of the Fisher matrices of
the groups, as added by the code. It is required that the multipoles shared by the probes of a group are also shared by
the probes of the other, or that the probes of the group are separate from each other; and that no
spectrum depends on nuisance parameters of probes other than its own. Without the first requirement it is false
(`sum_rule_lost`, `sum_rule_made_up`). -/
theorem independent_groups_partial (S : Survey probes cosmo nuis delta D nb e g δ d) (ho : OwnOnly cosmo nuis d)
    {dv dv' : List (P × P)} (hdv : Over probes (dv ++ dv')) (hne : dv ≠ []) (hne' : dv' ≠ [])
    (hu : ∀ x ∈ probesOf dv, ∀ y ∈ probesOf dv', Uncorrelated δ x y)
    (h : (∀ ℓ ∈ commonOf e dv, ℓ ∈ commonOf e (dv ++ dv')) ∨ Separate δ d dv)
    (h' : (∀ ℓ ∈ commonOf e dv', ℓ ∈ commonOf e (dv ++ dv')) ∨ Separate δ d dv')
    {order o o' : List P} (hord : IsOrder order (dv ++ dv')) (ho1 : IsOrder o dv) (ho2 : IsOrder o' dv')
    {A : List (P × FEll N ℝ)} (hA : RunTables cosmo nuis delta D (dv ++ dv') A)
    {en : Finset N → List N} (hen : Iteration en) (n n₁ n₂ : Str) :
    ∃ F fe F₁ fe₁ F₂ fe₂ R, computeFisher cosmo nuis delta D (dv ++ dv') order (some A) = .ok (F, fe) ∧
      computeFisher cosmo nuis delta D dv o (some A) = .ok (F₁, fe₁) ∧
      computeFisher cosmo nuis delta D dv' o' (some A) = .ok (F₂, fe₂) ∧
      (fisherMatrixOf cosmo nuis dv n₁ F₁).add en (fisherMatrixOf cosmo nuis dv' n₂ F₂) = .ok R ∧
      R.cosmo = (fisherMatrixOf cosmo nuis (dv ++ dv') n F).cosmo ∧
      R.nuis = (fisherMatrixOf cosmo nuis (dv ++ dv') n F).nuis ∧
      ∀ a b, R.matrix.ent a b = (fisherMatrixOf cosmo nuis (dv ++ dv') n F).matrix.ent a b := by
  have hn := List.nodup_append'.mp hdv.once.1
  have s1 : dv ⊆ dv ++ dv' := List.subset_append_left _ _
  have s2 : dv' ⊆ dv ++ dv' := List.subset_append_right _ _
  have hA1 : RunTables cosmo nuis delta D dv A := fun p hp => hA p (s1 hp)
  have hA2 : RunTables cosmo nuis delta D dv' A := fun p hp => hA p (s2 hp)
  obtain ⟨F, fe, e1, _, e3, e4⟩ := S.ent hdv ho hord hA
  obtain ⟨F₁, fe₁, f1, f2, f3, f4⟩ := S.ent (over_mono s1 hn.1 hne hdv) ho ho1 hA1
  obtain ⟨F₂, fe₂, g1, g2, g3, g4⟩ := S.ent (over_mono s2 hn.2.1 hne' hdv) ho ho2 hA2
  obtain ⟨R, r1, _, _, r4, r5, _, _, _, r9⟩ := add_spec hen (f2 n₁) (g2 n₂)
  refine ⟨F, fe, F₁, fe₁, F₂, fe₂, R, e1, f1, g1, r1, ?_, ?_, ?_⟩
  · rw [r4]
    exact Finset.union_idempotent _
  · rw [r5]
    ext a
    simp only [fisherMatrixOf, Finset.mem_union, List.mem_toFinset, mem_freeNuisance, mem_probesOf, List.mem_append]
    constructor
    · rintro (⟨p, ⟨AB, h1, h2⟩, h3⟩ | ⟨p, ⟨AB, h1, h2⟩, h3⟩)
      · exact ⟨p, ⟨AB, Or.inl h1, h2⟩, h3⟩
      · exact ⟨p, ⟨AB, Or.inr h1, h2⟩, h3⟩
    · rintro ⟨p, ⟨AB, h1 | h1, h2⟩, h3⟩
      · exact Or.inl ⟨p, ⟨AB, h1, h2⟩, h3⟩
      · exact Or.inr ⟨p, ⟨AB, h1, h2⟩, h3⟩
  · intro a b
    rw [r9]
    show F₁.ent a b + F₂.ent a b = F.ent a b
    by_cases hab : HasV cosmo nuis (dv ++ dv') a ∧ HasV cosmo nuis (dv ++ dv') b
    · have fa := free_of hab.1
      have fb := free_of hab.2
      rw [e4 a b fa fb, f4 a b fa fb, g4 a b fa fb,
        S.groups_total hdv hne hne' ho hu h h' fa fb (S.symm_of hdv hab.1) (S.symm_of hdv hab.2)]
    · rw [e3 a b hab, f3 a b (fun hx => hab ⟨hasV_mono s1 hx.1, hasV_mono s1 hx.2⟩),
        g3 a b (fun hx => hab ⟨hasV_mono s2 hx.1, hasV_mono s2 hx.2⟩), add_zero]

/-- C130. The Fisher matrix of a data vector of separate probes is the sum of the Fisher matrices of the probes, whatever
multipoles they have. -/
theorem separate_probes (S : Survey probes cosmo nuis delta D nb e g δ d) (ho : OwnOnly cosmo nuis d)
    {dv : List (P × P)} (hdv : Over probes dv) (hs : Separate δ d dv) {order : List P} (hord : IsOrder order dv)
    {A : List (P × FEll N ℝ)} (hA : RunTables cosmo nuis delta D dv A) :
    ∃ F fe, ∃ G : P → DF N ℝ, computeFisher cosmo nuis delta D dv order (some A) = .ok (F, fe) ∧
      (∀ p ∈ probesOf dv, ∃ fe', computeFisher cosmo nuis delta D [(p, p)] [p] (some A) = .ok (G p, fe')) ∧
      ∀ a b, F.ent a b = ∑ p ∈ (probesOf dv).toFinset, (G p).ent a b := by
  obtain ⟨F, fe, e1, _, e3, e4⟩ := S.ent hdv ho hord hA
  have hone : ∀ p, ∃ Gp : DF N ℝ, p ∈ probesOf dv →
      (∃ fe', computeFisher cosmo nuis delta D [(p, p)] [p] (some A) = .ok (Gp, fe')) ∧
      (∀ a b, ¬ (HasV cosmo nuis [(p, p)] a ∧ HasV cosmo nuis [(p, p)] b) → Gp.ent a b = 0) ∧
      ∀ a b, Free cosmo nuis a → Free cosmo nuis b → Gp.ent a b = totalInfo cosmo nuis nb e δ d [(p, p)] a b := by
    intro p
    by_cases hp : p ∈ probesOf dv
    · have hpp := hs.autos p hp
      obtain ⟨Gp, fe', g1, _, g3, g4⟩ := S.ent (over_auto hdv hpp) ho (order := [p])
        ⟨by simp, by simp⟩ (A := A) (fun q hq => hA q (by rw [List.mem_singleton] at hq; rw [hq]; exact hpp))
      exact ⟨Gp, fun _ => ⟨⟨fe', g1⟩, g3, g4⟩⟩
    · exact ⟨F, fun h => absurd h hp⟩
  choose G hG using hone
  refine ⟨F, fe, G, e1, fun p hp => (hG p hp).1, fun a b => ?_⟩
  have hap : (autoProbes dv).toFinset = (probesOf dv).toFinset := by
    ext p
    rw [List.mem_toFinset, List.mem_toFinset, mem_autoProbes]
    exact ⟨fun h => fst_mem_probes h, hs.autos p⟩
  by_cases hab : HasV cosmo nuis dv a ∧ HasV cosmo nuis dv b
  · have fa := free_of hab.1
    have fb := free_of hab.2
    rw [e4 a b fa fb, S.separate_total hdv hs ho fa fb (S.symm_of hdv hab.1) (S.symm_of hdv hab.2), hap]
    refine Finset.sum_congr rfl fun p hp => ?_
    rw [(hG p (List.mem_toFinset.mp hp)).2.2 a b fa fb]
    have h1 : (autoProbes [(p, p)]).toFinset = {p} := by
      ext q
      rw [List.mem_toFinset, mem_autoProbes]
      simp
    unfold totalInfo
    rw [commonOf_auto, h1, Finset.sum_singleton, Finset.sdiff_self, Finset.sum_empty, add_zero]
  · rw [e3 a b hab, Finset.sum_eq_zero]
    intro p hp
    have hp' := List.mem_toFinset.mp hp
    refine (hG p hp').2.1 a b fun hx => hab ?_
    have : [(p, p)] ⊆ dv := by simpa using hs.autos p hp'
    exact ⟨hasV_mono this hx.1, hasV_mono this hx.2⟩

end

/-! ### Where the sum rule fails -/

theorem tOwn (f : Nat → Fin 3 → Fin 3 → ℝ → Nat → Nat → ℝ) : OwnOnly [0] tNuis f := fun p a h => by simp [tNuis] at h

theorem third_zero {C dd : Fin 3 → Fin 3 → ℝ} (h : dd 2 2 = 0) :
    totalInfo [0] tNuis tNb tGrid (tSpec C) (fun _ => tSpec dd) [(2, 2)] 0 0 = 0 := by
  have hz : ∀ ℓ, fisherSpec tNb (tSpec C) (fun _ : Nat => tSpec dd) [(2, 2)] ℓ 0 0 = 0 := by
    intro ℓ
    refine fisherSpec_zero ?_ ℓ
    intro AB hAB _ _ _
    rw [List.mem_singleton] at hAB
    subst hAB
    exact h
  have ha : (autoProbes [((2 : Fin 3), (2 : Fin 3))]).toFinset = {2} := by decide
  unfold totalInfo
  rw [Finset.sum_eq_zero (fun ℓ _ => hz ℓ), ha, Finset.sum_singleton, Finset.sum_eq_zero, add_zero]
  intro ℓ _
  rw [hz, ite_self]

/-- C130, false without the requirement on the multipoles. Two probes and their correlation give the information 15 on a
parameter; a third probe, uncorrelated to them and with fewer multipoles, gives 0; together they give 8. -/
theorem sum_rule_lost : ∃ (A : List (Fin 3 × FEll Nat ℝ)) (F F₁ F₂ : DF Nat ℝ) (fe fe₁ fe₂ : FEll Nat ℝ),
    Survey (List.finRange 3) [0] tNuis (tStore unitC) (fun _ => some (tStore crossD)) tNb tGrid tPair (tSpec unitC)
      (fun _ => tSpec crossD) ∧
    OwnOnly [0] tNuis (fun _ : Nat => tSpec crossD) ∧ Over (List.finRange 3) (threeCorr ++ [(2, 2)]) ∧
    RunTables [0] tNuis (tStore unitC) (fun _ => some (tStore crossD)) (threeCorr ++ [(2, 2)]) A ∧
    (∀ x ∈ probesOf threeCorr, ∀ y ∈ probesOf [((2 : Fin 3), (2 : Fin 3))], Uncorrelated (tSpec unitC) x y) ∧
    computeFisher [0] tNuis (tStore unitC) (fun _ => some (tStore crossD)) (threeCorr ++ [(2, 2)]) [0, 1, 2] (some A)
      = .ok (F, fe) ∧
    computeFisher [0] tNuis (tStore unitC) (fun _ => some (tStore crossD)) threeCorr [0, 1] (some A) = .ok (F₁, fe₁) ∧
    computeFisher [0] tNuis (tStore unitC) (fun _ => some (tStore crossD)) [(2, 2)] [2] (some A) = .ok (F₂, fe₂) ∧
    F.ent 0 0 = 8 ∧ F₁.ent 0 0 = 15 ∧ F₂.ent 0 0 = 0 := by
  obtain ⟨A, hA⟩ := tTables unitC_posDef crossD_symm
  have S := tSurvey unitC_posDef crossD_symm
  have h3 : Over (List.finRange 3) threeCorr := over3 (by decide) ⟨by decide, by decide⟩
  have h4 : Over (List.finRange 3) (threeCorr ++ [(2, 2)]) := over3 (by decide) ⟨by decide, by decide⟩
  have h1 : Over (List.finRange 3) [((2 : Fin 3), (2 : Fin 3))] := over3 (by decide) ⟨by decide, by decide⟩
  have f0 : Free [0] tNuis 0 := Or.inl (by simp)
  obtain ⟨F, fe, e1, _, _, e4⟩ := S.ent h4 (tOwn _) (order := [0, 1, 2]) ⟨by decide, by decide⟩ (hA _)
  obtain ⟨F₁, fe₁, f1, _, _, f4⟩ := S.ent h3 (tOwn _) (order := [0, 1]) ⟨by decide, by decide⟩ (hA _)
  obtain ⟨F₂, fe₂, g1, _, _, g4⟩ := S.ent h1 (tOwn _) (order := [2]) ⟨by decide, by decide⟩ (hA _)
  refine ⟨A, F, F₁, F₂, fe, fe₁, fe₂, S, tOwn _, h4, hA _, ?_, e1, f1, g1, ?_, ?_, ?_⟩
  · intro x hx y hy _ _ _
    have hxy : x ≠ y := by revert x y; decide
    exact ⟨if_neg hxy, if_neg hxy.symm⟩
  · rw [e4 0 0 f0 f0]
    show totalInfo [0] tNuis tNb tGrid _ _ fourCorr 0 0 = 8
    rw [total_third (by decide) four_info, fisherSpec_zero, fisherSpec_zero]
    · norm_num
    · intro AB h _ _ _
      rw [List.mem_singleton] at h
      subst h
      simp [tSpec, crossD]
    · intro AB h _ _ _
      rw [List.mem_singleton] at h
      subst h
      simp [tSpec, crossD]
  · rw [f4 0 0 f0 f0, total_shared (by decide) (by decide) three_info]
    norm_num
  · rw [g4 0 0 f0 f0]
    exact third_zero (by simp [crossD])

/-- C130, false without the requirement on the multipoles, the other way. Two correlated auto-correlations give the
information 12 on a parameter, an uncorrelated third probe with fewer multipoles gives 0, and together they give 13.4. -/
theorem sum_rule_made_up : ∃ (A : List (Fin 3 × FEll Nat ℝ)) (F F₁ F₂ : DF Nat ℝ) (fe fe₁ fe₂ : FEll Nat ℝ),
    Survey (List.finRange 3) [0] tNuis (tStore corrC) (fun _ => some (tStore autoD)) tNb tGrid tPair (tSpec corrC)
      (fun _ => tSpec autoD) ∧
    OwnOnly [0] tNuis (fun _ : Nat => tSpec autoD) ∧ Over (List.finRange 3) (twoAuto ++ [(2, 2)]) ∧
    RunTables [0] tNuis (tStore corrC) (fun _ => some (tStore autoD)) (twoAuto ++ [(2, 2)]) A ∧
    (∀ x ∈ probesOf twoAuto, ∀ y ∈ probesOf [((2 : Fin 3), (2 : Fin 3))], Uncorrelated (tSpec corrC) x y) ∧
    computeFisher [0] tNuis (tStore corrC) (fun _ => some (tStore autoD)) (twoAuto ++ [(2, 2)]) [0, 1, 2] (some A)
      = .ok (F, fe) ∧
    computeFisher [0] tNuis (tStore corrC) (fun _ => some (tStore autoD)) twoAuto [0, 1] (some A) = .ok (F₁, fe₁) ∧
    computeFisher [0] tNuis (tStore corrC) (fun _ => some (tStore autoD)) [(2, 2)] [2] (some A) = .ok (F₂, fe₂) ∧
    F.ent 0 0 = 67 / 5 ∧ F₁.ent 0 0 = 12 ∧ F₂.ent 0 0 = 0 := by
  obtain ⟨A, hA⟩ := tTables corrC_posDef autoD_symm
  have S := tSurvey corrC_posDef autoD_symm
  have h3 : Over (List.finRange 3) twoAuto := over3 (by decide) ⟨by decide, by decide⟩
  have h4 : Over (List.finRange 3) (twoAuto ++ [(2, 2)]) := over3 (by decide) ⟨by decide, by decide⟩
  have h1 : Over (List.finRange 3) [((2 : Fin 3), (2 : Fin 3))] := over3 (by decide) ⟨by decide, by decide⟩
  have f0 : Free [0] tNuis 0 := Or.inl (by simp)
  obtain ⟨F, fe, e1, _, _, e4⟩ := S.ent h4 (tOwn _) (order := [0, 1, 2]) ⟨by decide, by decide⟩ (hA _)
  obtain ⟨F₁, fe₁, f1, _, _, f4⟩ := S.ent h3 (tOwn _) (order := [0, 1]) ⟨by decide, by decide⟩ (hA _)
  obtain ⟨F₂, fe₂, g1, _, _, g4⟩ := S.ent h1 (tOwn _) (order := [2]) ⟨by decide, by decide⟩ (hA _)
  refine ⟨A, F, F₁, F₂, fe, fe₁, fe₂, S, tOwn _, h4, hA _, ?_, e1, f1, g1, ?_, ?_, ?_⟩
  · intro x hx y hy _ _ _
    have hxy : x ≠ y ∧ y = 2 := by revert x y; decide
    obtain ⟨hxy, rfl⟩ := hxy
    simp [tSpec, corrC, hxy, hxy.symm]
  · rw [e4 0 0 f0 f0]
    show totalInfo [0] tNuis tNb tGrid _ _ threeAuto 0 0 = 67 / 5
    rw [total_third (by decide) threeAuto_info, oneAuto_info (by decide), oneAuto_info (by decide)]
    norm_num
  · rw [f4 0 0 f0 f0, total_shared (by decide) (by decide) twoAuto_info]
    norm_num
  · rw [g4 0 0 f0 f0]
    exact third_zero (by simp [autoD])

/-! ### Examples -/

theorem unit_separate {dv : List (Fin 3 × Fin 3)} (h : ∀ x ∈ probesOf dv, (x, x) ∈ dv) :
    Separate (tSpec unitC) (fun _ : Nat => tSpec autoD) dv where
  autos := h
  uncorrelated := fun x _ y _ hxy _ _ _ => ⟨if_neg hxy, if_neg hxy.symm⟩
  idle := fun AB _ hne _ _ _ _ => if_neg fun h => hne h.1

/-- Two separate probes together, with a third that has fewer multipoles. -/
example : ∃ A : List (Fin 3 × FEll Nat ℝ), ∃ F fe F₁ fe₁ F₂ fe₂ R,
    computeFisher [0] tNuis (tStore unitC) (fun _ => some (tStore autoD)) (threeCorr ++ [(2, 2)]) [2, 0, 1] (some A)
      = .ok (F, fe) ∧
    computeFisher [0] tNuis (tStore unitC) (fun _ => some (tStore autoD)) threeCorr [0, 1] (some A) = .ok (F₁, fe₁) ∧
    computeFisher [0] tNuis (tStore unitC) (fun _ => some (tStore autoD)) [(2, 2)] [2] (some A) = .ok (F₂, fe₂) ∧
    (fisherMatrixOf [0] tNuis threeCorr "a".toList F₁).add (fun s => s.sort (· ≤ ·))
      (fisherMatrixOf [0] tNuis [(2, 2)] "b".toList F₂) = .ok R ∧
    R.cosmo = (fisherMatrixOf [0] tNuis (threeCorr ++ [(2, 2)]) "c".toList F).cosmo ∧
    R.nuis = (fisherMatrixOf [0] tNuis (threeCorr ++ [(2, 2)]) "c".toList F).nuis ∧
    ∀ a b, R.matrix.ent a b = (fisherMatrixOf [0] tNuis (threeCorr ++ [(2, 2)]) "c".toList F).matrix.ent a b := by
  obtain ⟨A, hA⟩ := tTables unitC_posDef autoD_symm
  refine ⟨A, independent_groups_partial (tSurvey unitC_posDef autoD_symm) (tOwn _)
    (over3 (by decide) ⟨by decide, by decide⟩) (by decide) (by decide) ?_ (Or.inr (unit_separate (by decide)))
    (Or.inr (unit_separate (by decide))) ⟨by decide, by decide⟩ ⟨by decide, by decide⟩ ⟨by decide, by decide⟩ (hA _)
    (fun s => ⟨s.sort_nodup _, fun a => by simp⟩) _ _ _⟩
  intro x hx y hy _ _ _
  have hxy : x ≠ y := by revert x y; decide
  exact ⟨if_neg hxy, if_neg hxy.symm⟩

/-- Two groups that share their multipoles. -/
example : ∃ A : List (Fin 3 × FEll Nat ℝ), ∃ F fe F₁ fe₁ F₂ fe₂ R,
    computeFisher [0] tNuis (tStore unitC) (fun _ => some (tStore crossD)) [(0, 0), (1, 1)] [0, 1] (some A) = .ok (F, fe) ∧
    computeFisher [0] tNuis (tStore unitC) (fun _ => some (tStore crossD)) [(0, 0)] [0] (some A) = .ok (F₁, fe₁) ∧
    computeFisher [0] tNuis (tStore unitC) (fun _ => some (tStore crossD)) [(1, 1)] [1] (some A) = .ok (F₂, fe₂) ∧
    (fisherMatrixOf [0] tNuis [(0, 0)] "a".toList F₁).add (fun s => s.sort (· ≤ ·))
      (fisherMatrixOf [0] tNuis [(1, 1)] "b".toList F₂) = .ok R ∧
    R.cosmo = (fisherMatrixOf [0] tNuis [(0, 0), (1, 1)] "c".toList F).cosmo ∧
    R.nuis = (fisherMatrixOf [0] tNuis [(0, 0), (1, 1)] "c".toList F).nuis ∧
    ∀ a b, R.matrix.ent a b = (fisherMatrixOf [0] tNuis [(0, 0), (1, 1)] "c".toList F).matrix.ent a b := by
  obtain ⟨A, hA⟩ := tTables unitC_posDef crossD_symm
  refine ⟨A, independent_groups_partial (dv := [(0, 0)]) (dv' := [(1, 1)]) (tSurvey unitC_posDef crossD_symm) (tOwn _)
    (over3 (by decide) ⟨by decide, by decide⟩) (by decide) (by decide) ?_ (Or.inl ?_)
    (Or.inl ?_) ⟨by decide, by decide⟩ ⟨by decide, by decide⟩ ⟨by decide, by decide⟩ (hA _)
    (fun s => ⟨s.sort_nodup _, fun a => by simp⟩) _ _ _⟩
  · intro x hx y hy _ _ _
    have hxy : x ≠ y := by revert x y; decide
    exact ⟨if_neg hxy, if_neg hxy.symm⟩
  · intro ℓ hℓ
    rw [mem_commonOf (by decide)] at hℓ ⊢
    have h0 : ℓ ∈ tGrid 0 := hℓ 0 (by decide)
    intro x hx
    have : x = 0 ∨ x = 1 := by revert x; decide
    rcases this with rfl | rfl
    · exact h0
    · exact h0
  · intro ℓ hℓ
    rw [mem_commonOf (by decide)] at hℓ ⊢
    have h0 : ℓ ∈ tGrid 1 := hℓ 1 (by decide)
    intro x hx
    have : x = 0 ∨ x = 1 := by revert x; decide
    rcases this with rfl | rfl
    · exact h0
    · exact h0

/-- Three separate probes with different multipoles, and one of their correlations. -/
example : ∃ A : List (Fin 3 × FEll Nat ℝ), ∃ F fe, ∃ G : Fin 3 → DF Nat ℝ,
    computeFisher [0] tNuis (tStore unitC) (fun _ => some (tStore autoD)) fourCorr [1, 0, 2] (some A) = .ok (F, fe) ∧
    (∀ p ∈ probesOf fourCorr, ∃ fe', computeFisher [0] tNuis (tStore unitC) (fun _ => some (tStore autoD)) [(p, p)] [p]
      (some A) = .ok (G p, fe')) ∧
    ∀ a b, F.ent a b = ∑ p ∈ (probesOf fourCorr).toFinset, (G p).ent a b := by
  obtain ⟨A, hA⟩ := tTables unitC_posDef autoD_symm
  exact ⟨A, separate_probes (tSurvey unitC_posDef autoD_symm) (tOwn _) (over3 (by decide) ⟨by decide, by decide⟩)
    (unit_separate (by decide)) ⟨by decide, by decide⟩ (hA _)⟩

end Seyfert.Cov
