import Verif.Props.FisherAnalysis

/-!
C59: the final results of a run (`create_results_for_cosmology`).
-/

set_option linter.unusedSectionVars false

namespace Seyfert.Fisher

variable {N K : Type} [LinearOrder N] [Field K] [DecidableEq K]

/-! ### The loaded matrices are never touched -/

theorem combLoop_extends {en : Finset N → List N} {Fs : Dict Str Ref} {ops : List Str}
    (idxs : List Nat) {h h' : Heap N K} {r r' : Ref}
    (e : combLoop en Fs ops idxs h r = .ok (h', r')) :
    (∃ ext, h' = h ++ ext) ∧ (r' = r ∨ h.length ≤ r') := by
  induction idxs generalizing h r with
  | nil => unfold combLoop at e; cases e; exact ⟨⟨[], by simp⟩, Or.inl rfl⟩
  | cons i is ih =>
    unfold combLoop at e
    split at e
    · rename_i o s _ _
      split at e
      · cases e
      · rename_i h1 r1 heq
        have hx : (∃ ext, h1 = h ++ ext) ∧ h.length ≤ r1 := by
          split at heq
          · exact ⟨(combineH_extends heq).1, (combineH_extends heq).2.1⟩
          · exact ⟨(combineH_extends heq).1, (combineH_extends heq).2.1⟩
        obtain ⟨⟨e1, rfl⟩, h2⟩ := hx
        obtain ⟨⟨e2, rfl⟩, h3⟩ := ih e
        refine ⟨⟨e1 ++ e2, by simp⟩, Or.inr ?_⟩
        rcases h3 with rfl | h3
        · exact h2
        · rw [List.length_append] at h3; omega
    · cases e

/-- C13. Whatever the names, evaluating combinations changes no existing object, and stores only
objects that were in the dictionary or are new. -/
theorem evalAll_extends {en : Finset N → List N} (ns : List Str) {h h' : Heap N K}
    {Fs Fs' : Dict Str Ref} (e : evalAll en h Fs ns = .ok (h', Fs')) :
    (∃ ext, h' = h ++ ext) ∧
      ∀ r ∈ Fs'.map Prod.snd, r ∈ Fs.map Prod.snd ∨ h.length ≤ r := by
  induction ns generalizing h Fs with
  | nil => unfold evalAll at e; cases e; exact ⟨⟨[], by simp⟩, fun r hr => Or.inl hr⟩
  | cons n ns ih =>
    unfold evalAll at e
    have comb : ∀ h1 o, evalComb en h Fs n = .ok (h1, o) → (∃ ext, h1 = h ++ ext) ∧
        ∀ r, o = some r → r ∈ Fs.map Prod.snd ∨ h.length ≤ r := by
      intro h1 o hc
      unfold evalComb at hc
      simp only at hc
      split at hc
      · cases hc; exact ⟨⟨[], by simp⟩, by simp⟩
      · split at hc
        · cases hc
        · rename_i r0 hr0
          split at hc
          · cases hc
          · rename_i h2 r2 hl
            cases hc
            obtain ⟨h3, h4⟩ := combLoop_extends _ hl
            refine ⟨h3, fun r hr => ?_⟩
            cases hr
            rcases h4 with rfl | h4
            · left
              obtain ⟨o, _, ho⟩ := Option.bind_eq_some_iff.mp hr0
              exact List.mem_map.mpr ⟨_, mem_of_lookup ho, rfl⟩
            · exact Or.inr h4
    split at e
    · cases e
    · rename_i h1 r hc
      obtain ⟨⟨e1, rfl⟩, h2⟩ := comb _ _ hc
      obtain ⟨⟨e2, rfl⟩, h3⟩ := ih e
      refine ⟨⟨e1 ++ e2, by simp⟩, fun r' hr' => ?_⟩
      rcases h3 r' hr' with h4 | h4
      · rcases dictSet_refs h4 with rfl | h4
        · exact h2 _ rfl
        · exact Or.inl h4
      · rw [List.length_append] at h4
        exact Or.inr (by omega)
    · rename_i h1 hc
      obtain ⟨⟨e1, rfl⟩, h2⟩ := comb _ _ hc
      obtain ⟨⟨e2, rfl⟩, h3⟩ := ih e
      refine ⟨⟨e1 ++ e2, by simp⟩, fun r' hr' => ?_⟩
      rcases h3 r' hr' with h4 | h4
      · exact Or.inl h4
      · rw [List.length_append] at h4
        exact Or.inr (by omega)

/-- C59. Whatever is asked for, and whether or not it raises, creating the results of one
configuration changes none of the loaded matrices.  So the six configurations computed one after the
other from the same loaded matrices do not influence each other. -/
theorem loaded_unchanged (en : Finset N → List N) (sq : K → K) (w0 wa : N) (h : Heap N K)
    (d : Dict Str Ref) (fixed : Finset N) (mode : NuisMode) (names : List Str) :
    ∀ r < h.length, (createResults en sq w0 wa h d fixed mode names).1[r]? = h[r]? := by
  intro r hr
  obtain ⟨c, hc⟩ : ∃ c, c = deepcopyDict h d := ⟨_, rfl⟩
  have h1 : c.1[r]? = h[r]? := by
    rw [hc]; unfold deepcopyDict; simp only; rw [List.getElem?_append_left hr]
  have hlen : h.length ≤ c.1.length := by rw [hc]; unfold deepcopyDict; simp
  have href : ∀ s ∈ c.2.map Prod.snd, h.length ≤ s := by
    intro s hs
    rw [hc] at hs
    unfold deepcopyDict at hs
    simp only [List.map_map, List.mem_map, Function.comp] at hs
    obtain ⟨x, _, rfl⟩ := hs
    exact Nat.le_add_right _ _
  have hnot : r ∉ c.2.map Prod.snd := fun hm => absurd hr (Nat.not_lt.mpr (href r hm))
  unfold createResults
  rw [← hc]
  simp only
  have f2 := forRefs_frame (fun F : FM N K => F.fix fixed) (c.2.map Prod.snd) c.1
  split
  · rename_i h2 e heq
    rw [heq] at f2
    rw [f2.2 r hnot, h1]
  · rename_i h2 o2 heq
    rw [heq] at f2
    have f3 := forRefs_frame (nuisStep en mode) (c.2.map Prod.snd) h2
    split
    · rename_i h3 e heq3
      rw [heq3] at f3
      rw [f3.2 r hnot, f2.2 r hnot, h1]
    · rename_i h3 o3 heq3
      rw [heq3] at f3
      have hr3 : r < h3.length := by rw [f3.1, f2.1]; exact lt_of_lt_of_le hr hlen
      split
      · rw [f3.2 r hnot, f2.2 r hnot, h1]
      · rename_i h4 Fs heq4
        obtain ⟨⟨ext, rfl⟩, hrefs⟩ := evalAll_extends _ heq4
        have hnot' : r ∉ Fs.map Prod.snd := by
          intro hm
          rcases hrefs r hm with hm | hm
          · exact hnot hm
          · exact absurd hr3 (Nat.not_lt.mpr hm)
        have h4' : (h3 ++ ext)[r]? = h[r]? := by
          rw [List.getElem?_append_left hr3, f3.2 r hnot, f2.2 r hnot, h1]
        have f5 : (analysisInit en true (h3 ++ ext) Fs).1[r]? = (h3 ++ ext)[r]? := by
          unfold analysisInit
          have g1 := forRefs_frame (fun F : FM N K => (({ F with margFlag := true },
            Except.ok ()) : Res N K Unit)) (Fs.map Prod.snd) (h3 ++ ext)
          split
          · rename_i heq; rw [heq] at g1; exact g1.2 r hnot'
          · rename_i heq; rw [heq] at g1
            rw [(forRefs_frame _ _ _).2 r hnot', g1.2 r hnot']
        split
        · rename_i heq5; rw [heq5] at f5; exact f5.trans h4'
        · rename_i h5 o5 heq5
          rw [heq5] at f5
          have f6 := forRefs_frame (FM.margErrors en sq w0 wa true true) (Fs.map Prod.snd) h5
          split
          · rename_i heq6; rw [heq6] at f6; exact (f6.2 r hnot').trans (f5.trans h4')
          · rename_i heq6; rw [heq6] at f6; exact (f6.2 r hnot').trans (f5.trans h4')

/-! ### What is reported -/

/-- The cached inverse is absent or that of the current matrix. -/
def NotStale (F : FM N K) : Prop :=
  F.WF ∧ (F.inverse = none ∨ ∃ I, F.inverse = some I ∧ I.On (F.cosmo ∪ F.nuis) ∧
    Inverse (F.cosmo ∪ F.nuis) F.matrix.val I.val)

theorem errors_of_notStale {en : Finset N → List N} (hen : Iteration en) (sq : K → K) {w0 wa : N}
    (hw : w0 ≠ wa) (fom oc : Bool) {F F' : FM N K} (hF : NotStale F) {out}
    (h : F.margErrors en sq w0 wa fom oc = (F', .ok out)) :
    F'.WF ∧ F'.name = F.name ∧ SameContent F F' ∧
      ErrorsOf sq w0 wa (F'.cosmo ∪ F'.nuis) (if oc then F'.cosmo else F'.cosmo ∪ F'.nuis) fom
        F'.matrix.val out := by
  obtain ⟨wf, hi | ⟨I, hI, hon, hinv⟩⟩ := hF
  · have h0 := h
    unfold FM.margErrors at h
    rw [hi] at h
    simp only at h
    cases he : F.evalInverse with
    | mk F₁ res =>
      cases res with
      | error e => rw [he] at h; cases h
      | ok u =>
        obtain ⟨I, h1, h2, h3⟩ := evalInverse_ok wf he
        rw [he] at h
        obtain ⟨out', h4, h5⟩ := errors_of_fresh hen sq hw fom oc (F := F₁) (by rw [h1]; exact wf)
          (by rw [h1]) (by rw [h1]; exact h2) (by rw [h1]; exact h3)
        have h6 : F₁.margErrors en sq w0 wa fom oc = (F₁, F₁.readErrors en sq w0 wa fom oc) := by
          unfold FM.margErrors; rw [h1]
        rw [h6] at h4
        simp only at h
        have h7 : F' = F₁ ∧ F₁.readErrors en sq w0 wa fom oc = .ok out := by
          cases u; exact ⟨(Prod.mk.inj h).1.symm, (Prod.mk.inj h).2⟩
        have h8 := (Prod.mk.inj h4).2
        rw [h7.2] at h8
        cases h8
        obtain ⟨rfl, _⟩ := h7
        subst h1
        exact ⟨wf, rfl, ⟨rfl, rfl, fun _ _ => rfl⟩, h5⟩
  · obtain ⟨out', h4, h5⟩ := errors_of_fresh hen sq hw fom oc wf hI hon hinv
    rw [h] at h4
    cases h4
    exact ⟨wf, rfl, ⟨rfl, rfl, fun _ _ => rfl⟩, h5⟩

theorem select_true {en : Finset N → List N} (hen : Iteration en) {F : FM N K} (hF : NotStale F)
    (hfl : F.margFlag = true) : ∃ R, F.select en = (R, .ok ()) ∧ NotStale R ∧ R.name = F.name ∧
      SameContent F R := by
  have hF' : F.matrix.On (F.cosmo ∪ F.nuis) := hF.1
  obtain ⟨hl, hlon⟩ := On.locSet hen hF' (Finset.Subset.refl (F.cosmo ∪ F.nuis))
  have hw := On.sortIndex hlon
  refine ⟨{ F with matrix := DF.sortIndex { F.matrix with
      rows := en (F.cosmo ∪ F.nuis), cols := en (F.cosmo ∪ F.nuis) } }, ?_, ⟨hw, hF.2⟩, rfl, rfl, rfl,
      fun a b => ?_⟩
  · unfold FM.select
    simp only
    rw [if_pos (fun a ha => (hF'.mem a).mpr ha)]
    simp only [hfl, if_true, Finset.sdiff_empty, hl]
  · rw [On.ent hF', On.ent hw]; rfl

/-- What the parameters that a configuration treats specially become: `F` is the loaded matrix `F₀`
with the parameters `fixed` fixed and the nuisance parameters fixed, marginalised or kept. -/
def Prepared (fixed : Finset N) (mode : NuisMode) (F₀ F : FM N K) : Prop :=
  F.WF ∧ F.name = F₀.name ∧ F.cosmo = F₀.cosmo \ fixed ∧
    match mode with
    | .fixed => F.nuis = ∅ ∧ ∀ a ∈ F.cosmo, ∀ b ∈ F.cosmo, F.matrix.ent a b = F₀.matrix.ent a b
    | .margAfter => F.nuis = F₀.nuis \ fixed ∧ ∀ a ∈ F.cosmo ∪ F.nuis, ∀ b ∈ F.cosmo ∪ F.nuis,
        F.matrix.ent a b = F₀.matrix.ent a b
    | .margBefore => F.nuis = ∅ ∧ ∃ V, Inverse ((F₀.cosmo ∪ F₀.nuis) \ fixed) F₀.matrix.val V ∧
        Inverse F.cosmo F.matrix.val V

theorem ent_val {F : FM N K} (hF : F.WF) {a b : N} (ha : a ∈ F.cosmo ∪ F.nuis)
    (hb : b ∈ F.cosmo ∪ F.nuis) : F.matrix.ent a b = F.matrix.val a b := by
  rw [On.ent hF, if_pos ⟨ha, hb⟩]

theorem Prepared.congr {fixed : Finset N} {mode : NuisMode} {F₀ F G : FM N K}
    (h : Prepared fixed mode F₀ F) (hG : G.WF) (hn : G.name = F.name) (hc : SameContent F G) :
    Prepared fixed mode F₀ G := by
  obtain ⟨wf, n, c, h⟩ := h
  refine ⟨hG, hn.trans n, hc.1 ▸ c, ?_⟩
  cases mode with
  | fixed =>
    obtain ⟨h1, h2⟩ := h
    exact ⟨hc.2.1 ▸ h1, fun a ha b hb => by rw [← hc.2.2]; exact h2 a (hc.1 ▸ ha) b (hc.1 ▸ hb)⟩
  | margAfter =>
    obtain ⟨h1, h2⟩ := h
    refine ⟨hc.2.1 ▸ h1, fun a ha b hb => ?_⟩
    rw [← hc.1, ← hc.2.1] at ha hb
    rw [← hc.2.2]; exact h2 a ha b hb
  | margBefore =>
    obtain ⟨h1, V, h2, h3⟩ := h
    refine ⟨hc.2.1 ▸ h1, V, h2, ?_⟩
    rw [← hc.1]
    refine h3.congr (fun a ha b hb => ?_) (fun _ _ _ _ => rfl)
    have ha' : a ∈ F.cosmo ∪ F.nuis := Finset.mem_union_left _ ha
    have hb' : b ∈ F.cosmo ∪ F.nuis := Finset.mem_union_left _ hb
    rw [← ent_val wf ha' hb', hc.2.2, ent_val hG]
    · rw [← hc.1, ← hc.2.1]; exact ha'
    · rw [← hc.1, ← hc.2.1]; exact hb'

theorem IsComb.congr {M : Str → FM N K} {c : Comb} {R G : FM N K} (h : IsComb M c R)
    (hn : G.name = R.name) (hc : SameContent R G) : IsComb M c G :=
  ⟨fun p => by rw [← hc.1]; exact h.cosmo p, fun p => by rw [← hc.2.1]; exact h.nuis p,
    fun p q => by rw [← hc.2.2]; exact h.ent p q, hn.trans h.name⟩

/-- The two preparation steps on one loaded matrix. -/
theorem prepared_of_steps {en : Finset N → List N} (hen : Iteration en) {F₀ F₁ F₂ : FM N K}
    (hF : F₀.WF) (hd : Disjoint F₀.cosmo F₀.nuis) (hfl : F₀.margFlag = true) {fixed : Finset N}
    {mode : NuisMode} (h1 : F₀.copy.fix fixed = (F₁, .ok ()))
    (h2 : nuisStep en mode F₁ = (F₂, .ok ())) :
    NotStale F₂ ∧ Prepared fixed mode F₀ F₂ := by
  have hsub := fix_ok_subset h1
  obtain ⟨R, e, wf, c, n, nm, fl, rows, v, i, _, ent⟩ := fix_spec (F := F₀.copy) hF hsub
  rw [h1] at e; cases e
  have hdis : Disjoint F₁.cosmo F₁.nuis := by
    rw [c, n]; exact hd.mono Finset.sdiff_subset Finset.sdiff_subset
  have hcos : F₁.cosmo \ F₁.nuis = F₁.cosmo := Finset.sdiff_eq_self_of_disjoint hdis
  have hent : ∀ a ∈ F₁.cosmo ∪ F₁.nuis, ∀ b ∈ F₁.cosmo ∪ F₁.nuis,
      F₁.matrix.ent a b = F₀.matrix.ent a b := by
    intro a ha b hb
    rw [ent, if_neg]; · rfl
    have hx : ∀ x ∈ F₁.cosmo ∪ F₁.nuis, x ∉ fixed := by
      intro x hx
      rw [c, n] at hx
      simp only [Finset.mem_union, Finset.mem_sdiff] at hx
      tauto
    exact fun h => h.elim (hx a ha) (hx b hb)
  cases mode with
  | fixed =>
    simp only [nuisStep] at h2
    obtain ⟨R2, e2, wf2, c2, n2, nm2, fl2, rows2, v2, i2, _, ent2⟩ :=
      fix_spec (F := F₁) wf (A := F₁.nuis) Finset.subset_union_right
    rw [h2] at e2; cases e2
    refine ⟨⟨wf2, Or.inl (by rw [i2, i]; rfl)⟩, wf2, nm2.trans nm, by rw [c2, hcos, c]; rfl,
      by rw [n2, Finset.sdiff_self], fun a ha b hb => ?_⟩
    rw [c2, hcos] at ha hb
    rw [ent2, if_neg, hent a (Finset.mem_union_left _ ha) b (Finset.mem_union_left _ hb)]
    rintro (h | h)
    · exact Finset.disjoint_left.mp hdis ha h
    · exact Finset.disjoint_left.mp hdis hb h
  | margAfter =>
    simp only [nuisStep] at h2
    cases h2
    exact ⟨⟨wf, Or.inl (by rw [i]; rfl)⟩, wf, nm, c, n, hent⟩
  | margBefore =>
    simp only [nuisStep, FM.margNuisInPlace] at h2
    rw [if_pos (by rw [fl]; exact hfl)] at h2
    obtain ⟨hA, V, W, hV, hW⟩ := marg_ok_inv hen wf h2
    obtain ⟨R', I, e, wf2, nm2, fl2, c2, n2, hI, hIon, hinv, hIV⟩ := margInPlace_spec hen wf hA hV hW
    rw [h2] at e; cases e
    have hn2 : F₂.nuis = ∅ := by rw [n2, Finset.sdiff_self]
    refine ⟨⟨wf2, Or.inr ⟨I, hI, hIon, hinv.congr (fun _ _ _ _ => rfl)
      (fun a ha b hb => (hIV a ha b hb).symm)⟩⟩, wf2, nm2.trans nm, by rw [c2, hcos, c]; rfl, hn2, V,
      ?_, ?_⟩
    · rw [v] at hV
      have : (F₀.cosmo ∪ F₀.nuis) \ fixed = F₁.cosmo ∪ F₁.nuis := by
        rw [c, n]; exact Finset.union_sdiff_distrib ..
      rw [this]
      exact hV
    · rw [hn2, Finset.union_empty] at hinv
      exact hinv

theorem forRefs_ok_mem {α : Type} (f : FM N K → Res N K α) {rs : List Ref} (hn : rs.Nodup)
    {h h' : Heap N K} {out : List α} (hok : forRefs f h rs = (h', .ok out)) {r : Ref}
    (hr : r ∈ rs) : ∃ F F' a, h[r]? = some F ∧ f F = (F', .ok a) ∧ h'[r]? = some F' := by
  obtain ⟨i, hi, rfl⟩ := List.mem_iff_getElem.mp hr
  obtain ⟨F, F', a, h1, h2, h3, _⟩ := (forRefs_ok f rs hn h h' hok).2 i hi
  exact ⟨F, F', a, h1, h2, h3⟩

/-- Deep copy of a dictionary of distinct objects. -/
theorem deepcopy_spec {h : Heap N K} {d : Dict Str Ref} (hn : (d.map Prod.snd).Nodup)
    (hv : ∀ r ∈ d.map Prod.snd, r < h.length) :
    (deepcopyDict h d).2.map Prod.fst = d.map Prod.fst ∧
      ((deepcopyDict h d).2.map Prod.snd).Nodup ∧
      (∀ s ∈ (deepcopyDict h d).2.map Prod.snd, s < (deepcopyDict h d).1.length) ∧
      ∀ k s, (k, s) ∈ (deepcopyDict h d).2 → ∃ r F, (k, r) ∈ d ∧ h[r]? = some F ∧
        (deepcopyDict h d).1[s]? = some F.copy := by
  have hded : (d.map Prod.snd).dedup = d.map Prod.snd := List.dedup_eq_self.mpr hn
  unfold deepcopyDict
  simp only [hded]
  have hidx : ∀ r ∈ d.map Prod.snd, (d.map Prod.snd).idxOf r < (d.map Prod.snd).length :=
    fun r hr => List.idxOf_lt_length_iff.mpr hr
  have hfm : ∀ rs : List Ref, (∀ r ∈ rs, r < h.length) →
      (rs.filterMap (fun r => h[r]?)).length = rs.length ∧
      ∀ i (hi : i < rs.length), (rs.filterMap (fun r => h[r]?))[i]? = h[rs[i]]? := by
    intro rs hrs
    induction rs with
    | nil => exact ⟨rfl, fun i hi => absurd hi (by simp)⟩
    | cons r rs ih =>
      obtain ⟨h1, h2⟩ := ih (fun s hs => hrs s (List.mem_cons_of_mem _ hs))
      have hr := List.getElem?_eq_getElem (hrs r List.mem_cons_self)
      rw [List.filterMap_cons_some hr]
      refine ⟨by simp [h1], fun i hi => ?_⟩
      cases i with
      | zero => simp [hr]
      | succ i => simpa using h2 i (by simpa using hi)
  obtain ⟨hl, hg⟩ := hfm _ hv
  refine ⟨by simp [Function.comp_def], ?_, ?_, ?_⟩
  · rw [List.map_map]
    have : (Prod.snd ∘ fun x : Str × Ref => (x.1, h.length + (d.map Prod.snd).idxOf x.2))
        = (fun r => h.length + (d.map Prod.snd).idxOf r) ∘ Prod.snd := rfl
    rw [this, ← List.map_map]
    refine List.Nodup.map_on ?_ hn
    intro x hx y hy hxy
    have : (d.map Prod.snd).idxOf x = (d.map Prod.snd).idxOf y := Nat.add_left_cancel hxy
    exact (List.idxOf_inj hx).mp this
  · intro s hs
    simp only [List.map_map, List.mem_map, Function.comp] at hs
    obtain ⟨x, hx, rfl⟩ := hs
    have := hidx x.2 (List.mem_map.mpr ⟨x, hx, rfl⟩)
    simp only [List.length_append, List.length_map (f := FM.copy), hl]
    rw [List.length_map] at this ⊢
    exact Nat.add_lt_add_left this _
  · intro k s hs
    obtain ⟨x, hx, he⟩ := List.mem_map.mp hs
    simp only [Prod.mk.injEq] at he
    obtain ⟨rfl, rfl⟩ := he
    have hm : x.2 ∈ d.map Prod.snd := List.mem_map.mpr ⟨x, hx, rfl⟩
    have hlt := hidx x.2 hm
    have hr := List.getElem?_eq_getElem (hv _ hm)
    refine ⟨x.2, h[x.2]'(hv _ hm), hx, hr, ?_⟩
    rw [List.getElem?_append_right (Nat.le_add_right _ _), Nat.add_sub_cancel_left,
      List.getElem?_map, hg _ hlt, List.getElem_idxOf, hr]
    rfl

/-- C59. If creating the results of one configuration does not raise, then for every name in the
result the matrix is the prepared loaded matrix of that name or the signed sum of prepared loaded
matrices, the reported errors are those of that matrix, every loaded name and every combination of
loaded names is in the result, and nothing else. -/
theorem final_results {en : Finset N → List N} (hen : Iteration en) (sq : K → K) {w0 wa : N}
    (hw : w0 ≠ wa) (h : Heap N K) (d : Dict Str Ref) (M : Str → FM N K)
    (hk : (d.map Prod.fst).Nodup) (hn : (d.map Prod.snd).Nodup)
    (hM : ∀ k r, (k, r) ∈ d → h[r]? = some (M k) ∧ (M k).WF ∧ Disjoint (M k).cosmo (M k).nuis ∧
      (M k).margFlag = true)
    (fixed : Finset N) (mode : NuisMode) (cs : List Comb) (hcs : ∀ c ∈ cs, c.Valid ∧ c.terms ≠ [])
    {h' : Heap N K} {Fs : Dict Str Ref} {errs : List (List (N × K) × Option K)}
    (hok : createResults en sq w0 wa h d fixed mode (cs.map Comb.text) = (h', .ok (Fs, errs))) :
    errs.length = Fs.length ∧
    (∀ k ∈ d.map Prod.fst, k ∈ Fs.map Prod.fst) ∧
    (∀ c ∈ cs, (∀ o ∈ c.operands, o ∈ d.map Prod.fst) → c.text ∈ Fs.map Prod.fst) ∧
    ∀ i (hi : i < Fs.length), ∃ F out, h'[Fs[i].2]? = some F ∧ errs[i]? = some out ∧ F.WF ∧
      ErrorsOf sq w0 wa (F.cosmo ∪ F.nuis) F.cosmo true F.matrix.val out ∧
      ((Fs[i].1 ∈ d.map Prod.fst ∧ Prepared fixed mode (M Fs[i].1) F) ∨
        ∃ c ∈ cs, Fs[i].1 = c.text ∧ (∀ o ∈ c.operands, o ∈ d.map Prod.fst) ∧
          ∃ P : Str → FM N K, (∀ o ∈ c.operands, Prepared fixed mode (M o) (P o)) ∧
            IsComb P c F) := by
  have hv : ∀ r ∈ d.map Prod.snd, r < h.length := by
    intro r hr
    obtain ⟨⟨k, r'⟩, hx, rfl⟩ := List.mem_map.mp hr
    exact (List.getElem?_eq_some_iff.mp (hM k r' hx).1).1
  obtain ⟨c1, c2, c3, c4⟩ := deepcopy_spec hn hv
  unfold createResults at hok
  simp only at hok
  generalize deepcopyDict h d = c at *
  split at hok
  · cases hok
  rename_i h2 o2 heq2
  split at hok
  · cases hok
  rename_i h3 o3 heq3
  split at hok
  · cases hok
  rename_i h4 Fs4 heq4
  split at hok
  · cases hok
  rename_i h5 o5 heq5
  split at hok
  · cases hok
  rename_i h6 errs6 heq6
  cases hok
  -- prepared copies
  have prep : ∀ k s, (k, s) ∈ c.2 → ∃ F, h3[s]? = some F ∧ NotStale F ∧
      Prepared fixed mode (M k) F := by
    intro k s hs
    obtain ⟨r, F₀, g1, g2, g3⟩ := c4 k s hs
    obtain ⟨m1, m2, m3, m4⟩ := hM k r g1
    rw [g2] at m1; cases m1
    have hsm : s ∈ c.2.map Prod.snd := List.mem_map.mpr ⟨_, hs, rfl⟩
    obtain ⟨A, B, u, a1, a2, a3⟩ := forRefs_ok_mem _ c2 heq2 hsm
    rw [g3] at a1; cases a1
    obtain ⟨A', B', u', b1, b2, b3⟩ := forRefs_ok_mem _ c2 heq3 hsm
    rw [a3] at b1; cases b1
    obtain ⟨p1, p2⟩ := prepared_of_steps hen m2 m3 m4 a2 b2
    exact ⟨B', b3, p1, p2⟩
  have ck : (c.2.map Prod.fst).Nodup := by rw [c1]; exact hk
  obtain ⟨P, hP⟩ : ∃ P : Str → FM N K, ∀ k s, c.2.lookup k = some s → h3[s]? = some (P k) ∧
      NotStale (P k) ∧ Prepared fixed mode (M k) (P k) := by
    refine ⟨fun k => ((c.2.lookup k).bind (fun s => h3[s]?)).getD (M k), fun k s hs => ?_⟩
    obtain ⟨F, q1, q2, q3⟩ := prep k s (mem_of_lookup hs)
    simp only [hs, Option.bind_some, q1, Option.getD_some]
    exact ⟨trivial, q2, q3⟩
  have c3' : ∀ s ∈ c.2.map Prod.snd, s < h3.length := by
    intro s hs
    have h1 := (forRefs_frame (fun F : FM N K => F.fix fixed) (c.2.map Prod.snd) c.1).1
    have h2 := (forRefs_frame (nuisStep en mode) (c.2.map Prod.snd) h2).1
    rw [heq2] at h1
    rw [heq3] at h2
    simp only at h1 h2
    rw [h2, h1]; exact c3 s hs
  obtain ⟨ext, Fs', e1, e2, e3, e4, e5⟩ := combinations_all hen P cs hcs h3 c.2
    (fun o t _ ht => ⟨(hP o t ht).1, (hP o t ht).2.1.1⟩)
  rw [heq4] at e1
  cases e1
  obtain ⟨fk, fn⟩ := e5 ck
  have fn := fn c2 c3'
  have keyd : ∀ k, (∃ s, c.2.lookup k = some s) ↔ k ∈ d.map Prod.fst := by
    intro k
    rw [← c1]
    constructor
    · rintro ⟨s, hs⟩; exact List.mem_map.mpr ⟨_, mem_of_lookup hs, rfl⟩
    · intro hm
      obtain ⟨⟨k', s⟩, hx, rfl⟩ := List.mem_map.mp hm
      exact ⟨s, lookup_of_mem ck hx⟩
  have hpresent : ∀ co : Comb, co.Present c.2 ↔ ∀ o ∈ co.operands, o ∈ d.map Prod.fst := by
    intro co
    unfold Comb.Present
    refine forall₂_congr (fun o _ => ?_)
    rw [← keyd, Option.isSome_iff_exists]
  have look_mem : ∀ k s, Fs.lookup k = some s → k ∈ Fs.map Prod.fst := fun k s hs =>
    List.mem_map.mpr ⟨_, mem_of_lookup hs, rfl⟩
  -- objects of the analysis
  unfold analysisInit at heq5
  split at heq5
  · cases heq5
  rename_i h45 o45 heq45
  refine ⟨by have := (forRefs_ok _ _ fn _ _ heq6).1; simpa using this, ?_, ?_, ?_⟩
  · intro k hkd
    obtain ⟨s, hs⟩ := (keyd k).mpr hkd
    by_cases hmem : k ∈ cs.map Comb.text
    · obtain ⟨co, hco, rfl⟩ := List.mem_map.mp hmem
      by_cases hp : co.Present c.2
      · obtain ⟨r, R, q, _⟩ := e3 co hco hp
        exact look_mem _ _ q
      · exact look_mem _ s (by rw [e4 co hco hp]; exact hs)
    · exact look_mem _ s (by rw [e2 k hmem]; exact hs)
  · intro co hco hop
    obtain ⟨r, R, q, _⟩ := e3 co hco ((hpresent co).mpr hop)
    exact look_mem _ _ q
  · intro i hi
    have hi' : i < (Fs.map Prod.snd).length := by simpa using hi
    obtain ⟨F5, F6, out, t1, t2, t3, t4⟩ := (forRefs_ok _ _ fn _ _ heq6).2 i hi'
    have hmem : (Fs.map Prod.snd)[i] ∈ Fs.map Prod.snd := List.getElem_mem hi'
    obtain ⟨F45, F5', u, s1, s2, s3⟩ := forRefs_ok_mem _ fn heq5 hmem
    obtain ⟨F4, F45', u', r1, r2, r3⟩ := forRefs_ok_mem _ fn heq45 hmem
    rw [s3] at t1; cases t1
    rw [r3] at s1; cases s1
    cases r2
    have hidx : (Fs.map Prod.snd)[i] = Fs[i].2 := by simp
    rw [hidx] at r1 t3
    have hlook : Fs.lookup Fs[i].1 = some Fs[i].2 := lookup_of_mem fk (List.getElem_mem hi)
    -- where the object comes from
    have origin : NotStale F4 ∧ ((Fs[i].1 ∈ d.map Prod.fst ∧ Prepared fixed mode (M Fs[i].1) F4) ∨
        ∃ c ∈ cs, Fs[i].1 = c.text ∧ (∀ o ∈ c.operands, o ∈ d.map Prod.fst) ∧
          ∃ P : Str → FM N K, (∀ o ∈ c.operands, Prepared fixed mode (M o) (P o)) ∧
            IsComb P c F4) := by
      have base : c.2.lookup Fs[i].1 = some Fs[i].2 → NotStale F4 ∧ Fs[i].1 ∈ d.map Prod.fst ∧
          Prepared fixed mode (M Fs[i].1) F4 := by
        intro hl
        obtain ⟨q1, q2, q3⟩ := hP _ _ hl
        have := get_append_of_some q1 ext
        rw [r1] at this; cases this
        exact ⟨q2, (keyd _).mp ⟨_, hl⟩, q3⟩
      by_cases hmt : Fs[i].1 ∈ cs.map Comb.text
      · obtain ⟨co, hco, hte⟩ := List.mem_map.mp hmt
        by_cases hp : co.Present c.2
        · obtain ⟨r, R, q1, q2, q3, q4, q5, q6, q7⟩ := e3 co hco hp
          rw [hte, hlook] at q1
          cases q1
          rw [r1] at q3; cases q3
          refine ⟨⟨q4, Or.inl q5⟩, Or.inr ⟨co, hco, hte.symm, (hpresent co).mp hp, P, ?_, q7⟩⟩
          intro o ho
          obtain ⟨s, hs⟩ := Option.isSome_iff_exists.mp (hp o ho)
          exact (hP o s hs).2.2
        · have := e4 co hco hp
          rw [hte, hlook] at this
          obtain ⟨b1, b2⟩ := base this.symm
          exact ⟨b1, Or.inl b2⟩
      · have := e2 _ hmt
        rw [hlook] at this
        obtain ⟨b1, b2⟩ := base this.symm
        exact ⟨b1, Or.inl b2⟩
    obtain ⟨ns, org⟩ := origin
    obtain ⟨R, z1, z2, z3, z4⟩ := select_true hen (F := { F4 with margFlag := true }) ns rfl
    rw [s2] at z1; cases z1
    obtain ⟨y1, y2, y3, y4⟩ := errors_of_notStale hen sq hw true true z2 t2
    have hsame : SameContent F4 F6 := ⟨z4.1.trans y3.1, z4.2.1.trans y3.2.1,
      fun a b => (z4.2.2 a b).trans (y3.2.2 a b)⟩
    have hname : F6.name = F4.name := y2.trans z3
    refine ⟨F6, out, t3, t4, y1, by simpa using y4, ?_⟩
    rcases org with ⟨o1, o2⟩ | ⟨co, o1, o2, o3, P', o4, o5⟩
    · exact Or.inl ⟨o1, o2.congr y1 hname hsame⟩
    · exact Or.inr ⟨co, o1, o2, o3, P', o4, o5.congr hname hsame⟩

end Seyfert.Fisher
