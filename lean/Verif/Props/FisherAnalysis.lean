import Verif.Props.FisherStore

/-!
C14: an analysis and its base matrices.
-/

set_option linter.unusedSectionVars false

namespace Seyfert.Fisher

variable {N K : Type} [LinearOrder N] [Field K] [DecidableEq K]

/-! ### Which objects an operation can change -/

/-- C09. Whatever the operands, a sum or difference only adds objects, and its result is new. -/
theorem combineH_extends {en : Finset N → List N} {op : K → K → K} {sep : Str} {h h' : Heap N K}
    {i j r : Ref} (e : combineH en op sep h i j = .ok (h', r)) :
    (∃ ext, h' = h ++ ext) ∧ h.length ≤ r ∧ r < h'.length := by
  cases hi : h[i]? with
  | none => unfold combineH at e; rw [hi] at e; cases e
  | some F =>
    cases hj : h[j]? with
    | none => unfold combineH at e; rw [hi, hj] at e; cases e
    | some G =>
      rw [combineH_eq en op sep h hi hj] at e
      split at e
      · cases e
      · cases e
        exact ⟨⟨_, rfl⟩, by omega, by simp⟩

theorem sumRefs_extends {en : Finset N → List N} (rs : List Ref) {h h' : Heap N K} {r r' : Ref}
    (hr : r < h.length) (e : sumRefs en h r rs = .ok (h', r')) :
    (∃ ext, h' = h ++ ext) ∧ (r' = r ∨ h.length ≤ r') ∧ r' < h'.length := by
  induction rs generalizing h r with
  | nil => unfold sumRefs at e; cases e; exact ⟨⟨[], by simp⟩, Or.inl rfl, hr⟩
  | cons s ss ih =>
    unfold sumRefs at e
    split at e
    · cases e
    · rename_i h1 r1 heq
      obtain ⟨⟨e1, rfl⟩, h2, h3⟩ := combineH_extends heq
      obtain ⟨⟨e2, rfl⟩, h4, h5⟩ := ih h3 e
      refine ⟨⟨e1 ++ e2, by simp⟩, ?_, h5⟩
      right
      rcases h4 with rfl | h4
      · exact h2
      · rw [List.length_append] at h4; omega

/-- References in a dictionary after an assignment. -/
theorem dictSet_refs {d : Dict Str Ref} {k : Str} {v r : Ref}
    (h : r ∈ (dictSet d k v).map Prod.snd) : r = v ∨ r ∈ d.map Prod.snd := by
  unfold dictSet at h
  split at h
  · obtain ⟨x, hx, rfl⟩ := List.mem_map.mp h
    obtain ⟨y, hy, rfl⟩ := List.mem_map.mp hx
    split
    · exact Or.inl rfl
    · exact Or.inr (List.mem_map.mpr ⟨y, hy, rfl⟩)
  · rw [List.map_append, List.mem_append] at h
    rcases h with h | h
    · exact Or.inr h
    · simp at h; exact Or.inl h

/-- C14. Building the working matrices from lists of addends changes no object; a list of two or more
addends gives a new object, a list of one addend the base object itself. -/
theorem fromAddends_extends {en : Finset N → List N} (base : Dict Str Ref) (ls : List (List Str))
    (h : Heap N K) (mats : Dict Str Ref) :
    (∃ ext, (fromAddends en base h mats ls).1 = h ++ ext) ∧
      ∀ r ∈ (fromAddends en base h mats ls).2.1.map Prod.snd,
        r ∈ mats.map Prod.snd ∨ h.length ≤ r ∨
          ∃ name, [name] ∈ ls ∧ base.lookup name = some r := by
  induction ls generalizing h mats with
  | nil => unfold fromAddends; exact ⟨⟨[], by simp⟩, fun r hr => Or.inl hr⟩
  | cons adds rest ih =>
    unfold fromAddends
    split
    · exact ⟨⟨[], by simp⟩, fun r hr => Or.inl hr⟩
    · rename_i name
      split
      · exact ⟨⟨[], by simp⟩, fun r hr => Or.inl hr⟩
      · rename_i r0 hl
        obtain ⟨h1, h2⟩ := ih h (dictSet mats name r0)
        refine ⟨h1, fun r hr => ?_⟩
        rcases h2 r hr with h3 | h3 | ⟨n, h3, h4⟩
        · rcases dictSet_refs h3 with rfl | h3
          · exact Or.inr (Or.inr ⟨name, by simp, hl⟩)
          · exact Or.inl h3
        · exact Or.inr (Or.inl h3)
        · exact Or.inr (Or.inr ⟨n, List.mem_cons_of_mem _ h3, h4⟩)
    · rename_i first others hne
      split
      · rename_i r0 rs h1 h2
        split
        · exact ⟨⟨[], by simp⟩, fun r hr => Or.inl hr⟩
        · rename_i F hF
          split
          · exact ⟨⟨[], by simp⟩, fun r hr => Or.inl hr⟩
          · rename_i h' r' hs
            obtain ⟨⟨e1, rfl⟩, h3, h4⟩ := sumRefs_extends rs (by simp) hs
            obtain ⟨⟨e2, h5⟩, h6⟩ := ih (h ++ [F.copy] ++ e1)
              (dictSet mats (joinStr "+".toList (first :: others)) r')
            refine ⟨⟨[F.copy] ++ e1 ++ e2, by rw [h5]; simp⟩, fun r hr => ?_⟩
            have hge : h.length ≤ r' := by
              rcases h3 with rfl | h3
              · exact le_refl _
              · rw [List.length_append] at h3; simp at h3; omega
            rcases h6 r hr with h7 | h7 | ⟨n, h7, h8⟩
            · rcases dictSet_refs h7 with rfl | h7
              · exact Or.inr (Or.inl hge)
              · exact Or.inl h7
            · right; left
              simp only [List.length_append, List.length_cons, List.length_nil] at h7
              omega
            · exact Or.inr (Or.inr ⟨n, List.mem_cons_of_mem _ h7, h8⟩)
      · exact ⟨⟨[], by simp⟩, fun r hr => Or.inl hr⟩

/-- The dictionary of base matrices is never changed after loading. -/
theorem step_base (en : Finset N → List N) (sq : K → K) (w0 wa : N) (h : Heap N K) (a : Analysis)
    (o : AOp N) : (a.step en sq w0 wa h o).2.1.base = a.base := by
  cases o <;> simp only [Analysis.step]
  · unfold Analysis.useBase
    cases hb : a.base <;> simp [hb]
  · cases hb : a.base <;> simp

/-- Operations after which the working matrices do not share objects with the base ones. -/
def AOp.Safe : AOp N → Prop
  | .useBase => False
  | .addends ls => ∀ l ∈ ls, l.length ≠ 1
  | _ => True

/-- C14, true part 1.  As long as the working matrices are sums of two or more base matrices - they
share no object with the base matrices and `useBaseFishers` or a sum of one addend is not called - no
history of slicing, inverting, marginalising, error evaluation and new sums changes any base matrix,
whether or not operations raise.  Missing for C14: working matrices that are base matrices
themselves, where `base_changed` shows the claim false. -/
theorem base_unchanged_partial (en : Finset N → List N) (sq : K → K) (w0 wa : N)
    (ops : List (AOp N)) (hs : ∀ o ∈ ops, o.Safe) (h : Heap N K) (a : Analysis) (b : Dict Str Ref)
    (hb : a.base = some b) (hval : ∀ r ∈ b.map Prod.snd, r < h.length)
    (hdis : ∀ r ∈ b.map Prod.snd, r ∉ a.mats.map Prod.snd) :
    (Analysis.run en sq w0 wa h a ops).2.base = some b ∧
      ∀ r ∈ b.map Prod.snd, (Analysis.run en sq w0 wa h a ops).1[r]? = h[r]? := by
  induction ops generalizing h a with
  | nil => exact ⟨hb, fun _ _ => rfl⟩
  | cons o os ih =>
    have hs' : ∀ o ∈ os, o.Safe := fun o ho => hs o (List.mem_cons_of_mem _ ho)
    have key : (∀ r ∈ b.map Prod.snd, (a.step en sq w0 wa h o).1[r]? = h[r]?) ∧
        (∀ r ∈ b.map Prod.snd, r ∉ (a.step en sq w0 wa h o).2.1.mats.map Prod.snd) := by
      have loop : ∀ {α : Type} (f : FM N K → Res N K α), ∀ r ∈ b.map Prod.snd,
          (forRefs f h (a.mats.map Prod.snd)).1[r]? = h[r]? :=
        fun f r hr => (forRefs_frame f _ h).2 r (hdis r hr)
      cases o with
      | useBase => exact absurd (hs _ List.mem_cons_self) (by simp [AOp.Safe])
      | addends ls =>
        simp only [Analysis.step, hb]
        obtain ⟨⟨ext, e1⟩, e2⟩ := fromAddends_extends (en := en) b ls h []
        refine ⟨fun r hr => ?_, fun r hr hm => ?_⟩
        · rw [e1, List.getElem?_append_left (hval r hr)]
        · rcases e2 r hm with h1 | h1 | ⟨n, h1, h2⟩
          · simp at h1
          · exact absurd (hval r hr) (Nat.not_lt.mpr h1)
          · exact hs _ List.mem_cons_self [n] h1 rfl
      | marg ps => exact ⟨loop _, hdis⟩
      | slice => exact ⟨loop _, hdis⟩
      | invert => exact ⟨loop _, hdis⟩
      | prepare => exact ⟨loop _, hdis⟩
      | errors => exact ⟨loop _, hdis⟩
    have hval' : ∀ r ∈ b.map Prod.snd, r < (a.step en sq w0 wa h o).1.length := by
      intro r hr
      have h1 := key.1 r hr
      rw [List.getElem?_eq_getElem (hval r hr)] at h1
      exact (List.getElem?_eq_some_iff.mp h1).1
    obtain ⟨h1, h2⟩ := ih hs' (a.step en sq w0 wa h o).1 (a.step en sq w0 wa h o).2.1
      (by rw [step_base, hb]) hval' key.2
    exact ⟨h1, fun r hr => by rw [← key.1 r hr]; exact h2 r hr⟩

/-! ### Operations that keep contents -/

/-- A well-formed object that marginalises nuisance parameters keeps name and content. -/
def Keeps (F F' : FM N K) : Prop :=
  F.WF → F.margFlag = true → F'.WF ∧ F'.margFlag = true ∧ F'.name = F.name ∧ SameContent F F'

theorem Keeps.refl (F : FM N K) : Keeps F F := fun h1 h2 => ⟨h1, h2, rfl, rfl, rfl, fun _ _ => rfl⟩

theorem Keeps.trans {F G H : FM N K} (h1 : Keeps F G) (h2 : Keeps G H) : Keeps F H := by
  intro w f
  obtain ⟨w1, f1, n1, c1, c2, c3⟩ := h1 w f
  obtain ⟨w2, f2, n2, d1, d2, d3⟩ := h2 w1 f1
  exact ⟨w2, f2, n2.trans n1, c1.trans d1, c2.trans d2, fun a b => (c3 a b).trans (d3 a b)⟩

theorem keeps_of_cache (F : FM N K) (i c : Option (DF N K)) :
    Keeps F { F with inverse := i, correlation := c } :=
  fun h1 h2 => ⟨h1, h2, rfl, rfl, rfl, fun _ _ => rfl⟩

theorem keeps_evalInverse (F : FM N K) : Keeps F F.evalInverse.1 := by
  unfold FM.evalInverse
  split
  · exact Keeps.refl F
  · exact keeps_of_cache F _ _

theorem keeps_evalCorrelation (en : Finset N → List N) (sq : K → K) (F : FM N K) :
    Keeps F (F.evalCorrelation en sq).1 := by
  unfold FM.evalCorrelation
  split
  · exact Keeps.refl F
  · simp only
    split
    · exact Keeps.refl F
    · split
      · exact Keeps.refl F
      · split
        · exact keeps_of_cache F F.inverse _
        · exact keeps_of_cache F F.inverse _

theorem keeps_margErrors (en : Finset N → List N) (sq : K → K) (w0 wa : N) (f o : Bool)
    (F : FM N K) : Keeps F (F.margErrors en sq w0 wa f o).1 := by
  unfold FM.margErrors
  split
  · exact Keeps.refl F
  · have := keeps_evalInverse F
    split <;> rename_i heq <;> rw [heq] at this <;> exact this

theorem keeps_select {en : Finset N → List N} (hen : Iteration en) (F : FM N K) :
    Keeps F (F.select en).1 := by
  intro hF hfl
  have hF' : F.matrix.On (F.cosmo ∪ F.nuis) := hF
  unfold FM.select
  simp only
  rw [if_pos (fun a ha => (hF'.mem a).mpr ha)]
  obtain ⟨hl, hlon⟩ := On.locSet hen hF' (Finset.sdiff_subset (s := F.cosmo ∪ F.nuis)
    (t := if F.margFlag then ∅ else F.nuis))
  rw [hl]
  simp only [hfl, if_true]
  have hw := On.sortIndex hlon
  simp only [hfl, if_true, Finset.sdiff_empty] at hw
  have hw' : (DF.sortIndex { F.matrix with
      rows := en (F.cosmo ∪ F.nuis), cols := en (F.cosmo ∪ F.nuis) }).On (F.cosmo ∪ F.nuis) := hw
  rw [Finset.sdiff_empty]
  refine ⟨hw', trivial, trivial, rfl, rfl, fun a b => ?_⟩
  simp only
  rw [On.ent hF', On.ent hw']
  rfl

theorem keeps_invertOne (en : Finset N → List N) (sq : K → K) (F : FM N K) :
    Keeps F (invertOne en sq F).1 := by
  unfold invertOne
  have := keeps_evalInverse F
  split <;> rename_i heq <;> rw [heq] at this
  · exact this
  · exact this.trans (keeps_evalCorrelation en sq _)

theorem keeps_prepareOne {en : Finset N → List N} (hen : Iteration en) (sq : K → K) (F : FM N K) :
    Keeps F (prepareOne en sq F).1 := by
  unfold prepareOne
  have := keeps_select hen F
  split <;> rename_i heq <;> rw [heq] at this
  · exact this
  · exact this.trans (keeps_invertOne en sq _)

theorem forRefs_keeps {α : Type} (f : FM N K → Res N K α) (hf : ∀ F, Keeps F (f F).1)
    (rs : List Ref) (h : Heap N K) (r : Ref) (F : FM N K) (hr : h[r]? = some F) :
    ∃ F', (forRefs f h rs).1[r]? = some F' ∧ Keeps F F' := by
  induction rs generalizing h F with
  | nil => exact ⟨F, hr, Keeps.refl F⟩
  | cons s rs ih =>
    unfold forRefs
    split
    · exact ⟨F, hr, Keeps.refl F⟩
    · rename_i G hG
      have hG' := hf G
      have hset : ∀ G', Keeps G G' → ∃ F', (h.set s G')[r]? = some F' ∧ Keeps F F' := by
        intro G' hk
        by_cases hsr : s = r
        · subst hsr
          rw [hr] at hG; cases hG
          exact ⟨G', by simp [(List.getElem?_eq_some_iff.mp hr).1], hk⟩
        · exact ⟨F, by rw [List.getElem?_set_ne hsr, hr], Keeps.refl F⟩
      split
      · rename_i G' e heq
        rw [heq] at hG'
        exact hset G' hG'
      · rename_i G' a heq
        rw [heq] at hG'
        obtain ⟨F₁, h1, h2⟩ := hset G' hG'
        obtain ⟨F₂, h3, h4⟩ := ih (h.set s G') F₁ h1
        split <;> rename_i heq' <;> rw [heq'] at h3 <;> exact ⟨F₂, h3, h2.trans h4⟩

/-- C14, true part 2.  Without marginalisation no history changes the name, the parameters or an
entry of any matrix, base or not, even when the working matrices are the base matrices. -/
theorem contents_unchanged_partial {en : Finset N → List N} (hen : Iteration en) (sq : K → K)
    (w0 wa : N) (ops : List (AOp N)) (hm : ∀ o ∈ ops, ∀ ps, o ≠ .marg ps) (h : Heap N K)
    (a : Analysis) (r : Ref) (F : FM N K) (hr : h[r]? = some F) (hF : F.WF)
    (hfl : F.margFlag = true) :
    ∃ F', (Analysis.run en sq w0 wa h a ops).1[r]? = some F' ∧ F'.WF ∧ F'.name = F.name ∧
      SameContent F F' := by
  have main : ∃ F', (Analysis.run en sq w0 wa h a ops).1[r]? = some F' ∧ Keeps F F' := by
    clear hF hfl
    induction ops generalizing h a F with
    | nil => exact ⟨F, hr, Keeps.refl F⟩
    | cons o os ih =>
      have key : ∃ F', (a.step en sq w0 wa h o).1[r]? = some F' ∧ Keeps F F' := by
        cases o with
        | useBase =>
          refine ⟨F, ?_, Keeps.refl F⟩
          simp only [Analysis.step]
          split <;> exact hr
        | addends ls =>
          refine ⟨F, ?_, Keeps.refl F⟩
          simp only [Analysis.step]
          split
          · exact hr
          · rename_i b _
            obtain ⟨⟨ext, e1⟩, _⟩ := fromAddends_extends (en := en) b ls h []
            simp only [e1]
            exact get_append_of_some hr _
        | marg ps => exact absurd rfl (hm _ List.mem_cons_self ps)
        | slice => exact forRefs_keeps _ (keeps_select hen) _ h r F hr
        | invert => exact forRefs_keeps _ (keeps_invertOne en sq) _ h r F hr
        | prepare => exact forRefs_keeps _ (keeps_prepareOne hen sq) _ h r F hr
        | errors => exact forRefs_keeps _ (keeps_margErrors en sq w0 wa true true) _ h r F hr
      obtain ⟨F₁, h1, h2⟩ := key
      obtain ⟨F₂, h3, h4⟩ := ih (fun o ho => hm o (List.mem_cons_of_mem _ ho))
        (a.step en sq w0 wa h o).1 (a.step en sq w0 wa h o).2.1 F₁ h1
      exact ⟨F₂, h3, h2.trans h4⟩
  obtain ⟨F', h1, h2⟩ := main
  obtain ⟨h3, _, h4, h5⟩ := h2 hF hfl
  exact ⟨F', h1, h3, h4, h5⟩

/-- C14 is false in general: after `useBaseFishers`, marginalising the working matrices marginalises
the base matrices, so "starting again from the base matrices" is not possible. -/
theorem base_changed {en : Finset ℕ → List ℕ} (hen : Iteration en) (sq : ℚ → ℚ) (w0 wa : ℕ) :
    let a : Analysis := { base := some [("[WL]".toList, 0)], mats := [] }
    let s := Analysis.run en sq w0 wa [exP] a [.useBase, .marg none]
    ∃ F, s.1[0]? = some F ∧ s.2.base = a.base ∧ exP.nuis = {1} ∧ F.nuis = ∅ := by
  intro a s
  have hW : Inverse ((exP.cosmo ∪ exP.nuis) \ exP.nuis)
      (fun a b => if a = b then 2 / 3 else -1 / 3 : ℕ → ℕ → ℚ) (fun _ _ => 3 / 2) := by
    have e : (exP.cosmo ∪ exP.nuis) \ exP.nuis = {0} := by decide
    rw [e, inverse_sum]
    simp
  obtain ⟨R, I, h1, h2, h3, h4, h5, h6, _⟩ := margInPlace_spec hen exP_WF
    (A := exP.nuis) Finset.subset_union_right exP_inverse hW
  have hone : margOne en none exP = (R, .ok ()) := by
    unfold margOne
    rw [show (none.getD exP.nuis ∩ exP.phys) = exP.nuis by decide]
    exact h1
  have hs : s.1 = [R] := by
    simp only [s, a, Analysis.run, Analysis.step, Analysis.useBase, List.map_cons, List.map_nil,
      forRefs, List.getElem?_cons_zero, hone, List.set_cons_zero]
  refine ⟨R, by rw [hs]; rfl, ?_, rfl, by rw [h6, Finset.sdiff_self]⟩
  simp only [s, Analysis.run, step_base]

/-- The hypotheses of `base_unchanged_partial` on two matrices: sums, then any operations. -/
example (sq : ℚ → ℚ) (ps : Finset ℕ) :
    let a : Analysis := { base := some [("[WL]".toList, 0), ("[GCph]".toList, 1)], mats := [] }
    let s := Analysis.run (fun s => s.sort (· ≤ ·)) sq 0 1 [exF, exG] a
      [.addends [["[WL]".toList, "[GCph]".toList]], .marg (some ps), .prepare, .errors]
    s.1[0]? = some exF ∧ s.1[1]? = some exG := by
  intro a s
  have := base_unchanged_partial (fun s => s.sort (· ≤ ·)) sq 0 1
    [.addends [["[WL]".toList, "[GCph]".toList]], .marg (some ps), .prepare, .errors]
    (by simp [AOp.Safe]) [exF, exG] a [("[WL]".toList, 0), ("[GCph]".toList, 1)] rfl (by simp)
    (by simp [a])
  exact ⟨this.2 0 (by simp), this.2 1 (by simp)⟩

end Seyfert.Fisher
