import Verif.Props.Fisher
import Mathlib.LinearAlgebra.Matrix.PosDef
import Mathlib.Data.Real.Star

/-!
Reported errors: C12 (errors describe the current matrix, over histories of operations), C57
(correlation matrix), C10 for positive definite matrices (marginalisation never fails).
-/

set_option linter.unusedSectionVars false

namespace Seyfert.Fisher

variable {N K : Type} [LinearOrder N] [Field K] [DecidableEq K]

/-! ### Histories -/

/-- The operations a user can apply to a Fisher matrix object. -/
inductive Op (N K : Type) where
  | inverse
  | correlation
  | errors (fom onlyCosmo : Bool)
  | fix (A : Finset N)
  | marg (A : Finset N)
  | margCopyKeep (A : Finset N)   -- copy-returning form, the copy is thrown away
  | margCopyTake (A : Finset N)   -- copy-returning form, the copy replaces the object
  | margNuis
  | select
  | prior (fid : List (N × K)) (frac : K)
  | copy

/-- One operation; `none` if it raises. -/
noncomputable def stepOk (en : Finset N → List N) (sq : K → K) (w0 wa : N) (F : FM N K) :
    Op N K → Option (FM N K)
  | .inverse => match F.evalInverse with
    | (F', .ok _) => some F'
    | _ => none
  | .correlation => match F.evalCorrelation en sq with
    | (F', .ok _) => some F'
    | _ => none
  | .errors f o => match F.margErrors en sq w0 wa f o with
    | (F', .ok _) => some F'
    | _ => none
  | .fix A => match F.fix A with
    | (F', .ok _) => some F'
    | _ => none
  | .marg A => match F.margInPlace en A with
    | (F', .ok _) => some F'
    | _ => none
  | .margCopyKeep A => match F.margCopy en A with
    | (F', .ok _) => some F'
    | _ => none
  | .margCopyTake A => match F.margCopy en A with
    | (_, .ok R) => some R
    | _ => none
  | .margNuis => match F.margNuisInPlace en with
    | (F', .ok _) => some F'
    | _ => none
  | .select => match F.select en with
    | (F', .ok _) => some F'
    | _ => none
  | .prior fid frac => match F.addPrior fid frac with
    | (F', .ok _) => some F'
    | _ => none
  | .copy => some F.copy

/-- A history of operations none of which raises. -/
noncomputable def runOk (en : Finset N → List N) (sq : K → K) (w0 wa : N) (F : FM N K) :
    List (Op N K) → Option (FM N K)
  | [] => some F
  | o :: os => (stepOk en sq w0 wa F o).bind fun F' => runOk en sq w0 wa F' os

/-- Specification of when the cached inverse may be out of date, by the history alone. -/
inductive Cache where
  | none | fresh | stale
deriving DecidableEq

/-- An operation that changes the matrix without touching the cached inverse. -/
def Cache.touch : Cache → Cache
  | .none => .none
  | _ => .stale

def Cache.next (flag : Bool) (c : Cache) : Op N K → Cache
  | .inverse => .fresh
  | .correlation => c
  | .errors _ _ => if c = .none then .fresh else c
  | .fix _ => c.touch
  | .marg _ => .fresh
  | .margCopyKeep _ => .fresh
  | .margCopyTake _ => .fresh
  | .margNuis => if flag then .fresh else c
  | .select => if flag then c else c.touch
  | .prior _ _ => c.touch
  | .copy => .none

/-- The errors in `out` are the marginalised errors of the matrix `v` on the parameters `S`:
square roots of the diagonal of its inverse, and the figure of merit of `w0`, `wa`. -/
def ErrorsOf (sq : K → K) (w0 wa : N) (S reported : Finset N) (fom : Bool) (v : N → N → K)
    (out : List (N × K) × Option K) : Prop :=
  ∃ V, Inverse S v V ∧ (out.1.map Prod.fst).Pairwise (· < ·) ∧
    (∀ p, p ∈ out.1.map Prod.fst ↔ p ∈ reported) ∧
    (∀ pe ∈ out.1, pe.2 = sq (V pe.1 pe.1)) ∧
    out.2 = if fom ∧ w0 ∈ S ∧ wa ∈ S then
      some (1 / sq (V w0 w0 * V wa wa - V w0 wa * V wa w0)) else none

/-- Relation between the object and the ghost state. -/
structure Good (flag : Bool) (c : Cache) (F : FM N K) : Prop where
  wf : F.WF
  disj : Disjoint F.cosmo F.nuis
  flag : F.margFlag = flag
  none : c = .none → F.inverse = none
  fresh : c = .fresh → ∃ I, F.inverse = some I ∧ I.On (F.cosmo ∪ F.nuis) ∧
    Inverse (F.cosmo ∪ F.nuis) F.matrix.val I.val

theorem evalInverse_ok {F R : FM N K} (hF : F.WF) {u : Unit} (h : F.evalInverse = (R, .ok u)) :
    ∃ I, R = { F with inverse := some I } ∧ I.On (F.cosmo ∪ F.nuis) ∧
      Inverse (F.cosmo ∪ F.nuis) F.matrix.val I.val := by
  have hF' : F.matrix.On (F.cosmo ∪ F.nuis) := hF
  unfold FM.evalInverse at h
  split at h
  · cases h
  · rename_i m hm
    cases h
    obtain ⟨h1, h2, h3⟩ := On.invertDf_iff hF' m hm
    exact ⟨m, rfl, ⟨by rw [h1, h2, hF'.same], by rw [h1]; exact hF'.nodup,
      by rw [h1]; exact hF'.mem⟩, h3⟩

theorem evalCorrelation_ok {en : Finset N → List N} {sq : K → K} {F R : FM N K} {u : Unit}
    (h : F.evalCorrelation en sq = (R, .ok u)) : ∃ C, R = { F with correlation := some C } := by
  unfold FM.evalCorrelation at h
  split at h
  · cases h
  · simp only at h
    split at h
    · cases h
    · split at h
      · cases h
      · split at h
        · cases h
        · cases h; exact ⟨_, rfl⟩

theorem margCopy_ok_inv {en : Finset N → List N} (hen : Iteration en) {F F' R : FM N K} (hF : F.WF)
    {A : Finset N} (h : F.margCopy en A = (F', .ok R)) :
    A ⊆ F.cosmo ∪ F.nuis ∧ ∃ V W, Inverse (F.cosmo ∪ F.nuis) F.matrix.val V ∧
      Inverse ((F.cosmo ∪ F.nuis) \ A) V W := by
  have hF' : F.matrix.On (F.cosmo ∪ F.nuis) := hF
  unfold FM.margCopy at h
  simp only [On.toFinset hF'] at h
  split at h
  · cases h
  · rename_i hne
    refine ⟨Finset.sdiff_eq_empty_iff_subset.mp (not_not.mp hne), ?_⟩
    split at h
    · cases h
    · rename_i inv hi
      obtain ⟨h1, h2, h3⟩ := On.invertDf_iff hF' inv hi
      have hon : inv.On (F.cosmo ∪ F.nuis) :=
        ⟨by rw [h1, h2, hF'.same], by rw [h1]; exact hF'.nodup, by rw [h1]; exact hF'.mem⟩
      obtain ⟨hl, hlon⟩ := On.locSet hen hon
        (Finset.sdiff_subset (s := F.cosmo ∪ F.nuis) (t := A))
      rw [hl] at h
      simp only at h
      split at h
      · cases h
      · rename_i m hm
        obtain ⟨_, _, h6⟩ := On.invertDf_iff hlon m hm
        exact ⟨_, _, h3, h6⟩

theorem good_marg {en : Finset N → List N} (hen : Iteration en) {flag : Bool} {c : Cache}
    {F R : FM N K} (hF : Good flag c F) {A : Finset N} {u : Unit}
    (h : F.margInPlace en A = (R, .ok u)) : Good flag .fresh R := by
  obtain ⟨hA, V, W, hV, hW⟩ := marg_ok_inv hen hF.wf h
  obtain ⟨R', I, e, wf, _, fl, c', n', hI, hIon, hinv, hIV⟩ := margInPlace_spec hen hF.wf hA hV hW
  rw [h] at e; cases e
  refine ⟨wf, ?_, by rw [fl, hF.flag], by simp, fun _ => ⟨I, hI, hIon, ?_⟩⟩
  · rw [c', n']; exact hF.disj.mono Finset.sdiff_subset Finset.sdiff_subset
  · exact hinv.congr (fun _ _ _ _ => rfl) (fun a ha b hb => (hIV a ha b hb).symm)

theorem select_ok {en : Finset N → List N} (hen : Iteration en) {F R : FM N K} (hF : F.WF)
    (hd : Disjoint F.cosmo F.nuis) {u : Unit} (h : F.select en = (R, .ok u)) :
    R.WF ∧ R.cosmo = F.cosmo ∧ R.nuis = (if F.margFlag then F.nuis else ∅) ∧
      R.matrix.val = F.matrix.val ∧ R.margFlag = F.margFlag ∧ R.inverse = F.inverse ∧
      R.name = F.name := by
  have hF' : F.matrix.On (F.cosmo ∪ F.nuis) := hF
  unfold FM.select at h
  simp only at h
  rw [if_pos (fun a ha => (hF'.mem a).mpr ha)] at h
  obtain ⟨hl, hlon⟩ := On.locSet hen hF' (Finset.sdiff_subset (s := F.cosmo ∪ F.nuis)
    (t := if F.margFlag then ∅ else F.nuis))
  rw [hl] at h
  simp only at h
  cases hfl : F.margFlag with
  | true =>
    simp only [hfl, if_true] at h hlon
    cases h
    refine ⟨?_, rfl, rfl, rfl, rfl, rfl, rfl⟩
    have := On.sortIndex hlon
    rw [Finset.sdiff_empty] at this
    unfold FM.WF
    simpa using this
  | false =>
    simp only [hfl, Bool.false_eq_true, if_false] at h hlon
    cases h
    refine ⟨?_, rfl, rfl, rfl, rfl, rfl, rfl⟩
    have := On.sortIndex hlon
    have e : (F.cosmo ∪ F.nuis) \ F.nuis = F.cosmo ∪ ∅ := by
      rw [Finset.union_sdiff_right, Finset.union_empty]
      exact Finset.sdiff_eq_self_of_disjoint hd
    unfold FM.WF
    simp only
    rw [← e]
    exact this

theorem good_touch {flag : Bool} {c : Cache} {F R : FM N K} (hF : Good flag c F) (wf : R.WF)
    (hd : Disjoint R.cosmo R.nuis) (hfl : R.margFlag = F.margFlag) (hi : R.inverse = F.inverse) :
    Good flag c.touch R := by
  refine ⟨wf, hd, by rw [hfl, hF.flag], fun h => ?_, fun h => ?_⟩
  · cases c <;> simp [Cache.touch] at h
    rw [hi]; exact hF.none rfl
  · cases c <;> simp [Cache.touch] at h

theorem addPrior_ok {F R : FM N K} {fid : List (N × K)} {frac : K} {u : Unit}
    (h : F.addPrior fid frac = (R, .ok u)) : ∃ v, R = { F with matrix := { F.matrix with val := v } } := by
  unfold FM.addPrior at h
  split at h
  · cases h
  · split at h
    · cases h
    · cases h; exact ⟨_, rfl⟩

theorem margErrors_ok {en : Finset N → List N} {sq : K → K} {w0 wa : N} {f o : Bool}
    {F R : FM N K} {out} (hF : F.WF) (h : F.margErrors en sq w0 wa f o = (R, .ok out)) :
    (F.inverse ≠ none ∧ R = F) ∨ (F.inverse = none ∧ ∃ I, R = { F with inverse := some I } ∧
      I.On (F.cosmo ∪ F.nuis) ∧ Inverse (F.cosmo ∪ F.nuis) F.matrix.val I.val) := by
  unfold FM.margErrors at h
  cases hi : F.inverse with
  | some I =>
    rw [hi] at h
    simp only at h
    have := congrArg Prod.fst h
    simp only at this
    exact Or.inl ⟨by simp, this.symm⟩
  | none =>
    rw [hi] at h
    simp only at h
    split at h
    · cases h
    · rename_i F₁ u he
      have := congrArg Prod.fst h
      simp only at this
      subst this
      exact Or.inr ⟨rfl, evalInverse_ok hF he⟩

theorem good_step {en : Finset N → List N} (hen : Iteration en) (sq : K → K) (w0 wa : N)
    {flag : Bool} {c : Cache} {F F' : FM N K} (hF : Good flag c F) (o : Op N K)
    (h : stepOk en sq w0 wa F o = some F') : Good flag (c.next flag o) F' := by
  cases o with
  | inverse =>
    simp only [stepOk] at h
    split at h
    · rename_i R u he
      cases h
      obtain ⟨I, rfl, h1, h2⟩ := evalInverse_ok hF.wf he
      exact ⟨hF.wf, hF.disj, hF.flag, by simp [Cache.next], fun _ => ⟨I, rfl, h1, h2⟩⟩
    · cases h
  | correlation =>
    simp only [stepOk] at h
    split at h
    · rename_i R u he
      cases h
      obtain ⟨C, rfl⟩ := evalCorrelation_ok he
      exact ⟨hF.wf, hF.disj, hF.flag, hF.none, hF.fresh⟩
    · cases h
  | errors f o =>
    simp only [stepOk] at h
    split at h
    · rename_i R u he
      cases h
      rcases margErrors_ok hF.wf he with ⟨hne, rfl⟩ | ⟨hn, I, rfl, h1, h2⟩
      · have hc : c ≠ .none := fun hc => hne (hF.none hc)
        simp only [Cache.next, if_neg hc]
        exact hF
      · refine ⟨hF.wf, hF.disj, hF.flag, fun hc => ?_, fun _ => ⟨I, rfl, h1, h2⟩⟩
        simp only [Cache.next] at hc
        split at hc
        · cases hc
        · contradiction
    · cases h
  | fix A =>
    simp only [stepOk] at h
    split at h
    · rename_i R u he
      cases h
      obtain ⟨R', e, wf, c', n', _, fl, _, _, hi, _⟩ := fix_spec hF.wf (fix_ok_subset he)
      rw [he] at e; cases e
      exact good_touch hF wf (by rw [c', n']; exact hF.disj.mono Finset.sdiff_subset Finset.sdiff_subset)
        fl hi
    · cases h
  | marg A =>
    simp only [stepOk] at h
    split at h
    · rename_i R u he
      cases h
      exact good_marg hen hF he
    · cases h
  | margCopyKeep A =>
    simp only [stepOk] at h
    split at h
    · rename_i R u he
      cases h
      obtain ⟨hA, V, W, hV, hW⟩ := margCopy_ok_inv hen hF.wf he
      obtain ⟨F'', R', I, J, e, ⟨e1, e2, e3⟩, _⟩ := margCopy_spec hen hF.wf hA hV hW
      rw [he] at e; cases e
      subst e1
      exact ⟨hF.wf, hF.disj, hF.flag, by simp [Cache.next], fun _ => ⟨J, rfl, e2, e3⟩⟩
    · cases h
  | margCopyTake A =>
    simp only [stepOk] at h
    split at h
    · rename_i F₁ R he
      cases h
      obtain ⟨hA, V, W, hV, hW⟩ := margCopy_ok_inv hen hF.wf he
      obtain ⟨F'', R', I, J, e, _, wf, _, fl, _, c', n', hI, hIon, hinv, hIV⟩ :=
        margCopy_spec hen hF.wf hA hV hW
      rw [he] at e; cases e
      refine ⟨wf, ?_, by rw [fl, hF.flag], by simp [Cache.next], fun _ => ⟨I, hI, hIon, ?_⟩⟩
      · rw [c', n']; exact hF.disj.mono Finset.sdiff_subset Finset.sdiff_subset
      · exact hinv.congr (fun _ _ _ _ => rfl) (fun a ha b hb => (hIV a ha b hb).symm)
    · cases h
  | margNuis =>
    simp only [stepOk] at h
    split at h
    · rename_i R u he
      cases h
      unfold FM.margNuisInPlace at he
      rw [hF.flag] at he
      cases flag with
      | true =>
        simp only [if_true] at he
        exact good_marg hen hF he
      | false =>
        simp only [Bool.false_eq_true, if_false] at he
        cases he
        exact hF
    · cases h
  | select =>
    simp only [stepOk] at h
    split at h
    · rename_i R u he
      cases h
      obtain ⟨wf, c', n', v', fl, hi, _⟩ := select_ok hen hF.wf hF.disj he
      have hfl := hF.flag
      cases flag with
      | true =>
        rw [hfl, if_pos rfl] at n'
        refine ⟨wf, by rw [c', n']; exact hF.disj, by rw [fl, hfl], fun hc => ?_, fun hc => ?_⟩
        · rw [hi]; exact hF.none hc
        · rw [hi, c', n', v']; exact hF.fresh hc
      | false =>
        rw [hfl] at n'
        exact good_touch hF wf (by rw [n']; simp) fl hi
    · cases h
  | prior fid frac =>
    simp only [stepOk] at h
    split at h
    · rename_i R u he
      cases h
      obtain ⟨v, rfl⟩ := addPrior_ok he
      have wf' : F.matrix.On (F.cosmo ∪ F.nuis) := hF.wf
      exact good_touch hF ⟨wf'.same, wf'.nodup, wf'.mem⟩ hF.disj rfl rfl
    · cases h
  | copy =>
    simp only [stepOk, Option.some.injEq] at h
    subst h
    exact ⟨hF.wf, hF.disj, hF.flag, fun _ => rfl, by simp [Cache.next]⟩

theorem good_run {en : Finset N → List N} (hen : Iteration en) (sq : K → K) (w0 wa : N)
    {flag : Bool} (ops : List (Op N K)) {c : Cache} {F F' : FM N K} (hF : Good flag c F)
    (h : runOk en sq w0 wa F ops = some F') : Good flag (ops.foldl (Cache.next flag) c) F' := by
  induction ops generalizing c F with
  | nil => simp only [runOk, Option.some.injEq] at h; subst h; exact hF
  | cons o os ih =>
    simp only [runOk] at h
    cases hs : stepOk en sq w0 wa F o with
    | none => rw [hs] at h; cases h
    | some G =>
      rw [hs] at h
      exact ih (good_step hen sq w0 wa hF o hs) h

theorem errors_of_fresh {en : Finset N → List N} (hen : Iteration en) (sq : K → K) {w0 wa : N}
    (hw : w0 ≠ wa) (fom oc : Bool) {F : FM N K} (hF : F.WF) {I : DF N K} (hI : F.inverse = some I)
    (hon : I.On (F.cosmo ∪ F.nuis)) (hinv : Inverse (F.cosmo ∪ F.nuis) F.matrix.val I.val) :
    ∃ out, F.margErrors en sq w0 wa fom oc = (F, .ok out) ∧
      ErrorsOf sq w0 wa (F.cosmo ∪ F.nuis) (if oc then F.cosmo else F.cosmo ∪ F.nuis) fom
        F.matrix.val out := by
  obtain ⟨out, h1, h2, h3, h4, h5⟩ := margErrors_cached hen sq hw fom oc hF hI
    (fun a ha => ⟨(hon.mem a).mpr ha, by rw [hon.same]; exact (hon.mem a).mpr ha⟩)
  exact ⟨out, h1, I.val, hinv, h2, h3, h4, h5⟩

/-- C12, true part.  From a newly built matrix, after any history of operations for which the
specification `Cache.next` does not say `stale` - that is, no fixing, prior or dropping of nuisance
parameters since the last evaluation of the inverse, or no evaluation before it - the errors
reported next are those of the current matrix, or the matrix has no inverse and the call raises.
Missing for C12: the histories that end `stale`, where `stale_errors` shows the claim false. -/
theorem errors_current_partial {en : Finset N → List N} (hen : Iteration en) (sq : K → K)
    {w0 wa : N} (hw : w0 ≠ wa) (fom oc : Bool) {F₀ F : FM N K} (h0 : F₀.WF)
    (hd : Disjoint F₀.cosmo F₀.nuis) (hi : F₀.inverse = none) (ops : List (Op N K))
    (hrun : runOk en sq w0 wa F₀ ops = some F)
    (hc : ops.foldl (Cache.next F₀.margFlag) .none ≠ .stale) :
    (∃ F' out, F.margErrors en sq w0 wa fom oc = (F', .ok out) ∧
      ErrorsOf sq w0 wa (F.cosmo ∪ F.nuis) (if oc then F.cosmo else F.cosmo ∪ F.nuis) fom
        F.matrix.val out) ∨
    ((∀ V, ¬ Inverse (F.cosmo ∪ F.nuis) F.matrix.val V) ∧
      F.margErrors en sq w0 wa fom oc = (F, .error .singular)) := by
  have hg := good_run hen sq w0 wa ops (c := .none) (flag := F₀.margFlag)
    ⟨h0, hd, rfl, fun _ => hi, by simp⟩ hrun
  have hF' : F.matrix.On (F.cosmo ∪ F.nuis) := hg.wf
  cases hcc : ops.foldl (Cache.next F₀.margFlag) .none with
  | stale => exact absurd hcc hc
  | fresh =>
    rw [hcc] at hg
    obtain ⟨I, hI, hon, hinv⟩ := hg.fresh rfl
    obtain ⟨out, h1, h2⟩ := errors_of_fresh hen sq hw fom oc hg.wf hI hon hinv
    exact Or.inl ⟨F, out, h1, h2⟩
  | none =>
    rw [hcc] at hg
    have hnone := hg.none rfl
    by_cases hdet : (block (F.cosmo ∪ F.nuis) F.matrix.val).det = 0
    · right
      refine ⟨fun V hV => (inverse_iff.mp hV).1 hdet, ?_⟩
      unfold FM.margErrors FM.evalInverse
      rw [hnone, On.invertDf_singular hF' hdet]
    · left
      obtain ⟨v, hv, hb⟩ := On.invertDf_ok hF' hdet
      have hinv := inverse_iff.mpr ⟨hdet, hb⟩
      obtain ⟨out, h1, h2⟩ := errors_of_fresh hen sq hw fom oc
        (F := { F with inverse := some { F.matrix with val := v } }) hg.wf rfl
        ⟨hF'.same, hF'.nodup, hF'.mem⟩ hinv
      refine ⟨{ F with inverse := some { F.matrix with val := v } }, out, ?_, h2⟩
      rw [← h1]
      unfold FM.margErrors FM.evalInverse
      simp only [hnone, hv]

/-- Two parameters, correlated: the matrix `[[2,1],[1,2]]`, whose inverse is `[[2,-1],[-1,2]]/3`. -/
def exP : FM ℕ ℚ :=
  { matrix := ⟨[0, 1], [0, 1], fun a b => if a = b then 2 else 1⟩, name := [],
    cosmo := {0}, nuis := {1} }

theorem exP_WF : exP.WF := ⟨rfl, by decide, by intro a; simp [exP]⟩

theorem exP_inverse : Inverse (exP.cosmo ∪ exP.nuis) exP.matrix.val
    (fun a b => if a = b then 2/3 else -1/3) := by
  have hu : exP.cosmo ∪ exP.nuis = {0, 1} := by decide
  rw [inverse_sum, hu]
  intro a ha b hb
  simp only [Finset.mem_insert, Finset.mem_singleton] at ha hb
  rcases ha with rfl | rfl <;> rcases hb with rfl | rfl <;> norm_num [exP]

/-- C12 is false of the code: evaluate the inverse of the matrix above, fix the second parameter,
ask for the errors.  The reported error of the first parameter is `sqrt(2/3)`, that of the current
matrix `[2]` is `sqrt(1/2)`. -/
theorem stale_errors {en : Finset ℕ → List ℕ} (hen : Iteration en) (sq : ℚ → ℚ)
    (hsq : sq (2/3) ≠ sq (1/2)) :
    ∃ F F' out e, runOk en sq 5 6 exP [.inverse, .fix {1}] = some F ∧ F.WF ∧
      F.margErrors en sq 5 6 true true = (F', .ok out) ∧ (0, e) ∈ out.1 ∧
      ∀ V, Inverse (F.cosmo ∪ F.nuis) F.matrix.val V → e ≠ sq (V 0 0) := by
  have hF' : exP.matrix.On (exP.cosmo ∪ exP.nuis) := exP_WF
  obtain ⟨v, hv, _, heq⟩ := On.invertDf_of_inverse hF' exP_inverse
  have hWF : FM.WF { exP with inverse := some { exP.matrix with val := v } } := exP_WF
  obtain ⟨F, e1, wf, c, n, _, _, _, hval, hi, _⟩ := fix_spec hWF (A := {1})
    (show {1} ⊆ exP.cosmo ∪ exP.nuis by decide)
  have hS : F.cosmo ∪ F.nuis = {0} := by
    rw [c, n]; show exP.cosmo \ {1} ∪ exP.nuis \ {1} = {0}; decide
  have hcos : F.cosmo = {0} := by rw [c]; show exP.cosmo \ {1} = {0}; decide
  obtain ⟨out, h1, _, h3, h4, _⟩ := margErrors_cached hen sq (w0 := 5) (wa := 6) (by decide) true
    true wf (I := { exP.matrix with val := v }) hi (by
      intro a ha; rw [hS, Finset.mem_singleton] at ha; subst ha
      exact ⟨show 0 ∈ exP.matrix.rows by decide, show 0 ∈ exP.matrix.cols by decide⟩)
  have h0 : 0 ∈ out.1.map Prod.fst := (h3 0).mpr (by rw [if_pos rfl, hcos]; simp)
  obtain ⟨⟨p, e⟩, hpe, rfl⟩ := List.mem_map.mp h0
  refine ⟨F, F, out, e, ?_, wf, h1, hpe, ?_⟩
  · simp only [runOk, stepOk, FM.evalInverse, hv, Option.bind_some, e1]
  · intro V hV he
    have h5 := h4 _ hpe
    simp only at h5
    have h6 : v 0 0 = 2/3 := by
      have := heq 0 (by decide) 0 (by decide)
      rw [this]; norm_num
    have h7 := inverse_sum.mp hV 0 (by rw [hS]; simp) 0 (by rw [hS]; simp)
    rw [hS, Finset.sum_singleton, hval] at h7
    have h8 : V 0 0 = 1/2 := by
      have h9 : (2 : ℚ) * V 0 0 = 1 := by simpa [exP] using h7
      linarith
    rw [h5, h6, h8] at he
    exact hsq he

/-- A history meeting the hypotheses of `errors_current_partial`: fix a parameter, evaluate the
inverse. -/
example (en : Finset ℕ → List ℕ) (sq : ℚ → ℚ) :
    (∃ F, runOk en sq 5 6 exP [.fix {1}, .inverse] = some F ∧ F.cosmo = {0}) ∧
    [Op.fix {1}, Op.inverse].foldl (Cache.next (N := ℕ) (K := ℚ) exP.margFlag) .none ≠ .stale := by
  refine ⟨?_, by decide⟩
  obtain ⟨R, e, wf, c, n, _, _, _, hval, _⟩ := fix_spec exP_WF (A := {1}) (by decide)
  have hS : R.cosmo ∪ R.nuis = {0} := by rw [c, n]; decide
  have hR : R.matrix.On (R.cosmo ∪ R.nuis) := wf
  obtain ⟨v, hv, _⟩ := On.invertDf_of_inverse hR (B := fun _ _ => 1/2) (by
    rw [inverse_sum, hS]
    intro a ha b hb
    simp only [Finset.mem_singleton] at ha hb
    subst ha hb; rw [hval]; norm_num [exP])
  refine ⟨{ R with inverse := some { R.matrix with val := v } }, ?_, by rw [c]; decide⟩
  simp only [runOk, stepOk, e, Option.bind_some, FM.evalInverse, hv]

/-! ### C58: operations that raise -/

/-- C58, true part: fixing, selecting, adding a prior, evaluating the inverse or correlation and
reading errors leave a well-formed object as it was when they raise; the copy-returning
marginalisation changes nothing but the cached inverse.  Missing: in-place marginalisation, where
`marg_failure_corrupts` shows the claim false. -/
theorem failed_op_unchanged_partial {en : Finset N → List N} (hen : Iteration en) (sq : K → K)
    {w0 wa : N} (hw : w0 ≠ wa) {F : FM N K} (hF : F.WF) (e : Err) :
    (∀ A R, F.fix A = (R, .error e) → R = F) ∧
    (∀ R, F.select en = (R, .error e) → R = F) ∧
    (∀ fid frac R, F.addPrior fid frac = (R, .error e) → R = F) ∧
    (∀ R, F.evalInverse = (R, .error e) → R = F) ∧
    (∀ f o R, F.inverse = none → F.margErrors en sq w0 wa f o = (R, .error e) → R = F) ∧
    (∀ A R, F.margCopy en A = (R, .error e) → R = { F with inverse := R.inverse }) := by
  have hF' : F.matrix.On (F.cosmo ∪ F.nuis) := hF
  refine ⟨fun A R h => ?_, fun R h => ?_, fun fid frac R h => ?_, fun R h => ?_,
    fun f o R hi h => ?_, fun A R h => ?_⟩
  · by_cases hA : A ⊆ F.cosmo ∪ F.nuis
    · obtain ⟨R', e', _⟩ := fix_spec hF hA
      rw [e'] at h; cases h
    · obtain ⟨p, hp, hq⟩ := Finset.not_subset.mp hA
      rw [fix_unknown hp hq] at h; cases h; rfl
  · unfold FM.select at h
    simp only at h
    split at h
    · obtain ⟨hl, _⟩ := On.locSet hen hF' (Finset.sdiff_subset (s := F.cosmo ∪ F.nuis)
        (t := if F.margFlag then ∅ else F.nuis))
      rw [hl] at h
      cases h
    · cases h; rfl
  · unfold FM.addPrior at h
    split at h
    · cases h; rfl
    · split at h
      · cases h; rfl
      · cases h
  · unfold FM.evalInverse at h
    split at h
    · cases h; rfl
    · cases h
  · by_cases hdet : (block (F.cosmo ∪ F.nuis) F.matrix.val).det = 0
    · unfold FM.margErrors FM.evalInverse at h
      rw [hi, On.invertDf_singular hF' hdet] at h
      cases h; rfl
    · obtain ⟨v, hv, hb⟩ := On.invertDf_ok hF' hdet
      obtain ⟨out, h1, _⟩ := errors_of_fresh hen sq hw f o
        (F := { F with inverse := some { F.matrix with val := v } }) hF rfl
        ⟨hF'.same, hF'.nodup, hF'.mem⟩ (inverse_iff.mpr ⟨hdet, hb⟩)
      unfold FM.margErrors FM.evalInverse at h
      simp only [hi, hv] at h
      unfold FM.margErrors at h1
      simp only at h1
      have h2 := congrArg Prod.snd h
      have h3 := congrArg Prod.snd h1
      simp only at h2 h3
      rw [h2] at h3
      cases h3
  · unfold FM.margCopy at h
    simp only at h
    split at h
    · cases h; rfl
    · split at h
      · cases h; rfl
      · split at h
        · cases h; rfl
        · split at h
          · cases h; rfl
          · cases h

/-! ### C57: the correlation matrix -/

/-- C57, true part.  If the cached inverse is that of the current matrix and its rows are in the
order of the matrix (as after `evaluateInverse`), the correlation matrix of the cosmological
parameters is the inverse divided by the two standard deviations, so its diagonal is one and it is
symmetric when the inverse is. -/
theorem correlation_partial {en : Finset N → List N} (hen : Iteration en) (sq : K → K)
    {F : FM N K} (hF : F.WF) {I : DF N K} (hI : F.inverse = some I)
    (hon : I.On (F.cosmo ∪ F.nuis)) (horder : I.rows = F.matrix.rows) :
    ∃ R C, F.evalCorrelation en sq = (R, .ok ()) ∧ R = { F with correlation := some C } ∧
      C.On F.cosmo ∧ C.rows.Pairwise (· ≤ ·) ∧
      (∀ a ∈ F.cosmo, ∀ b ∈ F.cosmo, C.val a b = I.val a b / (sq (I.val b b) * sq (I.val a a))) ∧
      (∀ a ∈ F.cosmo, I.val a a ≠ 0 → sq (I.val a a) * sq (I.val a a) = I.val a a →
        C.val a a = 1) ∧
      ((∀ a b, I.val a b = I.val b a) → ∀ a ∈ F.cosmo, ∀ b ∈ F.cosmo, C.val a b = C.val b a) := by
  have hF' : F.matrix.On (F.cosmo ∪ F.nuis) := hF
  have hsig : (I.rows.zip I.cols).map (fun ab => sq (I.val ab.1 ab.2)) =
      F.matrix.rows.map (fun a => sq (I.val a a)) := by
    rw [hon.same, horder]
    have : ∀ l : List N, (l.zip l).map (fun ab => sq (I.val ab.1 ab.2)) =
        l.map (fun a => sq (I.val a a)) := by
      intro l; induction l with
      | nil => rfl
      | cons a l ih => simp [ih]
    exact this _
  have hget : ∀ a ∈ F.cosmo ∪ F.nuis,
      ((F.matrix.rows.map (fun a => sq (I.val a a)))[F.matrix.rows.idxOf a]?).getD 0 =
        sq (I.val a a) := by
    intro a ha
    have hlt : F.matrix.rows.idxOf a < F.matrix.rows.length :=
      List.idxOf_lt_length_iff.mpr ((hF'.mem a).mpr ha)
    rw [List.getElem?_eq_getElem (by simpa using hlt)]
    simp
  set den : DF N K := ⟨F.matrix.rows, F.matrix.cols, fun a b =>
    ((F.matrix.rows.map (fun a => sq (I.val a a)))[F.matrix.cols.idxOf b]?).getD 0 *
      ((F.matrix.rows.map (fun a => sq (I.val a a)))[F.matrix.rows.idxOf a]?).getD 0⟩ with hden
  have hdon : den.On (F.cosmo ∪ F.nuis) := ⟨hF'.same, hF'.nodup, hF'.mem⟩
  obtain ⟨c, hc, hcon, hcv⟩ := On.zip hon hdon (· / ·)
  obtain ⟨hl, hlon⟩ := On.locSet hen hcon (Finset.subset_union_left (s₁ := F.cosmo) (s₂ := F.nuis))
  set C : DF N K := DF.sortIndex { c with rows := en F.cosmo, cols := en F.cosmo } with hC
  have hval : ∀ a ∈ F.cosmo, ∀ b ∈ F.cosmo,
      C.val a b = I.val a b / (sq (I.val b b) * sq (I.val a a)) := by
    intro a ha b hb
    have e : C.val = c.val := rfl
    rw [e, hcv]
    simp only [hden]
    rw [hF'.same, hget a (Finset.mem_union_left _ ha), hget b (Finset.mem_union_left _ hb)]
  refine ⟨{ F with correlation := some C }, C, ?_, rfl, On.sortIndex hlon, ?_, hval, ?_, ?_⟩
  · unfold FM.evalCorrelation
    rw [hI]
    simp only [hsig, List.length_map, ← On.length hF', ne_eq, not_true_eq_false, or_self, if_false]
    rw [hc]
    simp only
    rw [hl]
  · have := List.pairwise_mergeSort (le := fun a b : N => decide (a ≤ b))
      (fun a b c hab hbc => by simp at *; exact le_trans hab hbc)
      (fun a b => by simp; exact le_total _ _) (en F.cosmo)
    exact this.imp (fun h => by simpa using h)
  · intro a ha h0 hsq
    rw [hval a ha a ha, hsq, div_self h0]
  · intro hs a ha b hb
    rw [hval a ha b hb, hval b hb a ha, hs a b, mul_comm]

/-- Diagonal matrix `diag(1, 1/4, 1)`. -/
def exD : FM ℕ ℚ :=
  { matrix := ⟨[0, 1, 2], [0, 1, 2], fun a b => if a = b then (if a = 1 then 1/4 else 1) else 0⟩,
    name := [], cosmo := {0, 1}, nuis := {2} }

theorem exD_WF : exD.WF := ⟨rfl, by decide, by intro a; simp [exD]⟩

theorem sort10 : sortLabels [1, 0] = [0, 1] := by
  simp [sortLabels, List.mergeSort, List.MergeSort.Internal.splitInTwo]

theorem join10 : joinLabels [1, 0] [0, 1] = [0, 1] := by
  have : ([1, 0] ++ [0, 1]).dedup = [0, 1] := by decide
  unfold joinLabels
  rw [if_neg (by decide), this]
  simp [sortLabels, List.mergeSort, List.MergeSort.Internal.splitInTwo]

/-- C57 is false of the code after marginalisation: the cached inverse is then in the iteration
order of a set while the matrix is sorted, and the standard deviations are attached to the wrong
names.  With the set iterated as 1, 0 the "correlation" of parameter 0 with itself is 1/4. -/
theorem correlation_after_marg {sq : ℚ → ℚ} (h4 : sq 4 * sq 4 = 4)
    {en : Finset ℕ → List ℕ} (hen : Iteration en) (h01 : en {0, 1} = [1, 0]) :
    ∃ R R' C, exD.margInPlace en {2} = (R, .ok ()) ∧ R.evalCorrelation en sq = (R', .ok ()) ∧
      R'.correlation = some C ∧ C.ent 0 0 = 1/4 := by
  have hF' : exD.matrix.On (exD.cosmo ∪ exD.nuis) := exD_WF
  have hu : exD.cosmo ∪ exD.nuis = {0, 1, 2} := by decide
  have hu2 : (exD.cosmo ∪ exD.nuis) \ {2} = {0, 1} := by decide
  let v : ℕ → ℕ → ℚ := fun a b => if a = b then (if a = 1 then 4 else 1) else 0
  have hV : Inverse (exD.cosmo ∪ exD.nuis) exD.matrix.val v := by
    rw [inverse_sum, hu]
    intro a ha b hb
    simp only [Finset.mem_insert, Finset.mem_singleton] at ha hb
    rcases ha with rfl | rfl | rfl <;> rcases hb with rfl | rfl | rfl <;> norm_num [exD, v]
  have hW : Inverse ((exD.cosmo ∪ exD.nuis) \ {2}) v exD.matrix.val := by
    rw [inverse_sum, hu2]
    intro a ha b hb
    simp only [Finset.mem_insert, Finset.mem_singleton] at ha hb
    rcases ha with rfl | rfl <;> rcases hb with rfl | rfl <;> norm_num [exD, v]
  obtain ⟨inv, sl, m, h1, h2, h3, h4', h5, h6, h7, h8, h9, h10, h11⟩ := marg_ok hen exD_WF hV hW
  have hsl := On.locSet hen h2 (Finset.sdiff_subset (s := exD.cosmo ∪ exD.nuis) (t := {2}))
  rw [hsl.1] at h4'
  cases h4'
  rw [hu2, h01] at h7
  set sl : DF ℕ ℚ := { inv with rows := [1, 0], cols := [1, 0] } with hsldef
  have hm := On.invertDf_iff (d := sl) (S := {0, 1})
    ⟨rfl, show [1, 0].Nodup by decide, by intro a; simp [hsldef]; tauto⟩ m h7
  let R : FM ℕ ℚ := { exD with cosmo := exD.cosmo \ {2}, nuis := exD.nuis \ {2},
                               inverse := some sl, matrix := m.sortIndex }
  have hmarg : exD.margInPlace en {2} = (R, .ok ()) := by
    unfold FM.margInPlace
    simp only [On.toFinset hF']
    rw [if_neg (by decide), h1]
    simp only
    rw [hsl.1]
    simp only [hu2, h01]
    rw [← hsldef, h7]
  have hrows : m.sortIndex.rows = [0, 1] := by
    show sortLabels m.rows = _; rw [hm.1]; exact sort10
  have hcols : m.sortIndex.cols = [0, 1] := by
    show sortLabels m.cols = _; rw [hm.2.1]; exact sort10
  have i00 : inv.val 0 0 = 1 := by rw [h10 0 (by decide) 0 (by decide)]; norm_num [v]
  have i11 : inv.val 1 1 = 4 := by rw [h10 1 (by decide) 1 (by decide)]; norm_num [v]
  let C : DF ℕ ℚ := ⟨[0, 1], [0, 1], fun a b => sl.val a b /
    ((([sq (sl.val 1 1), sq (sl.val 0 0)])[[0, 1].idxOf b]?).getD 0 *
      (([sq (sl.val 1 1), sq (sl.val 0 0)])[[0, 1].idxOf a]?).getD 0)⟩
  have hcos : R.cosmo = {0, 1} := by
    show exD.cosmo \ {2} = _; decide
  refine ⟨R, { R with correlation := some C }, C, hmarg, ?_, rfl, ?_⟩
  · unfold FM.evalCorrelation
    have hi : R.inverse = some sl := rfl
    have hr : R.matrix.rows = [0, 1] := hrows
    have hc : R.matrix.cols = [0, 1] := hcols
    rw [hi]
    simp only [hr, hc]
    have hz : (sl.rows.zip sl.cols).map (fun ab => sq (sl.val ab.1 ab.2)) =
        [sq (sl.val 1 1), sq (sl.val 0 0)] := rfl
    simp only [hz, List.length_cons, List.length_nil, ne_eq, not_true_eq_false, or_self, if_false]
    unfold DF.zip
    have hset : ([1, 0] : List ℕ).toFinset = [0, 1].toFinset := by decide
    rw [if_pos ⟨hset, hset⟩]
    have hj : joinLabels [1, 0] [0, 1] = [0, 1] := join10
    simp only [hsldef, hj, hcos]
    unfold DF.locSet
    simp only
    rw [if_pos (by decide), h01]
    simp only [DF.sortIndex]
    have hs : sortLabels [1, 0] = [0, 1] := sort10
    simp only [hs]
    rfl
  · have : C.ent 0 0 = inv.val 0 0 / (sq (inv.val 1 1) * sq (inv.val 1 1)) := by
      unfold DF.ent
      rw [if_pos (show 0 ∈ [0, 1] ∧ 0 ∈ [0, 1] by decide)]
      rfl
    rw [this, i00, i11, h4]

/-- The hypotheses of `correlation_after_marg` can be met. -/
example : ∃ (sq : ℚ → ℚ) (en : Finset ℕ → List ℕ), sq 4 * sq 4 = 4 ∧ Iteration en ∧
    en {0, 1} = [1, 0] :=
  ⟨fun _ => 2, fun s => (s.sort (· ≤ ·)).reverse, by norm_num,
    fun s => ⟨by simp, by simp⟩, by simp [Finset.sort_insert]⟩

/-! ### C10 for real, positive definite matrices -/

theorem posDef_sub {S T : Finset N} (hT : T ⊆ S) {v : N → N → ℝ}
    (h : (block S v).PosDef) : (block T v).PosDef := by
  have := h.submatrix (e := fun t : T => (⟨t, hT t.2⟩ : S)) (by
    intro a b hab; exact Subtype.ext (congrArg (fun x : S => (x : N)) hab))
  exact this

theorem posDef_inverse {S : Finset N} {v : N → N → ℝ} (h : (block S v).PosDef) :
    ∃ V, Inverse S v V ∧ (block S V).PosDef := by
  classical
  let V : N → N → ℝ := fun a b => if ha : a ∈ S then if hb : b ∈ S then
    (block S v)⁻¹ ⟨a, ha⟩ ⟨b, hb⟩ else 0 else 0
  have hV : block S V = (block S v)⁻¹ := by
    ext a b
    show V a b = _
    simp only [V, dif_pos a.2, dif_pos b.2]
  refine ⟨V, inverse_iff.mpr ⟨?_, hV⟩, by rw [hV]; exact h.inv⟩
  exact ((Matrix.isUnit_iff_isUnit_det _).mp h.isUnit).ne_zero

/-- C10. A real positive definite Fisher matrix can be marginalised over any of its parameters;
the result is positive definite and its inverse is the old one on the kept parameters. -/
theorem marg_posDef {en : Finset N → List N} (hen : Iteration en) {F : FM N ℝ} (hF : F.WF)
    (hpd : (block (F.cosmo ∪ F.nuis) F.matrix.val).PosDef) {A : Finset N}
    (hA : A ⊆ F.cosmo ∪ F.nuis) :
    ∃ R V, F.margInPlace en A = (R, .ok ()) ∧ R.WF ∧ R.cosmo = F.cosmo \ A ∧
      R.nuis = F.nuis \ A ∧ Inverse (F.cosmo ∪ F.nuis) F.matrix.val V ∧
      Inverse (R.cosmo ∪ R.nuis) R.matrix.val V ∧
      (block (R.cosmo ∪ R.nuis) R.matrix.val).PosDef := by
  obtain ⟨V, hV, hVpd⟩ := posDef_inverse hpd
  have hsub : (F.cosmo ∪ F.nuis) \ A ⊆ F.cosmo ∪ F.nuis := Finset.sdiff_subset
  obtain ⟨W, hW, hWpd⟩ := posDef_inverse (posDef_sub hsub hVpd)
  obtain ⟨R, I, e, wf, _, _, c, n, _, _, hinv, _⟩ := margInPlace_spec hen hF hA hV hW
  refine ⟨R, V, e, wf, c, n, hV, hinv, ?_⟩
  have hS : R.cosmo ∪ R.nuis = (F.cosmo ∪ F.nuis) \ A := by
    rw [c, n, ← Finset.union_sdiff_distrib]
  rw [hS] at hinv ⊢
  rw [(inverse_iff.mp hinv.symm).2, ← (inverse_iff.mp hW).2]
  exact hWpd

/-- C11. For a positive definite matrix, fixing `A` and marginalising a disjoint `B` both succeed
and commute. -/
theorem fix_marg_comm_posDef {en : Finset N → List N} (hen : Iteration en) {F : FM N ℝ} (hF : F.WF)
    (hpd : (block (F.cosmo ∪ F.nuis) F.matrix.val).PosDef) {A B : Finset N}
    (hA : A ⊆ F.cosmo ∪ F.nuis) (hB : B ⊆ F.cosmo ∪ F.nuis) (hAB : Disjoint A B) :
    ∃ M₁ R₁ M₂ R₂, F.fix A = (M₁, .ok ()) ∧ M₁.margInPlace en B = (R₁, .ok ()) ∧
      F.margInPlace en B = (M₂, .ok ()) ∧ M₂.fix A = (R₂, .ok ()) ∧ SameContent R₁ R₂ := by
  obtain ⟨M₁, h1, wf1, c1, n1, _, _, _, v1, _⟩ := fix_spec hF hA
  have hS1 : M₁.cosmo ∪ M₁.nuis = (F.cosmo ∪ F.nuis) \ A := by
    rw [c1, n1, ← Finset.union_sdiff_distrib]
  have hB1 : B ⊆ M₁.cosmo ∪ M₁.nuis := by
    rw [hS1]; exact fun b hb => Finset.mem_sdiff.mpr ⟨hB hb, Finset.disjoint_right.mp hAB hb⟩
  obtain ⟨R₁, _, h2, _⟩ := marg_posDef hen wf1 (A := B) (by
    rw [v1, hS1]; exact posDef_sub Finset.sdiff_subset hpd) hB1
  obtain ⟨M₂, _, h3, wf3, c3, n3, _⟩ := marg_posDef hen hF hpd hB
  have hA3 : A ⊆ M₂.cosmo ∪ M₂.nuis := by
    rw [c3, n3, ← Finset.union_sdiff_distrib]
    exact fun a ha => Finset.mem_sdiff.mpr ⟨hA ha, Finset.disjoint_left.mp hAB ha⟩
  obtain ⟨R₂, h4, _⟩ := fix_spec wf3 hA3
  exact ⟨M₁, R₁, M₂, R₂, h1, h2, h3, h4, fix_marg_comm hen hF hAB h1 h2 h3 h4⟩

/-- Fixing is not marginalising: on `[[2,1],[1,2]]` fixing the second parameter leaves `2`,
marginalising it leaves `3/2`. -/
example : ∃ R V, exP.margInPlace (fun s => s.sort (· ≤ ·)) {1} = (R, .ok ()) ∧
    Inverse (R.cosmo ∪ R.nuis) R.matrix.val V ∧ V 0 0 = 2/3 ∧ R.cosmo = {0} := by
  have hW : Inverse ((exP.cosmo ∪ exP.nuis) \ {1})
      (fun a b => if a = b then (2/3 : ℚ) else -1/3) (fun _ _ => 3/2) := by
    have hu : (exP.cosmo ∪ exP.nuis) \ {1} = {0} := by decide
    rw [inverse_sum, hu]
    intro a ha b hb
    simp only [Finset.mem_singleton] at ha hb
    subst ha hb; norm_num
  obtain ⟨R, I, h, _, _, _, c, _, _, _, hinv, _⟩ :=
    margInPlace_spec sortedIteration exP_WF (A := {1}) (by decide) exP_inverse hW
  exact ⟨R, _, h, hinv, by norm_num, by rw [c]; decide⟩

end Seyfert.Fisher
