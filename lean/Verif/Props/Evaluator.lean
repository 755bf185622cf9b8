import Verif.Lemmas.Evaluator

/-!
C16, C17: the Fisher matrix of a data vector.
-/

set_option linter.unusedSectionVars false

namespace Seyfert.Cov

open Ells
open Fisher hiding Err

variable {P N K : Type} [DecidableEq P] [LinearOrder N] [Field K] [LinearOrder K]

theorem fisherSpec_symm {nb : P → Nat} {δ : P → P → K → Nat → Nat → K}
    (hs : ∀ a b ℓ i j, δ a b ℓ i j = δ b a ℓ j i) (d : N → P → P → K → Nat → Nat → K)
    (dv : List (P × P)) (ℓ : K) (a b : N) :
    fisherSpec nb δ d dv ℓ a b = fisherSpec nb δ d dv ℓ b a := by
  unfold fisherSpec
  have hT : (covAt nb δ dv ℓ).transpose = covAt nb δ dv ℓ := by
    ext i j
    exact covSpec_comm hs _ _ _
  rw [Matrix.dotProduct_mulVec, ← Matrix.mulVec_transpose, Matrix.transpose_nonsing_inv, hT,
    dotProduct_comm]

theorem toVec_layout (nb : P → Nat) (dv : List (P × P)) (d : P → P → K → Nat → Nat → K) (ℓ : K) :
    toVec (layout nb dv).length ((layout nb dv).map (dcomp d ℓ)) = derivAt nb d dv ℓ := by
  funext i
  unfold toVec derivAt
  simp [List.getD]

/-- Derivatives of the spectra with respect to every parameter in `names` are available for every
entry of the data vector. -/
def HasDerivs (D : N → Option (Store P K)) (names : List N) (nb : P → Nat) (gd : P → P → List K)
    (d : N → P → P → K → Nat → Nat → K) (dv : List (P × P)) : Prop :=
  ∀ a ∈ names, ∃ s, D a = some s ∧ Holds s nb gd (d a) ∧ ∀ AB ∈ dv, Has s AB.1 AB.2

theorem derivOf_spec {D : N → Option (Store P K)} {names : List N} {nb : P → Nat}
    {gd : P → P → List K} {d : N → P → P → K → Nat → Nat → K} {dv : List (P × P)}
    (hD : HasDerivs D names nb gd d dv) (hne : dv ≠ []) {ed : List K} (hs : ed.Pairwise (· < ·))
    (hm : ∀ ℓ, ℓ ∈ ed ↔ ∀ AB ∈ dv, ℓ ∈ gd AB.1 AB.2) {a : N} (ha : a ∈ names) :
    derivOf D dv a = if ed = [] then .error .valueError else
      .ok (ed, ed.map (fun ℓ => (layout nb dv).map (dcomp (d a) ℓ))) := by
  obtain ⟨s, h1, h2, h3⟩ := hD a ha
  obtain ⟨e, he1, he2, he3, he4⟩ := derivVec_spec h2 hne h3
  have : e = ed := sorted_ext he1 hs (fun x => (he2 x).trans (hm x).symm)
  subst this
  unfold derivOf
  rw [h1]
  by_cases h : e = []
  · rw [if_pos h, ← he4 h]
  · rw [if_neg h, ← he3 h]

theorem not_one_sorted {h : List K} {c : K} (hs : h.Pairwise (· < ·)) (hl : h.length ≠ 1)
    (hn : h ≠ []) (hall : ∀ x ∈ h, x = c) : False := by
  match h, hs, hl, hn, hall with
  | [], _, _, hn, _ => exact hn rfl
  | [x], _, hl, _, _ => exact hl rfl
  | x :: y :: t, hs, _, _, hall =>
    have h1 := hall x (by simp)
    have h2 := hall y (by simp)
    have := List.rel_of_pairwise_cons hs (List.mem_cons_self (a := y))
    rw [h1, h2] at this
    exact lt_irrefl _ this

/-- The consistency check for derivatives over one common grid. -/
theorem checkGrids_const {A : Type} {names : List A} (hn : names ≠ []) {ed common : List K}
    (hs : ed.Pairwise (· < ·)) (he : ed ≠ []) :
    checkGrids (names.map (fun _ => ed)) common
      = if ed = common ∧ 2 ≤ ed.length then .ok () else .error .multipole := by
  obtain ⟨a, rest, rfl⟩ := List.exists_cons_of_ne_nil hn
  rw [List.map_cons]
  unfold checkGrids
  have h1 : ¬ ∃ g ∈ rest.map (fun _ => ed), g.length ≠ ed.length := by
    rintro ⟨g, hg, h⟩
    obtain ⟨_, _, rfl⟩ := List.mem_map.mp hg
    exact h rfl
  have h2 : ∀ g ∈ rest.map (fun _ => ed), g = ed := by
    intro g hg
    obtain ⟨_, _, rfl⟩ := List.mem_map.mp hg
    rfl
  simp only
  rw [if_neg h1, if_pos h2]
  have hpos : ed.length ≠ 0 := by simpa using he
  by_cases h3 : ed.length = 1
  · rw [if_pos h3, if_neg (by rintro ⟨_, h⟩; omega)]
  · rw [if_neg h3]
    by_cases h4 : ed = common
    · rw [if_pos (by unfold gridEq; rw [if_pos (by rw [h4])]; exact h4), if_pos ⟨h4, by omega⟩]
    · rw [if_neg, if_neg (fun h => h4 h.1)]
      unfold gridEq
      split
      · exact h4
      · split
        · exact fun h => not_one_sorted hs h3 he h
        · exact id

theorem mapM_error_of_mem {A B : Type} {E : Type} {l : List A} {f : A → Except E B} {r : List B}
    (h : l.mapM f = .ok r) {a : A} (ha : a ∈ l) : ∃ b, f a = .ok b := by
  induction l generalizing r with
  | nil => simp at ha
  | cons x l ih =>
    rw [List.mapM_cons] at h
    cases hx : f x with
    | error e => rw [hx] at h; cases h
    | ok y =>
      rcases List.mem_cons.mp ha with rfl | ha
      · exact ⟨y, hx⟩
      · rw [hx] at h
        cases hl : l.mapM f with
        | error e => rw [hl] at h; cases h
        | ok r' => exact ih hl ha

/-- The elements of the Fisher matrix at every multipole. -/
theorem elements_spec {nb : P → Nat} {δ : P → P → K → Nat → Nat → K}
    (hsymm : ∀ a b ℓ i j, δ a b ℓ i j = δ b a ℓ j i) {gd : P → P → List K}
    {d : N → P → P → K → Nat → Nat → K} {dv : List (P × P)} (hne : dv ≠ [])
    {D : N → Option (Store P K)} {names : List N} (hn : names ≠ [])
    (hD : HasDerivs D names nb gd d dv) {ells : List K}
    (hs : ells.Pairwise (· < ·)) (hm : ∀ ℓ, ℓ ∈ ells ↔ ∀ AB ∈ dv, ℓ ∈ gd AB.1 AB.2)
    (h2 : 2 ≤ ells.length) {arr : List (Nat → Nat → K)} (hlen : arr.length = ells.length)
    (hent : ∀ (l : Nat) (ℓ : K) (R C : Nat) (x y : (P × Nat) × (P × Nat)), ells[l]? = some ℓ →
        (layout nb dv)[R]? = some x → (layout nb dv)[C]? = some y →
        entryAt arr l R C = covSpec δ ℓ x y) :
    ∃ fe, elements names dv D ⟨ells, (layout nb dv).length, arr⟩
        (arr.map (fun f => (covMatrix (layout nb dv).length f)⁻¹)) = .ok fe ∧
      IsTable fe ells names.toFinset (fun ℓ => fisherSpec nb δ d dv ℓ) := by
  have hene : ells ≠ [] := by rintro rfl; simp at h2
  have hvs : names.mapM (derivOf D dv) = .ok (names.map (fun a =>
      (ells, ells.map (fun ℓ => (layout nb dv).map (dcomp (d a) ℓ))))) := by
    apply mapM_ok
    intro a ha
    rw [derivOf_spec hD hne hs hm ha, if_neg hene]
  set n := (layout nb dv).length with hndef
  set inv := arr.map (fun f => (covMatrix n f)⁻¹) with hinv
  set V := names.zip (names.map (fun a => ells.map (fun ℓ => (layout nb dv).map (dcomp (d a) ℓ))))
    with hV
  have hcols : (combos names).mapM (fisherCol inv V ells.length) = .ok ((combos names).map (fun p =>
      (p, ells.map (fun ℓ => fisherSpec nb δ d dv ℓ p.1 p.2)))) := by
    apply mapM_ok
    intro p hp
    obtain ⟨hp1, hp2⟩ := mem_combos hp
    unfold fisherCol
    rw [hV, lookup_zip_map names _ hp1, lookup_zip_map names _ hp2]
    simp only
    have hrow : (List.range ells.length).mapM (fisherAt inv
        (ells.map (fun ℓ => (layout nb dv).map (dcomp (d p.1) ℓ)))
        (ells.map (fun ℓ => (layout nb dv).map (dcomp (d p.2) ℓ))))
        = .ok ((List.range ells.length).map (fun l =>
            fisherSpec nb δ d dv (ells.getD l 0) p.1 p.2)) := by
      apply mapM_ok
      intro l hl
      have hl' : l < ells.length := List.mem_range.mp hl
      unfold fisherAt
      rw [List.getElem?_map, List.getElem?_map, List.getElem?_map, List.getElem?_eq_getElem hl',
        List.getElem?_eq_getElem (hlen ▸ hl')]
      simp only [Option.map_some]
      rw [if_pos (by simp [hndef]),
        show toVec n ((layout nb dv).map (dcomp (d p.1) ells[l])) = derivAt nb (d p.1) dv ells[l]
          from toVec_layout _ _ _ _,
        show toVec n ((layout nb dv).map (dcomp (d p.2) ells[l])) = derivAt nb (d p.2) dv ells[l]
          from toVec_layout _ _ _ _]
      have hmat : covMatrix n (arr[l]'(hlen ▸ hl')) = covAt nb δ dv ells[l] := by
        ext i j
        have := hent l ells[l] i j ((layout nb dv).get i) ((layout nb dv).get j)
          (List.getElem?_eq_getElem hl') (by simp) (by simp)
        unfold entryAt at this
        rw [List.getElem?_eq_getElem (hlen ▸ hl')] at this
        exact this
      rw [hmat]
      congr 1
      unfold fisherSpec
      rw [Matrix.dotProduct_mulVec, show ells.getD l 0 = ells[l] by simp [List.getD, hl']]
    rw [hrow]
    simp only [Except.ok.injEq, Prod.mk.injEq, true_and]
    apply List.ext_getElem
    · simp
    · intro l h1 h2
      simp only [List.length_map, List.length_range] at h1
      simp [List.getD, List.getElem?_eq_getElem h1]
  refine ⟨⟨ells, (((combos names).map (fun p => (p, ells.map (fun ℓ =>
    fisherSpec nb δ d dv ℓ p.1 p.2)))).flatMap (fun c => [c, ((c.1.2, c.1.1), c.2)])).reverse⟩, ?_, ?_⟩
  · unfold elements
    rw [hvs]
    simp only [List.map_map]
    have hck : checkGrids (names.map (fun _ => ells)) ells = .ok () := by
      rw [checkGrids_const hn hs hene, if_pos ⟨rfl, h2⟩]
    rw [show (names.map ((fun x => x.1) ∘ fun a =>
        (ells, ells.map (fun ℓ => (layout nb dv).map (dcomp (d a) ℓ))))) = names.map (fun _ => ells) from rfl,
      hck]
    simp only
    unfold fisherOfMultipole
    rw [show (names.zip (names.map ((fun x => x.2) ∘ fun a =>
        (ells, ells.map (fun ℓ => (layout nb dv).map (dcomp (d a) ℓ)))))) = V from rfl, hcols]
  · refine ⟨rfl, ?_, ?_⟩
    · intro p hp
      rw [List.mem_reverse, List.mem_flatMap] at hp
      obtain ⟨c, hc, hp⟩ := hp
      obtain ⟨q, hq, rfl⟩ := List.mem_map.mp hc
      obtain ⟨h1, h2⟩ := mem_combos hq
      simp only [List.mem_cons, List.not_mem_nil, or_false] at hp
      rcases hp with rfl | rfl
      · exact ⟨List.mem_toFinset.mpr h1, List.mem_toFinset.mpr h2⟩
      · exact ⟨List.mem_toFinset.mpr h2, List.mem_toFinset.mpr h1⟩
    · intro a ha b hb
      exact symAssign (f := fun a b => ells.map (fun ℓ => fisherSpec nb δ d dv ℓ a b))
        (fun a b => by
          apply List.map_congr_left
          intro ℓ _
          exact fisherSpec_symm hsymm d dv ℓ a b)
        (List.mem_toFinset.mp ha) (List.mem_toFinset.mp hb)

/-- What the stored tables of the auto-correlations in `order` contribute beyond `ells`. -/
def extra (ells : List K) (eA : P → List K) (S : P → Finset N) (t : P → K → N → N → K)
    (order : List P) (a b : N) : K :=
  (order.map (fun p => (((eA p).filter (fun ℓ => decide (ℓ ∉ ells))).map
    (fun ℓ => if a ∈ S p ∧ b ∈ S p then t p ℓ a b else 0)).sum)).sum

theorem addInvolved_spec {ells : List K} {A : List (P × FEll N K)} {eA : P → List K}
    {S : P → Finset N} {t : P → K → N → N → K} {U : Finset N} (order : List P)
    (hA : ∀ p ∈ order, S p ⊆ U ∧ ∃ T, A.lookup p = some T ∧ IsTable T (eA p) (S p) (t p))
    (F : DF N K) (hF : F.On U) (hs : F.rows.Pairwise (· < ·)) :
    ∃ R, addInvolved ells A order F = .ok R ∧ R.On U ∧ R.rows.Pairwise (· < ·) ∧
      ∀ a ∈ U, ∀ b ∈ U, R.val a b = F.val a b + extra ells eA S t order a b := by
  induction order generalizing F with
  | nil => exact ⟨F, rfl, hF, hs, fun a _ b _ => by simp [extra]⟩
  | cons p ps ih =>
    obtain ⟨hsub, T, hT, hTab⟩ := hA p List.mem_cons_self
    unfold addInvolved
    rw [hT]
    simp only
    by_cases hex : ∃ ℓ ∈ T.ells, ℓ ∉ ells
    · rw [if_pos hex]
      obtain ⟨C, hC, hCon, _, hCv⟩ := sumFisher_spec hTab
        (fun ℓ => decide (ℓ ∈ T.ells.filter (fun ℓ => decide (ℓ ∉ ells))))
      rw [hC]
      simp only
      obtain ⟨F', hF', hF'on, hF's, hF'v⟩ := addFill_spec hF hCon hsub hs
      rw [hF']
      simp only
      obtain ⟨R, hR, hRon, hRs, hRv⟩ := ih (fun q hq => hA q (List.mem_cons_of_mem _ hq)) F' hF'on hF's
      refine ⟨R, hR, hRon, hRs, ?_⟩
      intro a ha b hb
      rw [hRv a ha b hb, hF'v a ha b hb]
      unfold extra
      rw [List.map_cons, List.sum_cons, add_assoc]
      congr 2
      unfold DF.ent
      rw [hCon.same]
      by_cases hab : a ∈ S p ∧ b ∈ S p
      · rw [if_pos ⟨(hCon.mem a).mpr hab.1, (hCon.mem b).mpr hab.2⟩, hCv a hab.1 b hab.2]
        simp only [hab, and_self, if_true]
        congr 2
        rw [hTab.index]
        apply List.filter_congr
        intro ℓ hℓ
        simp [hℓ]
      · rw [if_neg (fun h => hab ⟨(hCon.mem a).mp h.1, (hCon.mem b).mp h.2⟩)]
        simp only [if_neg hab]
        simp
    · rw [if_neg hex]
      obtain ⟨R, hR, hRon, hRs, hRv⟩ := ih (fun q hq => hA q (List.mem_cons_of_mem _ hq)) F hF hs
      refine ⟨R, hR, hRon, hRs, ?_⟩
      intro a ha b hb
      rw [hRv a ha b hb]
      unfold extra
      rw [List.map_cons, List.sum_cons]
      have : (eA p).filter (fun ℓ => decide (ℓ ∉ ells)) = [] := by
        rw [List.filter_eq_nil_iff]
        intro ℓ hℓ
        rw [decide_eq_true_eq]
        exact fun h => hex ⟨ℓ, hTab.index ▸ hℓ, h⟩
      rw [this]
      simp

/-- Everything that the evaluation of the Fisher matrix of a data vector needs, with the common
multipoles `ells`: spectra of all pairs of involved probes, derivatives of all entries of the data
vector with respect to all free parameters, over grids with the same common multipoles, at least two
of them, and an invertible covariance at each. -/
structure Ready (cosmo : List N) (nuis : P → List N) (delta : Store P K)
    (D : N → Option (Store P K)) (dv : List (P × P)) (nb : P → Nat) (g : P → P → List K)
    (δ : P → P → K → Nat → Nat → K) (gd : P → P → List K) (d : N → P → P → K → Nat → Nat → K)
    (ells : List K) : Prop where
  spectra : Holds delta nb g δ
  nonempty : dv ≠ []
  available : Available delta dv
  free : freeParams cosmo nuis dv ≠ []
  derivs : HasDerivs D (freeParams cosmo nuis dv) nb gd d dv
  sorted : ells.Pairwise (· < ·)
  common : ∀ ℓ, ℓ ∈ ells ↔ ∀ x ∈ probesOf dv, ∀ y ∈ probesOf dv, ℓ ∈ g x y
  commonD : ∀ ℓ, ℓ ∈ ells ↔ ∀ AB ∈ dv, ℓ ∈ gd AB.1 AB.2
  two : 2 ≤ ells.length
  regular : ∀ ℓ ∈ ells, (covAt nb δ dv ℓ).det ≠ 0

/-- The tables of the auto-correlations that are needed, with the names they cover. -/
structure Tables (A : List (P × FEll N K)) (dv : List (P × P)) (U : Finset N) (eA : P → List K)
    (S : P → Finset N) (t : P → K → N → N → K) : Prop where
  table : ∀ p, (p, p) ∈ dv → ∃ T, A.lookup p = some T ∧ IsTable T (eA p) (S p) (t p)
  sub : ∀ p, (p, p) ∈ dv → S p ⊆ U
  nodup : ∀ p, (p, p) ∈ dv → (eA p).Nodup

/-- `order` lists the set of the probes whose auto-correlation is in the data vector. -/
def IsOrder (order : List P) (dv : List (P × P)) : Prop :=
  order.Nodup ∧ ∀ p, p ∈ order ↔ (p, p) ∈ dv

theorem covMatrix_eq {nb : P → Nat} {δ : P → P → K → Nat → Nat → K} {dv : List (P × P)}
    {ells : List K} {arr : List (Nat → Nat → K)}
    (hent : ∀ (l : Nat) (ℓ : K) (R C : Nat) (x y : (P × Nat) × (P × Nat)), ells[l]? = some ℓ →
        (layout nb dv)[R]? = some x → (layout nb dv)[C]? = some y →
        entryAt arr l R C = covSpec δ ℓ x y) {l : Nat} (h1 : l < ells.length) (h2 : l < arr.length) :
    covMatrix (layout nb dv).length arr[l] = covAt nb δ dv ells[l] := by
  ext i j
  have := hent l ells[l] i j ((layout nb dv).get i) ((layout nb dv).get j)
    (List.getElem?_eq_getElem h1) (by simp) (by simp)
  unfold entryAt at this
  rw [List.getElem?_eq_getElem h2] at this
  exact this

/-- The covariance and its inverse, and the elements at every multipole. -/
theorem fisher_elements {cosmo : List N} {nuis : P → List N} {delta : Store P K}
    {D : N → Option (Store P K)} {dv : List (P × P)} {nb : P → Nat} {g : P → P → List K}
    {δ : P → P → K → Nat → Nat → K} {gd : P → P → List K} {d : N → P → P → K → Nat → Nat → K}
    {ells : List K} (R : Ready cosmo nuis delta D dv nb g δ gd d ells) (order : List P)
    (auto : Option (List (P × FEll N K))) :
    ∃ fe, computeFisher cosmo nuis delta D dv order auto = finish ells dv order auto fe ∧
      IsTable fe ells (freeParams cosmo nuis dv).toFinset (fun ℓ => fisherSpec nb δ d dv ℓ) := by
  obtain ⟨M, hM, hsize, hMs, hMm, hlen, hent, _⟩ := covariance_spec R.spectra R.nonempty R.available
  obtain ⟨mells, msize, marr⟩ := M
  simp only at hsize hMs hMm hlen hent
  subst hsize
  have he : mells = ells := sorted_ext hMs R.sorted (fun x => (hMm x).trans (R.common x).symm)
  subst he
  obtain ⟨fe, hfe, hT⟩ := elements_spec R.spectra.symm R.nonempty R.free R.derivs R.sorted R.commonD
    R.two hlen hent
  refine ⟨fe, ?_, hT⟩
  unfold computeFisher
  rw [hM]
  simp only
  unfold invAll
  simp only
  rw [if_pos]
  · simp only
    rw [hfe]
  · intro f hf
    obtain ⟨l, hl, rfl⟩ := List.getElem_of_mem hf
    rw [covMatrix_eq hent (hlen ▸ hl) hl]
    exact R.regular _ (List.getElem_mem _)

theorem sum_extra {ells : List K} {eA : P → List K} {S : P → Finset N} {t : P → K → N → N → K}
    {dv : List (P × P)} {order : List P} (ho : IsOrder order dv)
    (hn : ∀ p, (p, p) ∈ dv → (eA p).Nodup) (a b : N) :
    extra ells eA S t order a b = ∑ p ∈ (autoProbes dv).toFinset,
      ∑ ℓ ∈ (eA p).toFinset \ ells.toFinset, if a ∈ S p ∧ b ∈ S p then t p ℓ a b else 0 := by
  unfold extra
  have h1 : (autoProbes dv).toFinset = order.toFinset := by
    ext p
    rw [List.mem_toFinset, List.mem_toFinset, ho.2]
    simp only [autoProbes, List.mem_dedup, List.mem_map, List.mem_filter, decide_eq_true_eq]
    constructor
    · rintro ⟨⟨x, y⟩, ⟨h, h'⟩, rfl⟩
      simp only at h'
      subst h'
      exact h
    · intro h
      exact ⟨(p, p), ⟨h, rfl⟩, rfl⟩
  rw [h1, List.sum_toFinset _ ho.1]
  congr 1
  apply List.map_congr_left
  intro p hp
  have hnd : ((eA p).filter (fun ℓ => decide (ℓ ∉ ells))).Nodup := (hn p ((ho.2 p).mp hp)).filter _
  rw [← List.sum_toFinset _ hnd]
  apply Finset.sum_congr
  · ext x
    simp
  · intro _ _
    rfl

/-- C16, C17. When everything needed is there, the Fisher matrix is computed.  Its rows and columns
are the free parameters, each once, in increasing order.  Its entry at two parameters is the sum, over
the common multipoles, of the Fisher information of the data vector, plus, unless the data vector is
a single auto-correlation, for every auto-correlation in it and every multipole of its stored table
that is not a common one, the element of that table: each of these multipoles once, in whatever order
the set of probes is iterated. -/
theorem fisher_spec {cosmo : List N} {nuis : P → List N} {delta : Store P K}
    {D : N → Option (Store P K)} {dv : List (P × P)} {nb : P → Nat} {g : P → P → List K}
    {δ : P → P → K → Nat → Nat → K} {gd : P → P → List K} {d : N → P → P → K → Nat → Nat → K}
    {ells : List K} (R : Ready cosmo nuis delta D dv nb g δ gd d ells) {order : List P}
    (ho : IsOrder order dv) {A : List (P × FEll N K)} {eA : P → List K} {S : P → Finset N}
    {t : P → K → N → N → K} (hA : Tables A dv (freeParams cosmo nuis dv).toFinset eA S t) :
    ∃ F fe, computeFisher cosmo nuis delta D dv order (some A) = .ok (F, fe) ∧
      (∀ a, a ∈ F.rows ↔ a ∈ cosmo ∨ ∃ p ∈ probesOf dv, a ∈ nuis p) ∧
      F.rows.Pairwise (· < ·) ∧ F.cols = F.rows ∧
      ∀ a ∈ F.rows, ∀ b ∈ F.rows, F.val a b = (∑ ℓ ∈ ells.toFinset, fisherSpec nb δ d dv ℓ a b) +
        (if singleAuto dv then 0 else ∑ p ∈ (autoProbes dv).toFinset,
          ∑ ℓ ∈ (eA p).toFinset \ ells.toFinset, if a ∈ S p ∧ b ∈ S p then t p ℓ a b else 0) := by
  obtain ⟨fe, h1, hT⟩ := fisher_elements R order (some A)
  obtain ⟨F, hF, hFon, hFs, hFv⟩ := sumFisher_spec hT (fun ℓ => decide (ℓ ∈ ells))
  have hself : ells.filter (fun ℓ => decide (ℓ ∈ ells)) = ells := by
    rw [List.filter_eq_self]
    intro x hx
    simpa using hx
  have hnd : ells.Nodup := R.sorted.imp (fun h => h.ne)
  have hsum : ∀ a b : N, (ells.map (fun ℓ => fisherSpec nb δ d dv ℓ a b)).sum
      = ∑ ℓ ∈ ells.toFinset, fisherSpec nb δ d dv ℓ a b := fun a b =>
    (List.sum_toFinset _ hnd).symm
  have hmem : ∀ G : DF N K, G.On (freeParams cosmo nuis dv).toFinset →
      ∀ a, a ∈ G.rows ↔ a ∈ cosmo ∨ ∃ p ∈ probesOf dv, a ∈ nuis p := by
    intro G hG a
    rw [hG.mem, List.mem_toFinset, mem_freeParams]
  by_cases hsa : singleAuto dv
  · refine ⟨F, fe, ?_, hmem F hFon, hFs, hFon.same, ?_⟩
    · rw [h1]
      unfold finish
      rw [hF]
      simp only
      rw [if_pos hsa]
    · intro a ha b hb
      rw [if_pos hsa, add_zero, hFv a ((hFon.mem a).mp ha) b ((hFon.mem b).mp hb), hself, hsum]
  · obtain ⟨G, hG, hGon, hGs, hGv⟩ := addInvolved_spec (ells := ells) (A := A) (eA := eA) (S := S) (t := t)
      order (fun p hp => ⟨hA.sub p ((ho.2 p).mp hp), hA.table p ((ho.2 p).mp hp)⟩) F hFon hFs
    refine ⟨G, fe, ?_, hmem G hGon, hGs, hGon.same, ?_⟩
    · rw [h1]
      unfold finish
      rw [hF]
      simp only
      rw [if_neg hsa, hG]
    · intro a ha b hb
      have ha' := (hGon.mem a).mp ha
      have hb' := (hGon.mem b).mp hb
      rw [if_neg hsa, hGv a ha' b hb', hFv a ha' b hb', hself, hsum, sum_extra ho hA.nodup]

/-- C17. A single auto-correlation needs no stored tables, and its own table over multipoles is what
is returned for storing. -/
theorem fisher_auto {cosmo : List N} {nuis : P → List N} {delta : Store P K}
    {D : N → Option (Store P K)} {p : P} {nb : P → Nat} {g : P → P → List K}
    {δ : P → P → K → Nat → Nat → K} {gd : P → P → List K} {d : N → P → P → K → Nat → Nat → K}
    {ells : List K} (R : Ready cosmo nuis delta D [(p, p)] nb g δ gd d ells) (order : List P)
    (auto : Option (List (P × FEll N K))) :
    ∃ F fe, computeFisher cosmo nuis delta D [(p, p)] order auto = .ok (F, fe) ∧
      IsTable fe ells (freeParams cosmo nuis [(p, p)]).toFinset
        (fun ℓ => fisherSpec nb δ d [(p, p)] ℓ) ∧
      ∀ a ∈ F.rows, ∀ b ∈ F.rows,
        F.val a b = ∑ ℓ ∈ ells.toFinset, fisherSpec nb δ d [(p, p)] ℓ a b := by
  obtain ⟨fe, h1, hT⟩ := fisher_elements R order auto
  obtain ⟨F, hF, hFon, hFs, hFv⟩ := sumFisher_spec hT (fun ℓ => decide (ℓ ∈ ells))
  refine ⟨F, fe, ?_, hT, ?_⟩
  · rw [h1]
    unfold finish
    rw [hF]
    simp [singleAuto]
  · intro a ha b hb
    rw [hFv a ((hFon.mem a).mp ha) b ((hFon.mem b).mp hb),
      show ells.filter (fun ℓ => decide (ℓ ∈ ells)) = ells by
        rw [List.filter_eq_self]; intro x hx; simpa using hx]
    exact (List.sum_toFinset _ (R.sorted.imp (fun h => h.ne))).symm

theorem mem_freeAuto (cosmo : List N) (nuis : P → List N) (p : P) (a : N) :
    a ∈ (freeParams cosmo nuis [(p, p)]).toFinset ↔ a ∈ cosmo ∨ a ∈ nuis p := by
  rw [List.mem_toFinset, mem_freeParams]
  simp [probesOf]

/-- The tables stored by the runs of the auto-correlations. -/
theorem tables_of_runs {cosmo : List N} {nuis : P → List N} {delta : Store P K}
    {D : N → Option (Store P K)} {dv : List (P × P)} {nb : P → Nat} {g : P → P → List K}
    {δ : P → P → K → Nat → Nat → K} {gd : P → P → List K} {d : N → P → P → K → Nat → Nat → K}
    {eA : P → List K}
    (hR : ∀ p, (p, p) ∈ dv → Ready cosmo nuis delta D [(p, p)] nb g δ gd d (eA p))
    {A : List (P × FEll N K)}
    (hA : ∀ p, (p, p) ∈ dv → ∃ F fe, computeFisher cosmo nuis delta D [(p, p)] [p] none = .ok (F, fe) ∧
      A.lookup p = some fe) :
    Tables A dv (freeParams cosmo nuis dv).toFinset eA
      (fun p => (freeParams cosmo nuis [(p, p)]).toFinset)
      (fun p ℓ => fisherSpec nb δ d [(p, p)] ℓ) := by
  refine ⟨?_, ?_, fun p hp => (hR p hp).sorted.imp (fun h => h.ne)⟩
  · intro p hp
    obtain ⟨F, fe, h1, h2⟩ := hA p hp
    obtain ⟨F', fe', h3, h4, _⟩ := fisher_auto (hR p hp) [p] none
    rw [h1] at h3
    obtain ⟨rfl, rfl⟩ := Prod.mk.inj (Except.ok.inj h3)
    exact ⟨fe, h2, h4⟩
  · intro p hp a ha
    rw [List.mem_toFinset, mem_freeParams]
    rcases (mem_freeAuto cosmo nuis p a).mp ha with h | h
    · exact Or.inl h
    · exact Or.inr ⟨p, mem_probesOf.mpr ⟨(p, p), hp, Or.inl rfl⟩, h⟩

/-- C17. The Fisher matrix of a data vector of several correlations, with the tables stored by the
runs of its auto-correlations: every common multipole counts once with the information of the whole
data vector, every multipole that only an auto-correlation has counts once with the information of
that auto-correlation. -/
theorem fisher_total {cosmo : List N} {nuis : P → List N} {delta : Store P K}
    {D : N → Option (Store P K)} {dv : List (P × P)} {nb : P → Nat} {g : P → P → List K}
    {δ : P → P → K → Nat → Nat → K} {gd : P → P → List K} {d : N → P → P → K → Nat → Nat → K}
    {ells : List K} (R : Ready cosmo nuis delta D dv nb g δ gd d ells) {order : List P}
    (ho : IsOrder order dv) (hsa : singleAuto dv = false) {eA : P → List K}
    (hR : ∀ p, (p, p) ∈ dv → Ready cosmo nuis delta D [(p, p)] nb g δ gd d (eA p))
    {A : List (P × FEll N K)}
    (hA : ∀ p, (p, p) ∈ dv → ∃ F fe, computeFisher cosmo nuis delta D [(p, p)] [p] none = .ok (F, fe) ∧
      A.lookup p = some fe) :
    ∃ F fe, computeFisher cosmo nuis delta D dv order (some A) = .ok (F, fe) ∧
      ∀ a ∈ F.rows, ∀ b ∈ F.rows, F.val a b = (∑ ℓ ∈ ells.toFinset, fisherSpec nb δ d dv ℓ a b) +
        ∑ p ∈ (autoProbes dv).toFinset, ∑ ℓ ∈ (eA p).toFinset \ ells.toFinset,
          if (a ∈ cosmo ∨ a ∈ nuis p) ∧ (b ∈ cosmo ∨ b ∈ nuis p)
          then fisherSpec nb δ d [(p, p)] ℓ a b else 0 := by
  have hT := tables_of_runs hR hA
  obtain ⟨F, fe, h1, _, _, _, h5⟩ := fisher_spec R ho hT
  refine ⟨F, fe, h1, ?_⟩
  intro a ha b hb
  rw [h5 a ha b hb, if_neg (by simp [hsa])]
  simp only [mem_freeAuto]

/-- C16. The Fisher matrix of a data vector with symmetric tables is symmetric. -/
theorem fisher_symmetric {cosmo : List N} {nuis : P → List N} {delta : Store P K}
    {D : N → Option (Store P K)} {dv : List (P × P)} {nb : P → Nat} {g : P → P → List K}
    {δ : P → P → K → Nat → Nat → K} {gd : P → P → List K} {d : N → P → P → K → Nat → Nat → K}
    {ells : List K} (R : Ready cosmo nuis delta D dv nb g δ gd d ells) {order : List P}
    (ho : IsOrder order dv) {A : List (P × FEll N K)} {eA : P → List K} {S : P → Finset N}
    {t : P → K → N → N → K} (hA : Tables A dv (freeParams cosmo nuis dv).toFinset eA S t)
    (hsym : ∀ p ℓ a b, t p ℓ a b = t p ℓ b a) {F : DF N K} {fe : FEll N K}
    (h : computeFisher cosmo nuis delta D dv order (some A) = .ok (F, fe)) :
    ∀ a ∈ F.rows, ∀ b ∈ F.rows, F.val a b = F.val b a := by
  obtain ⟨F', fe', h1, _, _, _, h5⟩ := fisher_spec R ho hA
  rw [h] at h1
  obtain ⟨rfl, rfl⟩ := Prod.mk.inj (Except.ok.inj h1)
  intro a ha b hb
  rw [h5 a ha b hb, h5 b hb a ha]
  congr 1
  · exact Finset.sum_congr rfl (fun ℓ _ => fisherSpec_symm R.spectra.symm d dv ℓ a b)
  · congr 1
    refine Finset.sum_congr rfl (fun p _ => Finset.sum_congr rfl (fun ℓ _ => ?_))
    simp only [hsym p ℓ a b, and_comm]

/-- The quadratic form of the Fisher information at a multipole. -/
theorem fisherSpec_nonneg [IsStrictOrderedRing K] {nb : P → Nat} {δ : P → P → K → Nat → Nat → K}
    (hs : ∀ a b ℓ i j, δ a b ℓ i j = δ b a ℓ j i) (d : N → P → P → K → Nat → Nat → K)
    (dv : List (P × P)) (ℓ : K) (hdet : (covAt nb δ dv ℓ).det ≠ 0)
    (hpos : ∀ y, 0 ≤ dotProduct y (Matrix.mulVec (covAt nb δ dv ℓ) y)) (T : Finset N) (v : N → K) :
    0 ≤ ∑ a ∈ T, ∑ b ∈ T, v a * v b * fisherSpec nb δ d dv ℓ a b := by
  set C := covAt nb δ dv ℓ with hC
  have hT : C.transpose = C := by
    ext i j
    exact covSpec_comm hs _ _ _
  set x := ∑ a ∈ T, v a • derivAt nb (d a) dv ℓ with hx
  have h1 : (∑ a ∈ T, ∑ b ∈ T, v a * v b * fisherSpec nb δ d dv ℓ a b)
      = dotProduct x (Matrix.mulVec C⁻¹ x) := by
    rw [hx, sum_dotProduct]
    apply Finset.sum_congr rfl
    intro a _
    rw [Matrix.mulVec_sum, dotProduct_sum]
    apply Finset.sum_congr rfl
    intro b _
    rw [Matrix.mulVec_smul, dotProduct_smul, smul_dotProduct, smul_eq_mul, smul_eq_mul]
    unfold fisherSpec
    ring
  rw [h1]
  have hu : IsUnit C.det := isUnit_iff_ne_zero.mpr hdet
  have h2 : Matrix.mulVec C (Matrix.mulVec C⁻¹ x) = x := by
    rw [Matrix.mulVec_mulVec, Matrix.mul_nonsing_inv _ hu, Matrix.one_mulVec]
  have := hpos (Matrix.mulVec C⁻¹ x)
  rw [h2, dotProduct_comm] at this
  exact this

/-- A quadratic form. -/
def quadForm (T : Finset N) (v : N → K) (f : N → N → K) : K := ∑ a ∈ T, ∑ b ∈ T, v a * v b * f a b

theorem quadForm_add (T : Finset N) (v : N → K) (f g : N → N → K) :
    quadForm T v (fun a b => f a b + g a b) = quadForm T v f + quadForm T v g := by
  unfold quadForm
  simp only [mul_add, Finset.sum_add_distrib]

theorem quadForm_sum {I : Type} (T : Finset N) (v : N → K) (s : Finset I) (f : I → N → N → K) :
    quadForm T v (fun a b => ∑ i ∈ s, f i a b) = ∑ i ∈ s, quadForm T v (f i) := by
  unfold quadForm
  simp only [Finset.mul_sum]
  rw [Finset.sum_comm]
  rw [Finset.sum_congr rfl (fun a _ => Finset.sum_comm)]
  rw [Finset.sum_comm, Finset.sum_congr rfl (fun i _ => Finset.sum_comm)]

/-- C16. If the covariance has a nonnegative quadratic form at every common multipole, and so have the
stored tables, then the Fisher matrix has one. -/
theorem fisher_nonneg [IsStrictOrderedRing K] {cosmo : List N} {nuis : P → List N} {delta : Store P K}
    {D : N → Option (Store P K)} {dv : List (P × P)} {nb : P → Nat} {g : P → P → List K}
    {δ : P → P → K → Nat → Nat → K} {gd : P → P → List K} {d : N → P → P → K → Nat → Nat → K}
    {ells : List K} (R : Ready cosmo nuis delta D dv nb g δ gd d ells) {order : List P}
    (ho : IsOrder order dv) {A : List (P × FEll N K)} {eA : P → List K} {S : P → Finset N}
    {t : P → K → N → N → K} (hA : Tables A dv (freeParams cosmo nuis dv).toFinset eA S t)
    (hpos : ∀ ℓ ∈ ells, ∀ y, 0 ≤ dotProduct y (Matrix.mulVec (covAt nb δ dv ℓ) y))
    (htab : ∀ p, (p, p) ∈ dv → ∀ ℓ ∈ eA p, ∀ v : N → K,
      0 ≤ ∑ a ∈ S p, ∑ b ∈ S p, v a * v b * t p ℓ a b)
    {F : DF N K} {fe : FEll N K}
    (h : computeFisher cosmo nuis delta D dv order (some A) = .ok (F, fe)) (v : N → K) :
    0 ≤ ∑ a ∈ F.rows.toFinset, ∑ b ∈ F.rows.toFinset, v a * v b * F.val a b := by
  obtain ⟨F', fe', h1, h2, _, _, h5⟩ := fisher_spec R ho hA
  rw [h] at h1
  obtain ⟨rfl, rfl⟩ := Prod.mk.inj (Except.ok.inj h1)
  set T := F.rows.toFinset with hT
  have hval : (∑ a ∈ T, ∑ b ∈ T, v a * v b * F.val a b) = quadForm T v (fun a b =>
      (∑ ℓ ∈ ells.toFinset, fisherSpec nb δ d dv ℓ a b) +
        (if singleAuto dv then 0 else ∑ p ∈ (autoProbes dv).toFinset,
          ∑ ℓ ∈ (eA p).toFinset \ ells.toFinset, if a ∈ S p ∧ b ∈ S p then t p ℓ a b else 0)) := by
    unfold quadForm
    refine Finset.sum_congr rfl (fun a ha => Finset.sum_congr rfl (fun b hb => ?_))
    rw [h5 a (List.mem_toFinset.mp ha) b (List.mem_toFinset.mp hb)]
  rw [hval, quadForm_add, quadForm_sum]
  refine add_nonneg (Finset.sum_nonneg (fun ℓ hℓ => ?_)) ?_
  · have hℓ' := List.mem_toFinset.mp hℓ
    exact fisherSpec_nonneg R.spectra.symm d dv ℓ (R.regular ℓ hℓ') (hpos ℓ hℓ') T v
  · by_cases hsa : singleAuto dv
    · simp [hsa, quadForm]
    · simp only [hsa, if_false, Bool.false_eq_true]
      rw [quadForm_sum]
      refine Finset.sum_nonneg (fun p hp => ?_)
      rw [quadForm_sum]
      refine Finset.sum_nonneg (fun ℓ hℓ => ?_)
      have hp' : (p, p) ∈ dv := by
        simp only [autoProbes, List.mem_toFinset, List.mem_dedup, List.mem_map, List.mem_filter,
          decide_eq_true_eq] at hp
        obtain ⟨⟨x, y⟩, ⟨hm, he⟩, rfl⟩ := hp
        simp only at he
        subst he
        exact hm
      have hsub : S p ⊆ T := by
        intro a ha
        have := hA.sub p hp' ha
        rw [List.mem_toFinset, mem_freeParams] at this
        exact List.mem_toFinset.mpr ((h2 a).mpr this)
      have hrestrict : quadForm T v (fun a b => if a ∈ S p ∧ b ∈ S p then t p ℓ a b else 0)
          = ∑ a ∈ S p, ∑ b ∈ S p, v a * v b * t p ℓ a b := by
        unfold quadForm
        rw [← Finset.sum_subset hsub (fun a _ ha => Finset.sum_eq_zero (fun b _ => by simp [ha]))]
        refine Finset.sum_congr rfl (fun a ha => ?_)
        rw [← Finset.sum_subset hsub (fun b _ hb => by simp [hb])]
        exact Finset.sum_congr rfl (fun b hb => by simp [ha, hb])
      rw [hrestrict]
      exact htab p hp' ℓ (List.mem_toFinset.mp (Finset.mem_sdiff.mp hℓ).1) v

/-- C17. Without stored tables a data vector that is not a single auto-correlation is refused. -/
theorem fisher_needs_tables {cosmo : List N} {nuis : P → List N} {delta : Store P K}
    {D : N → Option (Store P K)} {dv : List (P × P)} (order : List P) (h : singleAuto dv = false)
    (r : DF N K × FEll N K) : computeFisher cosmo nuis delta D dv order none ≠ .ok r := by
  unfold computeFisher
  cases covariance delta dv with
  | error e => simp
  | ok M =>
    simp only
    cases invAll M with
    | error e => simp
    | ok inv =>
      simp only
      cases elements (freeParams cosmo nuis dv) dv D M inv with
      | error e => simp
      | ok fe =>
        simp only [finish]
        cases sumFisher fe (fun ℓ => decide (ℓ ∈ M.ells)) with
        | error e => simp
        | ok F => simp [h]

theorem addInvolved_needs {ells : List K} {A : List (P × FEll N K)} {order : List P} {F R : DF N K}
    (h : addInvolved ells A order F = .ok R) : ∀ p ∈ order, (A.lookup p).isSome := by
  induction order generalizing F with
  | nil => simp
  | cons q qs ih =>
    unfold addInvolved at h
    cases hq : A.lookup q with
    | none => rw [hq] at h; cases h
    | some T =>
      rw [hq] at h
      simp only at h
      intro p hp
      rcases List.mem_cons.mp hp with rfl | hp
      · rw [hq]; rfl
      · split at h
        · cases hS : sumFisher T (fun ℓ => decide (ℓ ∈ T.ells.filter (fun ℓ => decide (ℓ ∉ ells)))) with
          | error e => rw [hS] at h; cases h
          | ok C =>
            rw [hS] at h
            simp only at h
            cases hF : addFill F C with
            | error e => rw [hF] at h; cases h
            | ok F' => rw [hF] at h; exact ih h p hp
        · exact ih h p hp

/-- C17. If the table of an auto-correlation in the data vector is missing, the computation raises. -/
theorem fisher_needs_every_table {cosmo : List N} {nuis : P → List N} {delta : Store P K}
    {D : N → Option (Store P K)} {dv : List (P × P)} {order : List P} (ho : IsOrder order dv)
    (hsa : singleAuto dv = false) {A : List (P × FEll N K)} {r : DF N K × FEll N K}
    (h : computeFisher cosmo nuis delta D dv order (some A) = .ok r) {p : P} (hp : (p, p) ∈ dv) :
    (A.lookup p).isSome := by
  unfold computeFisher at h
  cases h1 : covariance delta dv with
  | error e => rw [h1] at h; cases h
  | ok M =>
    rw [h1] at h
    simp only at h
    cases h2 : invAll M with
    | error e => rw [h2] at h; cases h
    | ok inv =>
      rw [h2] at h
      simp only at h
      cases h3 : elements (freeParams cosmo nuis dv) dv D M inv with
      | error e => rw [h3] at h; cases h
      | ok fe =>
        rw [h3] at h
        simp only [finish] at h
        cases h4 : sumFisher fe (fun ℓ => decide (ℓ ∈ M.ells)) with
        | error e => rw [h4] at h; cases h
        | ok F =>
          rw [h4] at h
          simp only [hsa, Bool.false_eq_true, if_false] at h
          cases h5 : addInvolved M.ells A order F with
          | error e => rw [h5] at h; cases h
          | ok F' => exact addInvolved_needs h5 p ((ho.2 p).mpr hp)

/-- C16. Conversely, when spectra and derivatives are there, a Fisher matrix is computed only if the
common multipoles of the derivatives are those of the covariance, there are at least two of them, and
the covariance is invertible at each.  (A data vector with a single common multipole is refused.) -/
theorem fisher_refused {cosmo : List N} {nuis : P → List N} {delta : Store P K}
    {D : N → Option (Store P K)} {dv : List (P × P)} {nb : P → Nat} {g : P → P → List K}
    {δ : P → P → K → Nat → Nat → K} {gd : P → P → List K} {d : N → P → P → K → Nat → Nat → K}
    (H : Holds delta nb g δ) (hne : dv ≠ []) (hav : Available delta dv)
    (hfree : freeParams cosmo nuis dv ≠ [])
    (hD : HasDerivs D (freeParams cosmo nuis dv) nb gd d dv) {order : List P}
    {auto : Option (List (P × FEll N K))} {r : DF N K × FEll N K}
    (h : computeFisher cosmo nuis delta D dv order auto = .ok r) :
    ∃ ells, Ready cosmo nuis delta D dv nb g δ gd d ells := by
  obtain ⟨M, hM, hsize, hMs, hMm, hlen, hent, _⟩ := covariance_spec H hne hav
  unfold computeFisher at h
  rw [hM] at h
  obtain ⟨mells, msize, marr⟩ := M
  simp only at hsize hMs hMm hlen hent
  subst hsize
  simp only [invAll] at h
  by_cases hreg : ∀ f ∈ marr, (covMatrix (layout nb dv).length f).det ≠ 0
  · rw [if_pos hreg] at h
    simp only at h
    unfold elements at h
    obtain ⟨a, ha⟩ := List.exists_mem_of_ne_nil _ hfree
    obtain ⟨s, hs1, hs2, hs3⟩ := hD a ha
    obtain ⟨ed, hed1, hed2, hed3, hed4⟩ := derivVec_spec hs2 hne hs3
    cases hvs : (freeParams cosmo nuis dv).mapM (derivOf D dv) with
    | error e => rw [hvs] at h; cases h
    | ok vs =>
      obtain ⟨b, hb⟩ := mapM_error_of_mem hvs ha
      have hedne : ed ≠ [] := by
        intro e
        rw [derivOf_spec hD hne hed1 hed2 ha, if_pos e] at hb
        cases hb
      have hvs' : (freeParams cosmo nuis dv).mapM (derivOf D dv)
          = .ok ((freeParams cosmo nuis dv).map (fun a =>
            (ed, ed.map (fun ℓ => (layout nb dv).map (dcomp (d a) ℓ))))) := by
        apply mapM_ok
        intro a ha
        rw [derivOf_spec hD hne hed1 hed2 ha, if_neg hedne]
      rw [hvs'] at h
      simp only [List.map_map] at h
      rw [show ((freeParams cosmo nuis dv).map ((fun x => x.1) ∘ fun a =>
          (ed, ed.map (fun ℓ => (layout nb dv).map (dcomp (d a) ℓ)))))
          = (freeParams cosmo nuis dv).map (fun _ => ed) from rfl,
        checkGrids_const hfree hed1 hedne] at h
      by_cases hc : ed = mells ∧ 2 ≤ ed.length
      · obtain ⟨rfl, h2⟩ := hc
        refine ⟨ed, H, hne, hav, hfree, hD, hed1, hMm, hed2, h2, ?_⟩
        intro ℓ hℓ
        obtain ⟨l, hl, rfl⟩ := List.getElem_of_mem hℓ
        rw [← covMatrix_eq hent hl (hlen ▸ hl)]
        exact hreg _ (List.getElem_mem _)
      · rw [if_neg hc] at h
        cases h
  · rw [if_neg hreg] at h
    cases h

/-! An example: the spectra of `exStore`, one cosmological parameter and one nuisance parameter per
probe, the auto-correlation of the second probe and the cross-correlation of both.  Multipole 1 is only
in the auto-correlation. -/

def exDer : Nat → Bool → Bool → ℚ → Nat → Nat → ℚ := fun n _ _ ℓ i j => n + ℓ + i + j
def exDStore (n : Nat) : Store Bool ℚ :=
  [((true, false), fullBlock exNb exGrid (exDer n) true false),
   ((false, false), fullBlock exNb exGrid (exDer n) false false)]
def exNuis : Bool → List Nat := fun b => [if b then 2 else 1]

theorem exDHolds (n : Nat) : Holds (exDStore n) exNb exGrid (exDer n) where
  stored := by
    intro a b t h
    cases a <;> cases b
    · exact (Option.some.inj h).symm
    · cases (show (none : Option (Tomo ℚ)) = some t from h)
    · exact (Option.some.inj h).symm
    · cases (show (none : Option (Tomo ℚ)) = some t from h)
  symm := by intro a b ℓ i j; simp only [exDer]; ring
  gsymm := by intro a b; cases a <;> cases b <;> rfl
  sorted := by intro a b; cases a <;> cases b <;> simp [exGrid] <;> norm_num

theorem exReady : Ready [0] exNuis exStore (fun n => some (exDStore n)) [(false, false), (true, false)]
    exNb exGrid exDelta exGrid exDer [2, 3] where
  spectra := exHolds
  nonempty := by simp
  available := by
    intro x _ y _
    cases x <;> cases y <;> first | exact Or.inl rfl | exact Or.inr rfl
  free := by decide
  derivs := by
    intro a _
    refine ⟨exDStore a, rfl, exDHolds a, ?_⟩
    intro AB h
    simp only [List.mem_cons, List.not_mem_nil, or_false] at h
    rcases h with rfl | rfl <;> exact Or.inl rfl
  sorted := by norm_num
  common := by
    intro ℓ
    constructor
    · intro h x _ y _
      cases x <;> cases y <;> simp [exGrid] at h ⊢ <;> tauto
    · intro h
      have := h true (by simp [probesOf]) false (by simp [probesOf])
      exact this
  commonD := by
    intro ℓ
    simp [exGrid]
    tauto
  two := by decide
  regular := by
    intro ℓ h
    simp only [List.mem_cons, List.not_mem_nil, or_false] at h
    rcases h with rfl | rfl <;> decide +kernel

theorem exReadyAuto : Ready [0] exNuis exStore (fun n => some (exDStore n)) [(false, false)]
    exNb exGrid exDelta exGrid exDer [1, 2, 3] where
  spectra := exHolds
  nonempty := by simp
  available := by
    intro x _ y _
    cases x <;> cases y <;> first | exact Or.inl rfl | exact Or.inr rfl
  free := by decide
  derivs := by
    intro a _
    refine ⟨exDStore a, rfl, exDHolds a, ?_⟩
    intro AB h
    simp only [List.mem_cons, List.not_mem_nil, or_false] at h
    subst h
    exact Or.inl rfl
  sorted := by norm_num
  common := by
    intro ℓ
    simp [exGrid, probesOf]
  commonD := by
    intro ℓ
    simp [exGrid]
  two := by decide
  regular := by
    intro ℓ h
    simp only [List.mem_cons, List.not_mem_nil, or_false] at h
    rcases h with rfl | rfl | rfl <;> decide +kernel

/-- The theorem on totals applies, with the table of the run of the auto-correlation. -/
example : ∃ (A : List (Bool × FEll Nat ℚ)) (F : DF Nat ℚ) (fe : FEll Nat ℚ),
    computeFisher [0] exNuis exStore (fun n => some (exDStore n)) [(false, false), (true, false)] [false]
      (some A) = .ok (F, fe) := by
  obtain ⟨F₁, fe₁, h₁, _⟩ := fisher_auto exReadyAuto [false] none
  obtain ⟨F, fe, h, _⟩ := fisher_total (order := [false]) (A := [(false, fe₁)])
    (eA := fun _ => [1, 2, 3]) exReady ⟨by simp, by simp⟩ rfl
    (by
      intro p hp
      simp only [List.mem_cons, Prod.mk.injEq, and_self, List.not_mem_nil, or_false] at hp
      rcases hp with rfl | ⟨h1, h2⟩
      · exact exReadyAuto
      · rw [h1] at h2; cases h2)
    (by
      intro p hp
      simp only [List.mem_cons, Prod.mk.injEq, and_self, List.not_mem_nil, or_false] at hp
      rcases hp with rfl | ⟨h1, h2⟩
      · exact ⟨F₁, fe₁, h₁, rfl⟩
      · rw [h1] at h2; cases h2)
  exact ⟨_, F, fe, h⟩

end Seyfert.Cov
