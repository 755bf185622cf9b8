import Verif.Lemmas.Covariance

/-!
C15: the covariance of a data vector.
-/

set_option linter.unusedSectionVars false

namespace Seyfert.Cov

open Ells

variable {P K : Type} [DecidableEq P] [Field K] [LinearOrder K]

theorem mem_probesOf {dv : List (P × P)} {x : P} :
    x ∈ probesOf dv ↔ ∃ AB ∈ dv, x = AB.1 ∨ x = AB.2 := by
  simp [probesOf]

/-- C15. For every nonempty data vector whose spectra are all available, the covariance is computed;
its multipoles are, in increasing order, those that the spectra of all pairs of involved probes have
in common; at each of them its entry at two components of the data vector is the Gaussian formula, and
it is symmetric.  This includes the blocks obtained by transposing. -/
theorem covariance_spec {s : Store P K} {nb : P → Nat} {g : P → P → List K}
    {δ : P → P → K → Nat → Nat → K} (H : Holds s nb g δ) {dv : List (P × P)} (hne : dv ≠ [])
    (hav : Available s dv) :
    ∃ M, covariance s dv = .ok M ∧ M.size = (layout nb dv).length ∧
      M.ells.Pairwise (· < ·) ∧
      (∀ ℓ, ℓ ∈ M.ells ↔ ∀ x ∈ probesOf dv, ∀ y ∈ probesOf dv, ℓ ∈ g x y) ∧
      M.arr.length = M.ells.length ∧
      (∀ (l : Nat) (ℓ : K) (R C : Nat) (x y : (P × Nat) × (P × Nat)), M.ells[l]? = some ℓ →
        (layout nb dv)[R]? = some x → (layout nb dv)[C]? = some y →
        entryAt M.arr l R C = covSpec δ ℓ x y) ∧
      (∀ l R C, R < M.size → C < M.size → entryAt M.arr l R C = entryAt M.arr l C R) := by
  obtain ⟨d, hd, hinv, hcov⟩ := evalAllBlocks_ok H hav
  have hdne : d ≠ [] := by
    obtain ⟨AB, rest, rfl⟩ := List.exists_cons_of_ne_nil hne
    intro e
    have := hcov AB List.mem_cons_self AB List.mem_cons_self
    rw [e] at this
    simp at this
  obtain ⟨ells, he, hes, hem⟩ := commonElls_spec (fun k : (P × P) × (P × P) => bells g k.1 k.2) hdne
    (fun p hp => by rw [(hinv p hp).1]; rfl) (fun p _ => bells_sorted H _ _)
  have hmask := maskBlocks_eq H hes d (fun p hp => (hinv p hp).1)
    (fun p hp x hx => (hem x).mp hx p hp)
  set d' := d.map (fun p => (p.1, maskedClosed nb δ ells p.1.1 p.1.2)) with hd'
  have hlook : ∀ AB ∈ dv, ∀ CD ∈ dv, d'.lookup (AB, CD) = some (maskedClosed nb δ ells AB CD) := by
    intro AB hAB CD hCD
    have h1 := lookup_map_isSome (fun (k : (P × P) × (P × P)) (_ : Tomo K) =>
      maskedClosed nb δ ells k.1 k.2) d (AB, CD)
    rw [hcov AB hAB CD hCD] at h1
    obtain ⟨t, ht⟩ := Option.isSome_iff_exists.mp h1
    obtain ⟨p, _, hp⟩ := List.mem_map.mp (mem_of_lookup' ht)
    simp only [Prod.mk.injEq] at hp
    rw [hd']
    refine ht.trans ?_
    rw [← hp.2, hp.1]
  set rows := dv.map (fun AB => dv.map (fun CD => maskedClosed nb δ ells AB CD)) with hrows
  have hgather : gather d' dv = .ok rows := by
    unfold gather
    apply mapM_ok
    intro AB hAB
    apply mapM_ok
    intro CD hCD
    rw [hlook AB hAB CD hCD]
  obtain ⟨AB₀, rest, hdv⟩ := List.exists_cons_of_ne_nil hne
  have hheights : heights rows = dv.map (fun AB => (binPairs nb AB).length) := by
    unfold heights
    rw [hrows, List.map_map]
    apply List.map_congr_left
    intro AB _
    simp only [Function.comp]
    rw [hdv, List.map_cons, List.head?_cons]
    rfl
  have hwidths : blockWidths rows = dv.map (fun AB => (binPairs nb AB).length) := by
    unfold blockWidths
    have : rows.head? = some (dv.map (fun CD => maskedClosed nb δ ells AB₀ CD)) := by
      rw [hrows, hdv, List.map_cons, List.head?_cons]
    rw [this]
    simp only [Option.getD_some, List.map_map]
    rfl
  have hok : blockOk ells.length rows := by
    intro r hr
    rw [hrows] at hr
    obtain ⟨AB, hAB, rfl⟩ := List.mem_map.mp hr
    refine ⟨?_, ?_⟩
    · intro t ht
      obtain ⟨CD, _, rfl⟩ := List.mem_map.mp ht
      refine ⟨by simp [maskedClosed], ?_⟩
      rw [hdv, List.map_cons, List.head?_cons]
      rfl
    · rw [hwidths, List.map_map]
      rfl
  have hrne : rows ≠ [] := by rw [hrows, hdv]; simp
  have hblock : ∀ a b AB CD, dv[a]? = some AB → dv[b]? = some CD →
      blockAt rows a b = some (maskedClosed nb δ ells AB CD) := by
    intro a b AB CD ha hb
    unfold blockAt
    rw [hrows, List.getElem?_map, ha]
    simp only [Option.map_some, Option.bind_some, List.getElem?_map, hb]
  refine ⟨⟨ells, (heights rows).sum, (List.range ells.length).map (fun l R C =>
    npBlockEntry rows l R C)⟩, ?_, ?_, hes, ?_, by simp, ?_⟩
  · unfold covariance
    rw [hd]
    simp only
    rw [he]
    simp only
    rw [hmask]
    simp only
    unfold buildMatrix
    rw [hgather]
    simp only
    rw [if_neg hrne, if_pos hok]
  · show (heights rows).sum = _
    rw [hheights]
    unfold layout
    rw [List.length_flatMap]
    congr 1
    apply List.map_congr_left
    intro AB _
    simp
  · intro ℓ
    show ℓ ∈ ells ↔ _
    rw [hem]
    constructor
    · intro h x hx y hy
      obtain ⟨AB, hAB, hx⟩ := mem_probesOf.mp hx
      obtain ⟨CD, hCD, hy⟩ := mem_probesOf.mp hy
      obtain ⟨t, ht⟩ := Option.isSome_iff_exists.mp (hcov AB hAB CD hCD)
      have := mem_bells.mp (h _ (mem_of_lookup' ht))
      rcases hx with rfl | rfl <;> rcases hy with rfl | rfl
      · exact this.1
      · exact this.2.2.1
      · exact this.2.2.2
      · exact this.2.1
    · intro h p hp
      obtain ⟨_, h1, h2⟩ := hinv p hp
      exact mem_bells.mpr ⟨h _ (fst_mem_probes h1) _ (fst_mem_probes h2),
        h _ (snd_mem_probes h1) _ (snd_mem_probes h2),
        h _ (fst_mem_probes h1) _ (snd_mem_probes h2),
        h _ (snd_mem_probes h1) _ (fst_mem_probes h2)⟩
  · have hentry : ∀ (l : Nat) (ℓ : K) (R C : Nat) (x y : (P × Nat) × (P × Nat)),
        ells[l]? = some ℓ → (layout nb dv)[R]? = some x → (layout nb dv)[C]? = some y →
        entryAt ((List.range ells.length).map (fun l R C => npBlockEntry rows l R C)) l R C
          = covSpec δ ℓ x y := by
      intro l ℓ R C x y hl hx hy
      have hlt : l < ells.length := (List.getElem?_eq_some_iff.mp hl).1
      rw [layout_getElem?] at hx hy
      unfold entryAt
      rw [List.getElem?_map, List.getElem?_range hlt]
      simp only [Option.map_some]
      unfold npBlockEntry
      rw [hheights, hwidths]
      cases hR : locate (dv.map (fun AB => (binPairs nb AB).length)) R with
      | none => rw [hR] at hx; cases hx
      | some p =>
        cases hC : locate (dv.map (fun AB => (binPairs nb AB).length)) C with
        | none => rw [hC] at hy; cases hy
        | some q =>
          obtain ⟨a, i⟩ := p
          obtain ⟨b, j⟩ := q
          rw [hR] at hx
          rw [hC] at hy
          simp only at hx hy
          obtain ⟨AB, hAB, hx⟩ := Option.bind_eq_some_iff.mp hx
          obtain ⟨CD, hCD, hy⟩ := Option.bind_eq_some_iff.mp hy
          obtain ⟨p, hp, rfl⟩ := Option.map_eq_some_iff.mp hx
          obtain ⟨q, hq, rfl⟩ := Option.map_eq_some_iff.mp hy
          simp only
          rw [hblock a b AB CD hAB hCD]
          simp only
          rw [show (maskedClosed nb δ ells AB CD).arr = ells.map (covFun nb δ AB CD) from rfl,
            entryAt_map _ _ _ _ _ hl]
          unfold covFun
          rw [hp, hq]
    refine ⟨hentry, ?_⟩
    intro l R C hR hC
    by_cases hl : l < ells.length
    · have hlen : (heights rows).sum = (layout nb dv).length := by
        rw [hheights]
        unfold layout
        rw [List.length_flatMap]
        congr 1
        apply List.map_congr_left
        intro AB _
        simp
      have hR' : R < (layout nb dv).length := hlen ▸ hR
      have hC' : C < (layout nb dv).length := hlen ▸ hC
      rw [hentry l _ R C _ _ (List.getElem?_eq_getElem hl) (List.getElem?_eq_getElem hR')
          (List.getElem?_eq_getElem hC'),
        hentry l _ C R _ _ (List.getElem?_eq_getElem hl) (List.getElem?_eq_getElem hC')
          (List.getElem?_eq_getElem hR')]
      exact covSpec_comm H.symm _ _ _
    · unfold entryAt
      rw [List.getElem?_eq_none (by simpa using hl)]

theorem evalLoop_upper {s : Store P K} (ts : List ((P × P) × (P × P) × Bool)) (d d' : Blocks P K)
    (h : evalLoop s d ts = .ok d') {AB CD : P × P} (hm : (AB, CD, true) ∈ ts) :
    ∃ t, covBlock s AB CD = .ok t := by
  induction ts generalizing d with
  | nil => simp at hm
  | cons x ts ih =>
    obtain ⟨A, C, u⟩ := x
    rw [evalLoop] at h
    cases hs : evalStep s d A C u with
    | error e => rw [hs] at h; cases h
    | ok d₁ =>
      rw [hs] at h
      rcases List.mem_cons.mp hm with he | hm
      · simp only [Prod.mk.injEq] at he
        obtain ⟨rfl, rfl, rfl⟩ := he
        unfold evalStep at hs
        rw [if_pos rfl] at hs
        cases hc : covBlock s AB CD with
        | error e => rw [hc] at hs; cases hs
        | ok t => exact ⟨t, rfl⟩
      · exact ih d₁ h hm

theorem covBlock_has {s : Store P K} {AB CD : P × P} {t : Tomo K} (h : covBlock s AB CD = .ok t) :
    Has s AB.1 CD.1 ∧ Has s AB.2 CD.2 ∧ Has s AB.1 CD.2 ∧ Has s AB.2 CD.1 := by
  by_contra hc
  have hcase : ¬ Has s AB.1 CD.1 ∨ ¬ Has s AB.2 CD.2 ∨ ¬ Has s AB.1 CD.2 ∨ ¬ Has s AB.2 CD.1 := by
    tauto
  unfold covBlock at h
  rcases hcase with hn | hn | hn | hn <;> rw [get_none hn] at h
  · simp at h
  · cases h1 : s.get AB.1 CD.1 <;> rw [h1] at h <;> simp at h
  · cases h1 : s.get AB.1 CD.1 <;> cases h2 : s.get AB.2 CD.2 <;> rw [h1, h2] at h <;> simp at h
  · cases h1 : s.get AB.1 CD.1 <;> cases h2 : s.get AB.2 CD.2 <;> cases h3 : s.get AB.1 CD.2 <;>
      rw [h1, h2, h3] at h <;> simp at h

theorem Has.symm {s : Store P K} {a b : P} (h : Has s a b) : Has s b a := h.elim Or.inr Or.inl

/-- C15. If the spectrum of some pair of involved probes is missing, the computation raises: success
implies that all are there. -/
theorem covariance_needs_all {s : Store P K} {dv : List (P × P)} {M : CovMat K}
    (h : covariance s dv = .ok M) : Available s dv := by
  unfold covariance at h
  cases hd : evalAllBlocks s dv with
  | error e => rw [hd] at h; cases h
  | ok d =>
    have key : ∀ (a b : Nat) (AB CD : P × P), dv[a]? = some AB → dv[b]? = some CD → a ≤ b →
        Has s AB.1 CD.1 ∧ Has s AB.2 CD.2 ∧ Has s AB.1 CD.2 ∧ Has s AB.2 CD.1 := by
      intro a b AB CD ha hb hab
      obtain ⟨t, ht⟩ := evalLoop_upper (tasks dv) [] d hd (AB := AB) (CD := CD) (by
        unfold tasks
        refine List.mem_flatMap.mpr ⟨(AB, a), List.mem_zipIdx_iff_getElem?.mpr ha,
          List.mem_map.mpr ⟨(CD, b), List.mem_zipIdx_iff_getElem?.mpr hb, ?_⟩⟩
        simp [hab])
      exact covBlock_has ht
    intro x hx y hy
    obtain ⟨AB, hAB, hx⟩ := mem_probesOf.mp hx
    obtain ⟨CD, hCD, hy⟩ := mem_probesOf.mp hy
    obtain ⟨a, ha⟩ := List.getElem?_of_mem hAB
    obtain ⟨b, hb⟩ := List.getElem?_of_mem hCD
    rcases Nat.le_total a b with hab | hab
    · obtain ⟨h1, h2, h3, h4⟩ := key a b AB CD ha hb hab
      rcases hx with rfl | rfl <;> rcases hy with rfl | rfl
      · exact h1
      · exact h3
      · exact h4
      · exact h2
    · obtain ⟨h1, h2, h3, h4⟩ := key b a CD AB hb ha hab
      rcases hx with rfl | rfl <;> rcases hy with rfl | rfl
      · exact h1.symm
      · exact h4.symm
      · exact h3.symm
      · exact h2.symm

/-! An example: two probes with two and one bins, a grid of two multipoles. -/

def exNb : Bool → Nat := fun b => if b then 2 else 1
def exGrid : Bool → Bool → List ℚ := fun a b => if a = b then [1, 2, 3] else [2, 3]
def exDelta : Bool → Bool → ℚ → Nat → Nat → ℚ := fun a b ℓ i j =>
  if a = b then (if i = j then 4 else 1) else ℓ * (if a then (i : ℚ) else j)
def exStore : Store Bool ℚ :=
  [((true, true), fullBlock exNb exGrid exDelta true true),
   ((false, true), fullBlock exNb exGrid exDelta false true),
   ((false, false), fullBlock exNb exGrid exDelta false false)]

theorem exHolds : Holds exStore exNb exGrid exDelta where
  stored := by
    intro a b t h
    cases a <;> cases b
    · exact (Option.some.inj h).symm
    · exact (Option.some.inj h).symm
    · cases (show (none : Option (Tomo ℚ)) = some t from h)
    · exact (Option.some.inj h).symm
  symm := by
    intro a b ℓ i j
    cases a <;> cases b <;> simp [exDelta, eq_comm]
  gsymm := by intro a b; cases a <;> cases b <;> rfl
  sorted := by intro a b; cases a <;> cases b <;> simp [exGrid] <;> norm_num

theorem exAvailable : Available exStore [(true, true), (true, false)] := by
  intro x _ y _
  cases x <;> cases y <;> first | exact Or.inl rfl | exact Or.inr rfl

example : ∃ M, covariance exStore [(true, true), (true, false)] = .ok M ∧ M.size = 5 :=
  let ⟨M, h, h', _⟩ := covariance_spec exHolds (dv := [(true, true), (true, false)]) (by simp)
    exAvailable
  ⟨M, h, h'.trans (by decide)⟩

end Seyfert.Cov
