import Verif.Spec.Covariance
import Verif.Props.Multipoles
import Verif.Lemmas.Linalg

/-! Lemmas on the covariance model. -/

set_option linter.unusedSectionVars false

namespace Seyfert.Cov

open Ells

variable {P K : Type} [DecidableEq P] [Field K] [LinearOrder K]

theorem get_eq {s : Store P K} {nb : P → Nat} {g : P → P → List K}
    {δ : P → P → K → Nat → Nat → K} (H : Holds s nb g δ) {a b : P} (h : Has s a b) :
    s.get a b = .ok (fullBlock nb g δ a b) := by
  unfold Store.get
  cases h1 : s.lookup (a, b) with
  | some t => rw [H.stored a b t h1]
  | none =>
    rcases h with h | h
    · rw [h1] at h; simp at h
    · obtain ⟨t, ht⟩ := Option.isSome_iff_exists.mp h
      rw [ht, H.stored b a t ht]
      simp only [fullBlock, Tomo.T, List.map_map, Except.ok.injEq, Tomo.mk.injEq, H.gsymm b a,
        true_and]
      apply List.map_congr_left
      intro ℓ _
      funext i j
      exact (H.symm a b ℓ i j).symm

theorem get_none {s : Store P K} {a b : P} (h : ¬ Has s a b) : s.get a b = .error .keyError := by
  have h1 : s.lookup (a, b) = none :=
    Option.not_isSome_iff_eq_none.mp (fun e => h (Or.inl e))
  have h2 : s.lookup (b, a) = none :=
    Option.not_isSome_iff_eq_none.mp (fun e => h (Or.inr e))
  unfold Store.get
  rw [h1, h2]

theorem filter_zip_map {A B : Type} (l : List A) (f : A → B) (q : A → Bool) :
    ((l.zip (l.map f)).filter (fun p => q p.1)).map (·.2) = (l.filter q).map f := by
  induction l with
  | nil => rfl
  | cons a l ih =>
    rw [List.map_cons, List.zip_cons_cons, List.filter_cons, List.filter_cons]
    by_cases h : q a
    · simp only [h, if_true, List.map_cons, ih]
    · simp only [h, if_false, ih, Bool.false_eq_true]

theorem filter_mem_sorted {g ells : List K} (hg : g.Pairwise (· < ·)) (he : ells.Pairwise (· < ·))
    (hsub : ∀ x ∈ ells, x ∈ g) : g.filter (fun x => decide (x ∈ ells)) = ells := by
  apply sorted_ext (hg.filter _) he
  intro x
  simp only [List.mem_filter, decide_eq_true_eq]
  exact ⟨fun h => h.2, fun h => ⟨hsub x h, h⟩⟩

theorem mask_eq {g ells : List K} (hg : g.Pairwise (· < ·)) (he : ells.Pairwise (· < ·))
    (hsub : ∀ x ∈ ells, x ∈ g) (f : K → Nat → Nat → K) :
    maskArr g ells (g.map f) = .ok (ells.map f) := by
  unfold maskArr
  rw [if_pos (by simp), filter_zip_map g f (fun x => decide (x ∈ ells)),
    filter_mem_sorted hg he hsub]

theorem mem_dictOf {A B : Type} [DecidableEq A] {d : List (A × B)} {p : A × B}
    (h : p ∈ dictOf d) : p ∈ d := by
  induction d with
  | nil => simp [dictOf] at h
  | cons x d ih =>
    rw [dictOf, List.mem_cons, List.mem_filter] at h
    rcases h with rfl | h
    · exact List.mem_cons_self
    · exact List.mem_cons_of_mem _ (ih h.1)

theorem key_dictOf {A B : Type} [DecidableEq A] {d : List (A × B)} {p : A × B} (h : p ∈ d) :
    ∃ q ∈ dictOf d, q.1 = p.1 := by
  induction d with
  | nil => simp at h
  | cons x d ih =>
    by_cases hx : p.1 = x.1
    · exact ⟨x, by rw [dictOf]; exact List.mem_cons_self, hx.symm⟩
    · rcases List.mem_cons.mp h with rfl | h
      · exact absurd rfl hx
      · obtain ⟨q, hq, hk⟩ := ih h
        refine ⟨q, ?_, hk⟩
        rw [dictOf, List.mem_cons, List.mem_filter]
        right
        refine ⟨hq, ?_⟩
        rw [hk]; simpa using hx

/-- Common multipoles of a nonempty dictionary of blocks with increasing grids that depend on the key
only. -/
theorem commonElls_spec {A : Type} [DecidableEq A] {d : List (A × Tomo K)} (gr : A → List K)
    (hne : d ≠ []) (hd : ∀ p ∈ d, p.2.ells = gr p.1) (hs : ∀ p ∈ d, (gr p.1).Pairwise (· < ·)) :
    ∃ r, commonElls d = .ok r ∧ r.Pairwise (· < ·) ∧ ∀ x, x ∈ r ↔ ∀ p ∈ d, x ∈ gr p.1 := by
  have hne' : (dictOf d).map (fun p => p.2.ells) ≠ [] := by
    cases d with
    | nil => exact absurd rfl hne
    | cons x d => simp [dictOf]
  obtain ⟨r, hr, hm, hsort, hone⟩ := inter_spec _ hne'
  refine ⟨r, hr, ?_, ?_⟩
  · by_cases h2 : 2 ≤ ((dictOf d).map (fun p => p.2.ells)).length
    · exact hsort h2
    · match hl : (dictOf d).map (fun p => p.2.ells), hne', h2 with
      | [], h, _ => exact absurd hl h
      | [a], _, _ =>
        rw [hone a hl]
        have : a ∈ (dictOf d).map (fun p => p.2.ells) := by rw [hl]; simp
        obtain ⟨p, hp, rfl⟩ := List.mem_map.mp this
        rw [hd p (mem_dictOf hp)]
        exact hs p (mem_dictOf hp)
      | _ :: _ :: _, _, h => rw [hl] at h; simp at h
  · intro x
    rw [hm]
    constructor
    · intro h p hp
      obtain ⟨q, hq, hk⟩ := key_dictOf hp
      have := h _ (List.mem_map.mpr ⟨q, hq, rfl⟩)
      rw [hd q (mem_dictOf hq), hk] at this
      exact this
    · intro h a ha
      obtain ⟨p, hp, rfl⟩ := List.mem_map.mp ha
      rw [hd p (mem_dictOf hp)]
      exact h p (mem_dictOf hp)

theorem enumMap_eq (nb : P → Nat) (A B : P) :
    Linalg.getEnumerationMap (nb A) (nb B) (decide (A = B)) = .ok ((binPairs nb (A, B)).zipIdx) := by
  unfold Linalg.getEnumerationMap binPairs
  by_cases h : A = B
  · subst h
    simp only [decide_true, if_true, ne_eq, not_true_eq_false, if_false]
    rw [Linalg.triu_val]
  · simp only [h, decide_false, Bool.false_eq_true, if_false]
    rw [Linalg.colMajor_val]

theorem find_zipIdx {A : Type} (l : List A) (k r : Nat) :
    ((l.zipIdx k).find? (fun p => decide (p.2 = k + r))).map (·.1) = l[r]? := by
  induction l generalizing k r with
  | nil => rfl
  | cons a l ih =>
    rw [List.zipIdx_cons, List.find?_cons]
    cases r with
    | zero => simp
    | succ r =>
      have : decide ((a, k).2 = k + (r + 1)) = false := by simp
      rw [this, List.getElem?_cons_succ]
      rw [show k + (r + 1) = (k + 1) + r by omega]
      exact ih (k + 1) r

theorem unenum_zipIdx (l : List (Nat × Nat)) (r : Nat) : unenum l.zipIdx r = l[r]? := by
  have := find_zipIdx l 0 r
  rw [Nat.zero_add] at this
  exact this

theorem mem_binPairs {nb : P → Nat} {AB : P × P} {p : Nat × Nat} (h : p ∈ binPairs nb AB) :
    p.1 < nb AB.1 ∧ p.2 < nb AB.2 := by
  unfold binPairs at h
  simp only [List.mem_flatMap, List.mem_range, List.mem_map] at h
  obtain ⟨j, hj, i, hi, rfl⟩ := h
  refine ⟨?_, hj⟩
  split at hi
  · rename_i he; simp only; rw [he]; omega
  · exact hi

/-- Values of a covariance block. -/
def covFun (nb : P → Nat) (δ : P → P → K → Nat → Nat → K) (AB CD : P × P) (ℓ : K) (r c : Nat) : K :=
  match (binPairs nb AB)[r]?, (binPairs nb CD)[c]? with
  | some p, some q => covSpec δ ℓ ((AB.1, p.1), (AB.2, p.2)) ((CD.1, q.1), (CD.2, q.2))
  | _, _ => 0

/-- Grid of a covariance block. -/
def bells (g : P → P → List K) (AB CD : P × P) : List K :=
  (g AB.1 CD.1).filter (fun ℓ => decide (ℓ ∈ g AB.2 CD.2 ∧ ℓ ∈ g AB.1 CD.2 ∧ ℓ ∈ g AB.2 CD.1))

/-- Closed form of a covariance block. -/
def covClosed (nb : P → Nat) (g : P → P → List K) (δ : P → P → K → Nat → Nat → K) (AB CD : P × P) :
    Tomo K :=
  ⟨bells g AB CD, (binPairs nb AB).length, (binPairs nb CD).length,
    (bells g AB CD).map (covFun nb δ AB CD)⟩

theorem covSpec_comm {δ : P → P → K → Nat → Nat → K}
    (hs : ∀ a b ℓ i j, δ a b ℓ i j = δ b a ℓ j i) (ℓ : K) (x y : (P × Nat) × (P × Nat)) :
    covSpec δ ℓ x y = covSpec δ ℓ y x := by
  unfold covSpec
  rw [hs x.1.1 y.1.1, hs x.2.1 y.2.1, hs x.1.1 y.2.1, hs x.2.1 y.1.1,
    mul_comm (δ y.2.1 x.1.1 ℓ y.2.2 x.1.2)]

theorem bells_sorted {s : Store P K} {nb : P → Nat} {g : P → P → List K}
    {δ : P → P → K → Nat → Nat → K} (H : Holds s nb g δ) (AB CD : P × P) :
    (bells g AB CD).Pairwise (· < ·) := (H.sorted _ _).filter _

theorem mem_bells {g : P → P → List K} {AB CD : P × P} {ℓ : K} : ℓ ∈ bells g AB CD ↔
    ℓ ∈ g AB.1 CD.1 ∧ ℓ ∈ g AB.2 CD.2 ∧ ℓ ∈ g AB.1 CD.2 ∧ ℓ ∈ g AB.2 CD.1 := by
  simp [bells]

theorem bells_comm {s : Store P K} {nb : P → Nat} {g : P → P → List K}
    {δ : P → P → K → Nat → Nat → K} (H : Holds s nb g δ) (AB CD : P × P) :
    bells g AB CD = bells g CD AB := by
  apply sorted_ext (bells_sorted H _ _) (bells_sorted H _ _)
  intro x
  rw [mem_bells, mem_bells, H.gsymm AB.1 CD.1, H.gsymm AB.2 CD.2, H.gsymm AB.1 CD.2,
    H.gsymm AB.2 CD.1]
  tauto

theorem covClosed_T {s : Store P K} {nb : P → Nat} {g : P → P → List K}
    {δ : P → P → K → Nat → Nat → K} (H : Holds s nb g δ) (AB CD : P × P) :
    (covClosed nb g δ CD AB).T = covClosed nb g δ AB CD := by
  unfold covClosed Tomo.T
  simp only [bells_comm H CD AB, List.map_map, Tomo.mk.injEq, true_and]
  apply List.map_congr_left
  intro ℓ _
  funext r c
  simp only [Function.comp, covFun]
  cases (binPairs nb AB)[r]? <;> cases (binPairs nb CD)[c]? <;> simp only
  exact covSpec_comm H.symm ℓ _ _

theorem entryAt_map (l : List K) (f : K → Nat → Nat → K) (k i j : Nat) {ℓ : K} (h : l[k]? = some ℓ) :
    entryAt (l.map f) k i j = f ℓ i j := by
  unfold entryAt
  rw [List.getElem?_map, h]
  rfl

theorem covBlock_eq {s : Store P K} {nb : P → Nat} {g : P → P → List K}
    {δ : P → P → K → Nat → Nat → K} (H : Holds s nb g δ) {AB CD : P × P}
    (hAB : Has s AB.1 AB.2) (hCD : Has s CD.1 CD.2) (hAC : Has s AB.1 CD.1) (hBD : Has s AB.2 CD.2)
    (hAD : Has s AB.1 CD.2) (hBC : Has s AB.2 CD.1) :
    covBlock s AB CD = .ok (covClosed nb g δ AB CD) := by
  unfold covBlock
  rw [get_eq H hAC, get_eq H hBD, get_eq H hAD, get_eq H hBC]
  simp only
  obtain ⟨r, hr, hrs, hrm⟩ := commonElls_spec (K := K) (d :=
    [((AB.1, CD.1), fullBlock nb g δ AB.1 CD.1), ((AB.2, CD.2), fullBlock nb g δ AB.2 CD.2),
     ((AB.1, CD.2), fullBlock nb g δ AB.1 CD.2), ((AB.2, CD.1), fullBlock nb g δ AB.2 CD.1)])
    (fun k => g k.1 k.2) (by simp) (by simp [fullBlock])
    (fun p _ => H.sorted _ _)
  rw [hr]
  have hre : r = bells g AB CD := by
    apply sorted_ext hrs (bells_sorted H _ _)
    intro x
    rw [hrm, mem_bells]
    simp
  subst hre
  have m1 := mask_eq (H.sorted AB.1 CD.1) hrs (fun x hx => (mem_bells.mp hx).1) (δ AB.1 CD.1)
  have m2 := mask_eq (H.sorted AB.2 CD.2) hrs (fun x hx => (mem_bells.mp hx).2.1) (δ AB.2 CD.2)
  have m3 := mask_eq (H.sorted AB.1 CD.2) hrs (fun x hx => (mem_bells.mp hx).2.2.1) (δ AB.1 CD.2)
  have m4 := mask_eq (H.sorted AB.2 CD.1) hrs (fun x hx => (mem_bells.mp hx).2.2.2) (δ AB.2 CD.1)
  simp only [fullBlock]
  rw [m1, m2, m3, m4]
  simp only
  unfold covBlockFrom
  rw [get_eq H hAB, get_eq H hCD]
  simp only [fullBlock, enumMap_eq nb, liftLinalg]
  rw [if_neg, if_pos]
  · unfold covClosed
    simp only [List.length_zipIdx, Except.ok.injEq, Tomo.mk.injEq, true_and]
    unfold covArr
    apply List.ext_getElem
    · simp
    · intro l h1 h2
      simp only [List.getElem_map, List.getElem_zipIdx, Nat.zero_add]
      have hl : l < (bells g AB CD).length := by simpa using h2
      have hget : (bells g AB CD)[l]? = some (bells g AB CD)[l] := List.getElem?_eq_getElem hl
      funext r c
      simp only [unenum_zipIdx, covFun]
      cases hp : (binPairs nb (AB.1, AB.2))[r]? with
      | none => simp only [show (binPairs nb AB)[r]? = none from hp]
      | some p =>
        cases hq : (binPairs nb (CD.1, CD.2))[c]? with
        | none => simp only [show (binPairs nb AB)[r]? = some p from hp,
                    show (binPairs nb CD)[c]? = none from hq]
        | some q =>
          simp only [show (binPairs nb AB)[r]? = some p from hp,
            show (binPairs nb CD)[c]? = some q from hq, entryAt_map _ _ _ _ _ hget, covSpec]
          rw [mul_one_div]
  · simp
  · rw [not_not]
    intro x hx y hy
    have hx' := mem_binPairs (List.mem_of_getElem? (List.mem_zipIdx_iff_getElem?.mp hx))
    have hy' := mem_binPairs (List.mem_of_getElem? (List.mem_zipIdx_iff_getElem?.mp hy))
    exact ⟨⟨hx'.1, hy'.1⟩, ⟨hx'.2, hy'.2⟩, ⟨hx'.1, hy'.2⟩, ⟨hx'.2, hy'.1⟩⟩

/-! ### The loop over blocks -/

/-- All blocks so far are the closed forms of pairs of the data vector. -/
def Inv (nb : P → Nat) (g : P → P → List K) (δ : P → P → K → Nat → Nat → K) (dv : List (P × P))
    (d : Blocks P K) : Prop :=
  ∀ p ∈ d, p.2 = covClosed nb g δ p.1.1 p.1.2 ∧ p.1.1 ∈ dv ∧ p.1.2 ∈ dv

/-- Every pair of probes of the data vector is stored. -/
def Available (s : Store P K) (dv : List (P × P)) : Prop :=
  ∀ x ∈ probesOf dv, ∀ y ∈ probesOf dv, Has s x y

theorem fst_mem_probes {dv : List (P × P)} {AB : P × P} (h : AB ∈ dv) : AB.1 ∈ probesOf dv :=
  List.mem_flatMap.mpr ⟨AB, h, by simp⟩

theorem snd_mem_probes {dv : List (P × P)} {AB : P × P} (h : AB ∈ dv) : AB.2 ∈ probesOf dv :=
  List.mem_flatMap.mpr ⟨AB, h, by simp⟩

theorem evalLoop_append (s : Store P K) (d : Blocks P K) (t₁ t₂ : List ((P × P) × (P × P) × Bool)) :
    evalLoop s d (t₁ ++ t₂) = match evalLoop s d t₁ with
      | .error e => .error e
      | .ok d' => evalLoop s d' t₂ := by
  induction t₁ generalizing d with
  | nil => rfl
  | cons t t₁ ih =>
    obtain ⟨AB, CD, u⟩ := t
    rw [List.cons_append, evalLoop, evalLoop]
    cases evalStep s d AB CD u with
    | error e => rfl
    | ok d' => exact ih d'

theorem mem_of_lookup' {A B : Type} [BEq A] [LawfulBEq A] {l : List (A × B)} {k : A} {v : B}
    (h : l.lookup k = some v) : (k, v) ∈ l := by
  induction l with
  | nil => simp at h
  | cons x l ih =>
    obtain ⟨k', v'⟩ := x
    rw [List.lookup_cons] at h
    by_cases hk : k == k'
    · rw [hk] at h
      simp only [Option.some.injEq] at h
      rw [eq_of_beq hk, h]; exact List.mem_cons_self
    · rw [Bool.not_eq_true] at hk
      rw [hk] at h
      exact List.mem_cons_of_mem _ (ih h)

theorem lookup_set_isSome (d : Blocks P K) (k k' : (P × P) × (P × P)) (t : Tomo K) :
    ((d.set k t).lookup k').isSome ↔ k' = k ∨ (d.lookup k').isSome := by
  unfold Blocks.set
  rw [List.lookup_cons]
  by_cases h : k' == k
  · rw [h]; simp [eq_of_beq h]
  · have h' : k' ≠ k := fun e => h (by rw [e]; exact beq_self_eq_true k)
    rw [Bool.not_eq_true] at h
    rw [h]; simp [h']

theorem evalStep_ok {s : Store P K} {nb : P → Nat} {g : P → P → List K}
    {δ : P → P → K → Nat → Nat → K} (H : Holds s nb g δ) {dv : List (P × P)} (hav : Available s dv)
    {d : Blocks P K} (hd : Inv nb g δ dv d) {AB CD : P × P} (hAB : AB ∈ dv) (hCD : CD ∈ dv) (u : Bool)
    (hu : u = false → (d.lookup (CD, AB)).isSome) :
    evalStep s d AB CD u = .ok (d.set (AB, CD) (covClosed nb g δ AB CD)) := by
  unfold evalStep
  cases u with
  | true =>
    rw [if_pos rfl, covBlock_eq H]
    · exact hav _ (fst_mem_probes hAB) _ (snd_mem_probes hAB)
    · exact hav _ (fst_mem_probes hCD) _ (snd_mem_probes hCD)
    · exact hav _ (fst_mem_probes hAB) _ (fst_mem_probes hCD)
    · exact hav _ (snd_mem_probes hAB) _ (snd_mem_probes hCD)
    · exact hav _ (fst_mem_probes hAB) _ (snd_mem_probes hCD)
    · exact hav _ (snd_mem_probes hAB) _ (fst_mem_probes hCD)
  | false =>
    obtain ⟨t, ht⟩ := Option.isSome_iff_exists.mp (hu rfl)
    rw [if_neg (by decide), ht]
    have := (hd _ (mem_of_lookup' ht)).1
    simp only at this
    simp only [this, covClosed_T H]

theorem Inv.set {nb : P → Nat} {g : P → P → List K} {δ : P → P → K → Nat → Nat → K}
    {dv : List (P × P)} {d : Blocks P K} (hd : Inv nb g δ dv d) {AB CD : P × P} (hAB : AB ∈ dv)
    (hCD : CD ∈ dv) : Inv nb g δ dv (d.set (AB, CD) (covClosed nb g δ AB CD)) := by
  intro p hp
  rcases List.mem_cons.mp hp with rfl | hp
  · exact ⟨rfl, hAB, hCD⟩
  · exact hd p hp

/-- One row of the double loop. -/
theorem evalLoop_row {s : Store P K} {nb : P → Nat} {g : P → P → List K}
    {δ : P → P → K → Nat → Nat → K} (H : Holds s nb g δ) {dv : List (P × P)} (hav : Available s dv)
    {AB : P × P} (hAB : AB ∈ dv) (ts : List ((P × P) × Bool))
    (d : Blocks P K) (hd : Inv nb g δ dv d) (hts : ∀ x ∈ ts, x.1 ∈ dv)
    (hu : ∀ x ∈ ts, x.2 = false → (d.lookup (x.1, AB)).isSome) :
    ∃ d', evalLoop s d (ts.map (fun x => (AB, x.1, x.2))) = .ok d' ∧ Inv nb g δ dv d' ∧
      (∀ k, (d.lookup k).isSome → (d'.lookup k).isSome) ∧
      ∀ x ∈ ts, (d'.lookup (AB, x.1)).isSome := by
  induction ts generalizing d with
  | nil => exact ⟨d, rfl, hd, fun _ h => h, by simp⟩
  | cons x ts ih =>
    have hstep := evalStep_ok H hav hd hAB (hts x List.mem_cons_self) x.2
      (hu x List.mem_cons_self)
    obtain ⟨d', h1, h2, h3, h4⟩ := ih (d.set (AB, x.1) (covClosed nb g δ AB x.1))
      (hd.set hAB (hts x List.mem_cons_self)) (fun y hy => hts y (List.mem_cons_of_mem _ hy))
      (fun y hy hf => (lookup_set_isSome d _ _ _).mpr (Or.inr (hu y (List.mem_cons_of_mem _ hy) hf)))
    refine ⟨d', ?_, h2, fun k hk => h3 k ((lookup_set_isSome d _ _ _).mpr (Or.inr hk)), ?_⟩
    · rw [List.map_cons, evalLoop, hstep]; exact h1
    · intro y hy
      rcases List.mem_cons.mp hy with rfl | hy
      · exact h3 _ ((lookup_set_isSome d _ _ _).mpr (Or.inl rfl))
      · exact h4 y hy

theorem evalLoop_rows {s : Store P K} {nb : P → Nat} {g : P → P → List K}
    {δ : P → P → K → Nat → Nat → K} (H : Holds s nb g δ) {dv : List (P × P)} (hav : Available s dv)
    (l : List (P × P)) (k : Nat) (hl : ∀ x ∈ l, x ∈ dv) (d : Blocks P K) (hd : Inv nb g δ dv d)
    (hprev : ∀ c < k + l.length, ∀ AB, dv[c]? = some AB → c < k →
      ∀ CD ∈ dv, (d.lookup (AB, CD)).isSome)
    (hpos : ∀ i, i < l.length → dv[k + i]? = l[i]?) :
    ∃ d', evalLoop s d ((l.zipIdx k).flatMap (fun x =>
        dv.zipIdx.map (fun y => (x.1, y.1, decide (x.2 ≤ y.2))))) = .ok d' ∧ Inv nb g δ dv d' ∧
      (∀ q, (d.lookup q).isSome → (d'.lookup q).isSome) ∧
      ∀ AB ∈ l, ∀ CD ∈ dv, (d'.lookup (AB, CD)).isSome := by
  induction l generalizing k d with
  | nil => exact ⟨d, rfl, hd, fun _ h => h, by simp⟩
  | cons AB l ih =>
    have hAB := hl AB List.mem_cons_self
    have hget : dv[k]? = some AB := by
      have := hpos 0 (by simp)
      simpa using this
    obtain ⟨d₁, e1, i1, p1, c1⟩ := evalLoop_row H hav hAB
      (dv.zipIdx.map (fun y : (P × P) × Nat => (y.1, decide (k ≤ y.2)))) d hd
      (by
        intro x hx
        obtain ⟨y, hy, rfl⟩ := List.mem_map.mp hx
        exact List.mem_of_getElem? (List.mem_zipIdx_iff_getElem?.mp hy))
      (by
        intro x hx hf
        obtain ⟨y, hy, rfl⟩ := List.mem_map.mp hx
        have hy' := List.mem_zipIdx_iff_getElem?.mp hy
        have hlt : y.2 < k := by simpa using hf
        exact hprev y.2 (by omega) y.1 hy' hlt AB hAB)
    have hcov : ∀ CD ∈ dv, (d₁.lookup (AB, CD)).isSome := by
      intro CD hCD
      obtain ⟨i, hi⟩ := List.getElem?_of_mem hCD
      exact c1 (CD, decide (k ≤ i)) (List.mem_map.mpr ⟨(CD, i),
        List.mem_zipIdx_iff_getElem?.mpr hi, rfl⟩)
    obtain ⟨d₂, e2, i2, p2, c2⟩ := ih (k + 1) (fun x hx => hl x (List.mem_cons_of_mem _ hx)) d₁ i1
      (by
        intro c hc A hA hck CD hCD
        rcases Nat.lt_succ_iff_lt_or_eq.mp hck with h | rfl
        · exact p1 _ (hprev c (by simp at hc ⊢; omega) A hA h CD hCD)
        · rw [hget] at hA
          cases hA
          exact hcov CD hCD)
      (by
        intro i hi
        have := hpos (i + 1) (by simp; omega)
        rw [List.getElem?_cons_succ] at this
        rw [show k + 1 + i = k + (i + 1) by omega]; exact this)
    refine ⟨d₂, ?_, i2, fun q hq => p2 q (p1 q hq), ?_⟩
    · rw [List.zipIdx_cons, List.flatMap_cons, evalLoop_append]
      have he : dv.zipIdx.map (fun y => (AB, y.1, decide (k ≤ y.2)))
          = (dv.zipIdx.map (fun y : (P × P) × Nat => (y.1, decide (k ≤ y.2)))).map (fun x => (AB, x.1, x.2)) := by
        rw [List.map_map]; rfl
      simp only
      rw [he, e1]
      exact e2
    · intro A hA CD hCD
      rcases List.mem_cons.mp hA with rfl | hA
      · exact p2 _ (hcov CD hCD)
      · exact c2 A hA CD hCD

theorem evalAllBlocks_ok {s : Store P K} {nb : P → Nat} {g : P → P → List K}
    {δ : P → P → K → Nat → Nat → K} (H : Holds s nb g δ) {dv : List (P × P)}
    (hav : Available s dv) :
    ∃ d, evalAllBlocks s dv = .ok d ∧ Inv nb g δ dv d ∧
      ∀ AB ∈ dv, ∀ CD ∈ dv, (d.lookup (AB, CD)).isSome := by
  obtain ⟨d, h1, h2, _, h4⟩ := evalLoop_rows H hav dv 0 (fun _ h => h) [] (by intro p hp; simp at hp)
    (by intro c _ A _ h; omega) (by intro i _; simp)
  exact ⟨d, h1, h2, h4⟩

/-! ### Masking and assembling -/

/-- Closed form of a masked block. -/
def maskedClosed (nb : P → Nat) (δ : P → P → K → Nat → Nat → K) (ells : List K) (AB CD : P × P) :
    Tomo K :=
  ⟨ells, (binPairs nb AB).length, (binPairs nb CD).length, ells.map (covFun nb δ AB CD)⟩

theorem maskBlocks_eq {s : Store P K} {nb : P → Nat} {g : P → P → List K}
    {δ : P → P → K → Nat → Nat → K} (H : Holds s nb g δ) {ells : List K}
    (he : ells.Pairwise (· < ·)) (d : Blocks P K)
    (hd : ∀ p ∈ d, p.2 = covClosed nb g δ p.1.1 p.1.2)
    (hsub : ∀ p ∈ d, ∀ x ∈ ells, x ∈ bells g p.1.1 p.1.2) :
    maskBlocks ells d = .ok (d.map (fun p => (p.1, maskedClosed nb δ ells p.1.1 p.1.2))) := by
  induction d with
  | nil => rfl
  | cons p d ih =>
    obtain ⟨k, t⟩ := p
    have ht := hd _ List.mem_cons_self
    simp only at ht
    subst ht
    rw [maskBlocks, ih (fun p hp => hd p (List.mem_cons_of_mem _ hp))
      (fun p hp => hsub p (List.mem_cons_of_mem _ hp))]
    have := mask_eq (bells_sorted H k.1 k.2) he (hsub _ List.mem_cons_self) (covFun nb δ k.1 k.2)
    simp only [covClosed, this]
    rfl

theorem lookup_map_isSome {A B C : Type} [BEq A] (f : A → B → C) (l : List (A × B)) (k : A) :
    ((l.map (fun p => (p.1, f p.1 p.2))).lookup k).isSome = (l.lookup k).isSome := by
  induction l with
  | nil => rfl
  | cons x l ih =>
    obtain ⟨a, b⟩ := x
    rw [List.map_cons, List.lookup_cons, List.lookup_cons]
    cases k == a <;> simp [ih]

theorem mapM_ok {A B : Type} {E : Type} (l : List A) (f : A → Except E B) (h : A → B)
    (hf : ∀ a ∈ l, f a = .ok (h a)) : l.mapM f = .ok (l.map h) := by
  induction l with
  | nil => rfl
  | cons a l ih =>
    rw [List.mapM_cons, hf a List.mem_cons_self, ih (fun b hb => hf b (List.mem_cons_of_mem _ hb))]
    rfl

theorem flatMap_getElem? {A B : Type} (l : List A) (f : A → List B) (R : Nat) :
    (l.flatMap f)[R]? = match locate (l.map (fun a => (f a).length)) R with
      | some (a, i) => (l[a]?).bind (fun x => (f x)[i]?)
      | none => none := by
  induction l generalizing R with
  | nil => rfl
  | cons x l ih =>
    rw [List.flatMap_cons, List.map_cons, locate]
    by_cases h : R < (f x).length
    · rw [if_pos h, List.getElem?_append_left h]; rfl
    · rw [if_neg h, List.getElem?_append_right (by omega), ih]
      cases locate (l.map (fun a => (f a).length)) (R - (f x).length) with
      | none => rfl
      | some p => rfl

theorem layout_getElem? (nb : P → Nat) (dv : List (P × P)) (R : Nat) :
    (layout nb dv)[R]? = match locate (dv.map (fun AB => (binPairs nb AB).length)) R with
      | some (a, i) => (dv[a]?).bind (fun AB => ((binPairs nb AB)[i]?).map
          (fun p => ((AB.1, p.1), (AB.2, p.2))))
      | none => none := by
  unfold layout
  rw [flatMap_getElem?]
  simp only [List.length_map, List.getElem?_map]

end Seyfert.Cov
