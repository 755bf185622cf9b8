import Verif.Lemmas.FisherStore

/-!
Several Fisher matrices by reference: C13 (a posteriori combinations), C09 (operands are not
modified), C14 (base matrices of an analysis), C59 (final results).

The heap `h` lists the objects; `h ++ ext` says that no object of `h` changed and new ones were made.
-/

set_option linter.unusedSectionVars false

namespace Seyfert.Fisher

variable {N K : Type} [LinearOrder N] [Field K] [DecidableEq K]

/-! ### C09: operands are not modified -/

/-- C09. Sum of two objects in the heap: no existing object changes, whichever they are (the same
object may be both operands); the result is a new object, the value of `FM.add`. -/
theorem add_frame {en : Finset N → List N} (hen : Iteration en) {h : Heap N K} {i j : Ref}
    {F G : FM N K} (hi : h[i]? = some F) (hj : h[j]? = some G) (hF : F.WF) (hG : G.WF) :
    ∃ ext r R, combineH en (· + ·) " + ".toList h i j = .ok (h ++ ext, r) ∧ h.length ≤ r ∧
      (h ++ ext)[r]? = some R ∧ F.add en G = .ok R := by
  obtain ⟨R, hR, _⟩ := add_spec hen hF hG
  refine ⟨[(zeroPad en F.copy G.copy).1, (zeroPad en F.copy G.copy).2, R], h.length + 2, R, ?_,
    by omega, by simp, hR⟩
  rw [combineH_eq en _ _ h hi hj]
  unfold FM.add at hR
  rw [hR]

theorem sub_frame {en : Finset N → List N} (hen : Iteration en) {h : Heap N K} {i j : Ref}
    {F G : FM N K} (hi : h[i]? = some F) (hj : h[j]? = some G) (hF : F.WF) (hG : G.WF) :
    ∃ ext r R, combineH en (· - ·) " - ".toList h i j = .ok (h ++ ext, r) ∧ h.length ≤ r ∧
      (h ++ ext)[r]? = some R ∧ F.sub en G = .ok R := by
  obtain ⟨R, hR, _⟩ := sub_spec hen hF hG
  refine ⟨[(zeroPad en F.copy G.copy).1, (zeroPad en F.copy G.copy).2, R], h.length + 2, R, ?_,
    by omega, by simp, hR⟩
  rw [combineH_eq en _ _ h hi hj]
  unfold FM.sub at hR
  rw [hR]

example : ∃ ext r R, combineH (fun s => s.sort (· ≤ ·)) (· + ·) " + ".toList [exF, exG] 1 0
    = .ok ([exF, exG] ++ ext, r) ∧ 2 ≤ r ∧ ([exF, exG] ++ ext)[r]? = some R ∧
    exG.add (fun s => s.sort (· ≤ ·)) exF = .ok R :=
  add_frame sortedIteration rfl rfl exG_WF exF_WF

/-! ### C13: a posteriori combinations -/

/-- The operator of a term, `true` for plus. -/
def opStr (b : Bool) : Str := if b then ['+'] else ['-']

/-- A combination as the user writes it: a first operand and terms `+ x` or `- x`. -/
structure Comb where
  first : Str
  terms : List (Bool × Str)

/-- The text of a combination. -/
def Comb.text (c : Comb) : Str :=
  c.first ++ c.terms.flatMap (fun x => ' ' :: opStr x.1 ++ ' ' :: x.2)

def Comb.operands (c : Comb) : List Str := c.first :: c.terms.map Prod.snd

/-- Operand names: no blank, and not an operator. -/
def Operand (s : Str) : Prop := ' ' ∉ s ∧ s ≠ ['+'] ∧ s ≠ ['-']

def Comb.Valid (c : Comb) : Prop := ∀ s ∈ c.operands, Operand s

/-- `R` is the combination of the matrices `M`: the union of all parameters, and every entry is the
signed sum of the entries, a missing parameter counting as zero. -/
structure IsComb (M : Str → FM N K) (c : Comb) (R : FM N K) : Prop where
  cosmo : ∀ p, p ∈ R.cosmo ↔ ∃ o ∈ c.operands, p ∈ (M o).cosmo
  nuis : ∀ p, p ∈ R.nuis ↔ ∃ o ∈ c.operands, p ∈ (M o).nuis
  ent : ∀ p q, R.matrix.ent p q = (M c.first).matrix.ent p q +
    (c.terms.map (fun x => if x.1 then (M x.2).matrix.ent p q
      else - (M x.2).matrix.ent p q)).sum
  name : R.name = Comb.text ⟨(M c.first).name, c.terms.map (fun x => (x.1, (M x.2).name))⟩

theorem splitOpsGo_word (s : Str) (hs : ' ' ∉ s) (cur rest : Str) :
    splitOpsGo cur (s ++ rest) = splitOpsGo (s.reverse ++ cur) rest := by
  induction s generalizing cur with
  | nil => rfl
  | cons c s ih =>
    have hc : c ≠ ' ' := fun h => hs (by simp [h])
    rw [List.cons_append, splitOpsGo, ih (fun h => hs (List.mem_cons_of_mem _ h))]
    · simp
    · rintro _ rfl; exact absurd rfl hc
    · rintro _ rfl; exact absurd rfl hc

theorem splitOpsGo_comb (l : List (Bool × Str)) (hl : ∀ x ∈ l, ' ' ∉ x.2) (cur : Str) :
    splitOpsGo cur (l.flatMap (fun x => ' ' :: opStr x.1 ++ ' ' :: x.2))
      = cur.reverse :: l.flatMap (fun x => [opStr x.1, x.2]) := by
  induction l generalizing cur with
  | nil => rfl
  | cons x l ih =>
    obtain ⟨b, s⟩ := x
    have hs : ' ' ∉ s := hl (b, s) (by simp)
    have ih' := ih (fun x hx => hl x (List.mem_cons_of_mem _ hx)) (s.reverse ++ [])
    have h1 : splitOpsGo [] (s ++ l.flatMap (fun x => ' ' :: opStr x.1 ++ ' ' :: x.2))
        = s :: l.flatMap (fun x => [opStr x.1, x.2]) := by
      rw [splitOpsGo_word s hs, ih']; simp
    cases b
    · change splitOpsGo cur (' ' :: '-' :: ' ' :: (s ++ l.flatMap (fun x => ' ' :: opStr x.1 ++ ' ' :: x.2)))
        = _
      rw [splitOpsGo, h1]; rfl
    · change splitOpsGo cur (' ' :: '+' :: ' ' :: (s ++ l.flatMap (fun x => ' ' :: opStr x.1 ++ ' ' :: x.2)))
        = _
      rw [splitOpsGo, h1]; rfl

/-- C13. Splitting the text of a combination gives back its operands and operators. -/
theorem splitOps_text (c : Comb) (hc : c.Valid) :
    splitOps c.text = c.first :: c.terms.flatMap (fun x => [opStr x.1, x.2]) := by
  unfold splitOps Comb.text
  rw [splitOpsGo_word _ (hc _ (by simp [Comb.operands])).1, splitOpsGo_comb]
  · simp
  · intro x hx
    exact (hc x.2 (by simp only [Comb.operands, List.mem_cons, List.mem_map]; exact Or.inr ⟨x, hx, rfl⟩)).1

/-- C13. The text determines the combination. -/
theorem text_injective {c c' : Comb} (hc : c.Valid) (hc' : c'.Valid) (h : c.text = c'.text) :
    c = c' := by
  have := splitOps_text c hc
  rw [h, splitOps_text c' hc'] at this
  obtain ⟨a, l⟩ := c
  obtain ⟨a', l'⟩ := c'
  obtain ⟨rfl, h2⟩ := List.cons.inj this
  congr
  clear hc hc' h this
  induction l generalizing l' with
  | nil => cases l' with
    | nil => rfl
    | cons x l' => simp at h2
  | cons x l ih => cases l' with
    | nil => simp at h2
    | cons y l' =>
      simp only [List.flatMap_cons, List.cons_append, List.nil_append, List.cons.injEq] at h2
      obtain ⟨h3, h4, h5⟩ := h2
      have e1 : x.1 = y.1 := by
        cases hx : x.1 <;> cases hy : y.1 <;> simp_all [opStr]
      rw [ih l' h5, show x = y from Prod.ext e1 h4.symm]

theorem operators_positions (a : Str) (ha : isOperator a = false) (l : List (Bool × Str))
    (hl : ∀ x ∈ l, isOperator x.2 = false) :
    (List.range (a :: l.flatMap (fun x => [opStr x.1, x.2])).length).filter
      (fun i => ((a :: l.flatMap (fun x => [opStr x.1, x.2]))[i]?.map isOperator).getD false)
      = (List.range l.length).map (fun i => 2 * i + 1) := by
  induction l using List.reverseRecOn with
  | nil => simp [ha]
  | append_singleton l x ih =>
    have ih := ih (fun y hy => hl y (by simp [hy]))
    obtain ⟨L, hL⟩ : ∃ L, L = a :: l.flatMap (fun x => [opStr x.1, x.2]) := ⟨_, rfl⟩
    have hlen : L.length = 2 * l.length + 1 := by
      rw [hL]; simp [List.length_flatMap]; omega
    have e : a :: (l ++ [x]).flatMap (fun x => [opStr x.1, x.2]) = L ++ [opStr x.1, x.2] := by
      rw [hL]; simp
    rw [← hL] at ih
    rw [e]
    have hr : List.range (L ++ [opStr x.1, x.2]).length
        = List.range L.length ++ [L.length, L.length + 1] := by
      rw [List.length_append, List.range_add]; simp [List.range_succ]
    rw [hr, List.filter_append, List.length_append, List.range_add, List.map_append, ← ih]
    congr 1
    · apply List.filter_congr
      intro i hi
      rw [List.getElem?_append_left (by simpa using hi)]
    · have h1 : (L ++ [opStr x.1, x.2])[L.length]? = some (opStr x.1) := by simp
      have h2 : (L ++ [opStr x.1, x.2])[L.length + 1]? = some x.2 := by simp
      have h3 : isOperator (opStr x.1) = true := by cases x.1 <;> rfl
      simp [h3, hl x (by simp), hlen]

/-- The left-to-right evaluation of the terms on the heap. -/
def combRun (en : Finset N → List N) (Fs : Dict Str Ref) :
    List (Bool × Str) → Heap N K → Ref → Except Err (Heap N K × Ref)
  | [], h, r => .ok (h, r)
  | (b, s) :: l, h, r =>
    match Fs.lookup s with
    | none => .error .keyError
    | some t =>
      match (if b then combineH en (· + ·) " + ".toList h r t
             else combineH en (· - ·) " - ".toList h r t) with
      | .error e => .error e
      | .ok (h', r') => combRun en Fs l h' r'

theorem combLoop_eq (en : Finset N → List N) (Fs : Dict Str Ref) (opList : List Str)
    (l : List (Bool × Str)) (idxs : List Nat)
    (hi : idxs.map (fun i => (opList[i]?, opList[i + 1]?))
      = l.map (fun x => (some (opStr x.1), some x.2)))
    (h : Heap N K) (r : Ref) :
    combLoop en Fs opList idxs h r = combRun en Fs l h r := by
  induction l generalizing idxs h r with
  | nil =>
    cases idxs with
    | nil => rfl
    | cons i is => simp at hi
  | cons x l ih =>
    obtain ⟨b, s⟩ := x
    cases idxs with
    | nil => simp at hi
    | cons i is =>
      simp only [List.map_cons, List.cons.injEq, Prod.mk.injEq] at hi
      obtain ⟨⟨h1, h2⟩, h3⟩ := hi
      unfold combLoop combRun
      rw [h1, h2]
      simp only [Option.bind_some]
      have hop : (opStr b = ['+']) ↔ b = true := by cases b <;> simp [opStr]
      cases Fs.lookup s with
      | none => rfl
      | some t =>
        simp only [if_congr hop rfl rfl]
        split
        · rename_i heq; simp only [heq]
        · rename_i h' r' heq; simp only [heq]; exact ih is h3 h' r'

theorem positions_pairs (a : Str) (l : List (Bool × Str)) :
    ((List.range l.length).map (fun i => 2 * i + 1)).map
      (fun i => ((a :: l.flatMap (fun x => [opStr x.1, x.2]))[i]?,
        (a :: l.flatMap (fun x => [opStr x.1, x.2]))[i + 1]?))
      = l.map (fun x => (some (opStr x.1), some x.2)) := by
  induction l generalizing a with
  | nil => rfl
  | cons x l ih =>
    rw [List.length_cons, List.range_succ_eq_map]
    simp only [List.map_cons, List.map_map]
    refine congrArg₂ List.cons (by simp) ?_
    have := ih x.2
    rw [List.map_map] at this
    rw [← this]
    apply List.map_congr_left
    intro i _
    simp only [Function.comp, List.flatMap_cons, List.cons_append, List.nil_append]
    rw [show 2 * i.succ + 1 = (2 * i + 1) + 1 + 1 from by omega]
    simp

theorem combRun_spec {en : Finset N → List N} (hen : Iteration en) (Fs : Dict Str Ref)
    (M : Str → FM N K) (l : List (Bool × Str)) (h : Heap N K) (r : Ref) (F : FM N K)
    (hr : h[r]? = some F) (hF : F.WF)
    (hM : ∀ x ∈ l, ∃ t, Fs.lookup x.2 = some t ∧ h[t]? = some (M x.2) ∧ (M x.2).WF) :
    ∃ ext r' R, combRun en Fs l h r = .ok (h ++ ext, r') ∧ (h ++ ext)[r']? = some R ∧ R.WF ∧
      (l = [] → ext = [] ∧ r' = r) ∧
      (l ≠ [] → h.length ≤ r' ∧ R.inverse = none ∧ R.margFlag = true) ∧
      (∀ p, p ∈ R.cosmo ↔ p ∈ F.cosmo ∨ ∃ x ∈ l, p ∈ (M x.2).cosmo) ∧
      (∀ p, p ∈ R.nuis ↔ p ∈ F.nuis ∨ ∃ x ∈ l, p ∈ (M x.2).nuis) ∧
      (∀ p q, R.matrix.ent p q = F.matrix.ent p q + (l.map (fun x => if x.1 then
        (M x.2).matrix.ent p q else - (M x.2).matrix.ent p q)).sum) ∧
      R.name = Comb.text ⟨F.name, l.map (fun x => (x.1, (M x.2).name))⟩ := by
  induction l generalizing h r F with
  | nil =>
    exact ⟨[], r, F, by simp [combRun], by simpa using hr, hF, by simp, by simp, by simp, by simp,
      by simp, by simp [Comb.text]⟩
  | cons x l ih =>
    obtain ⟨b, s⟩ := x
    obtain ⟨t, ht, hht, hWF⟩ := hM (b, s) (by simp)
    simp only at ht hht hWF
    have key : ∃ ext r' R, (if b then combineH en (· + ·) " + ".toList h r t
        else combineH en (· - ·) " - ".toList h r t) = .ok (h ++ ext, r') ∧ h.length ≤ r' ∧
        (h ++ ext)[r']? = some R ∧ R.WF ∧ R.inverse = none ∧ R.margFlag = true ∧
        R.cosmo = F.cosmo ∪ (M s).cosmo ∧ R.nuis = F.nuis ∪ (M s).nuis ∧
        (∀ p q, R.matrix.ent p q = F.matrix.ent p q + (if b then (M s).matrix.ent p q
          else - (M s).matrix.ent p q)) ∧
        R.name = F.name ++ (' ' :: opStr b ++ ' ' :: (M s).name) := by
      cases b
      · obtain ⟨ext, r', R, e1, e2, e3, e4⟩ := sub_frame hen hr hht hF hWF
        obtain ⟨R', e5, e6, e7, e8, e9, e10, e11, e12, e13⟩ := sub_spec hen hF hWF
        rw [e4] at e5; cases e5
        exact ⟨ext, r', R, by simpa using e1, e2, e3, e6, e10, e12, e8, e9,
          fun p q => by rw [e13]; simp [sub_eq_add_neg], by rw [e7]; simp [opStr]⟩
      · obtain ⟨ext, r', R, e1, e2, e3, e4⟩ := add_frame hen hr hht hF hWF
        obtain ⟨R', e5, e6, e7, e8, e9, e10, e11, e12, e13⟩ := add_spec hen hF hWF
        rw [e4] at e5; cases e5
        exact ⟨ext, r', R, by simpa using e1, e2, e3, e6, e10, e12, e8, e9,
          fun p q => by rw [e13]; simp, by rw [e7]; simp [opStr]⟩
    obtain ⟨ext, r', R, e1, e2, e3, e4, e5, e5', e6, e7, e8, e9⟩ := key
    obtain ⟨ext', r'', R', f1, f2, f3, f4, f5, f6, f7, f8, f9⟩ := ih (h ++ ext) r' R e3 e4
      (fun x hx => by
        obtain ⟨t, g1, g2, g3⟩ := hM x (List.mem_cons_of_mem _ hx)
        exact ⟨t, g1, get_append_of_some g2 _, g3⟩)
    refine ⟨ext ++ ext', r'', R', ?_, by rw [← List.append_assoc]; exact f2, f3, by simp, ?_, ?_, ?_,
      ?_, ?_⟩
    · unfold combRun
      rw [ht]
      simp only [e1]
      rw [f1, List.append_assoc]
    · intro _
      by_cases hl : l = []
      · obtain ⟨g1, g2⟩ := f4 hl
        subst g1
        rw [g2, List.append_nil, e3] at f2
        cases f2
        exact ⟨by rw [g2]; exact e2, e5, e5'⟩
      · have := f5 hl
        rw [List.length_append] at this
        exact ⟨by omega, this.2⟩
    · intro p; rw [f6, e6]; simp [or_assoc]
    · intro p; rw [f7, e7]; simp [or_assoc]
    · intro p q; rw [f8, e8]; simp [add_assoc]
    · rw [f9, e9]; simp [Comb.text]

theorem mem_operands (c : Comb) (P : Str → Prop) :
    (∃ o ∈ c.operands, P o) ↔ P c.first ∨ ∃ x ∈ c.terms, P x.2 := by
  constructor
  · rintro ⟨o, ho, hp⟩
    simp only [Comb.operands, List.mem_cons, List.mem_map] at ho
    rcases ho with rfl | ⟨x, hx, rfl⟩
    · exact Or.inl hp
    · exact Or.inr ⟨x, hx, hp⟩
  · rintro (hp | ⟨x, hx, hp⟩)
    · exact ⟨_, by simp [Comb.operands], hp⟩
    · exact ⟨x.2, by simp only [Comb.operands, List.mem_cons, List.mem_map]; exact Or.inr ⟨x, hx, rfl⟩, hp⟩

/-- C13. A combination all of whose operands are there is evaluated left to right: the result is the
signed sum of the named matrices, no existing matrix changes; with at least one operator the result
is a new object, a lone operand gives the named object itself. -/
theorem combination_value {en : Finset N → List N} (hen : Iteration en) (h : Heap N K)
    (Fs : Dict Str Ref) (M : Str → FM N K) (c : Comb) (hc : c.Valid)
    (hM : ∀ o ∈ c.operands, ∃ t, Fs.lookup o = some t ∧ h[t]? = some (M o) ∧ (M o).WF) :
    ∃ ext r R, evalComb en h Fs c.text = .ok (h ++ ext, some r) ∧ (h ++ ext)[r]? = some R ∧
      R.WF ∧ IsComb M c R ∧
      (c.terms = [] → ext = [] ∧ Fs.lookup c.first = some r) ∧
      (c.terms ≠ [] → h.length ≤ r ∧ R.inverse = none ∧ R.margFlag = true) := by
  obtain ⟨t, ht, hht, hWF⟩ := hM c.first (by simp [Comb.operands])
  have hmem : ∀ x ∈ c.terms, x.2 ∈ c.operands := fun x hx => by
    simp only [Comb.operands, List.mem_cons, List.mem_map]; exact Or.inr ⟨x, hx, rfl⟩
  have hop : ∀ o ∈ c.operands, isOperator o = false := fun o ho => by
    have := hc o ho
    simp only [isOperator, Bool.or_eq_false_iff, beq_eq_false_iff_ne]
    exact ⟨this.2.1, this.2.2⟩
  obtain ⟨ext, r, R, e1, e2, e3, e4, e5, e6, e7, e8, e9⟩ := combRun_spec hen Fs M c.terms h t _ hht
    hWF (fun x hx => hM x.2 (hmem x hx))
  refine ⟨ext, r, R, ?_, e2, e3, ⟨?_, ?_, e8, e9⟩, ?_, e5⟩
  · unfold evalComb
    rw [splitOps_text c hc]
    simp only
    rw [if_neg, operators_positions _ (hop _ (by simp [Comb.operands])) _
      (fun x hx => hop _ (hmem x hx))]
    · simp only [List.head?_cons, Option.bind_some, ht]
      rw [combLoop_eq en Fs _ c.terms _ (positions_pairs _ _), e1]
    · simp only [List.any_eq_true, not_exists, not_and]
      intro o ho
      rw [List.mem_cons, List.mem_flatMap] at ho
      rcases ho with rfl | ⟨x, hx, ho⟩
      · simp [ht]
      · simp only [List.mem_cons, List.not_mem_nil, or_false] at ho
        rcases ho with rfl | rfl
        · have : isOperator (opStr x.1) = true := by cases x.1 <;> rfl
          simp [this]
        · obtain ⟨t', ht', _⟩ := hM x.2 (hmem x hx)
          simp [ht']
  · intro p; rw [e6, mem_operands]
  · intro p; rw [e7, mem_operands]
  · intro hn; obtain ⟨g1, g2⟩ := e4 hn; exact ⟨g1, by rw [g2, ht]⟩

/-- C13. If an operand is missing, nothing is computed and nothing changes. -/
theorem combination_missing (en : Finset N → List N) (h : Heap N K) (Fs : Dict Str Ref) (c : Comb)
    (hc : c.Valid) (hm : ∃ o ∈ c.operands, Fs.lookup o = none) :
    evalComb en h Fs c.text = .ok (h, none) := by
  obtain ⟨o, ho, hn⟩ := hm
  unfold evalComb
  rw [splitOps_text c hc]
  simp only
  rw [if_pos]
  rw [List.any_eq_true]
  refine ⟨o, ?_, ?_⟩
  · simp only [Comb.operands, List.mem_cons, List.mem_map] at ho
    rcases ho with rfl | ⟨x, hx, rfl⟩
    · simp
    · exact List.mem_cons_of_mem _ (List.mem_flatMap.mpr ⟨x, hx, by simp⟩)
  · have := hc o ho
    simp [isOperator, hn, this.2.1, this.2.2]

/-- All operands of the combination are in the dictionary. -/
def Comb.Present (c : Comb) (Fs : Dict Str Ref) : Prop := ∀ o ∈ c.operands, (Fs.lookup o).isSome

theorem text_has_blank {c : Comb} (h : c.terms ≠ []) : ' ' ∈ c.text := by
  obtain ⟨a, l⟩ := c
  cases l with
  | nil => exact absurd rfl h
  | cons x l => simp [Comb.text]

theorem operand_ne_text {c : Comb} (h : c.terms ≠ []) {o : Str} (ho : Operand o) : o ≠ c.text :=
  fun e => ho.1 (e ▸ text_has_blank h)

/-- C13. The whole list of combinations: no loaded matrix changes; a combination whose operands are
all loaded is stored, under its text, as the signed sum of the loaded matrices; one with a missing
operand adds nothing; no other key changes.  Since operand names have no blank, no combination is an
operand of another, so the order of the list does not matter. -/
theorem combinations_all {en : Finset N → List N} (hen : Iteration en) (M : Str → FM N K)
    (cs : List Comb) (hv : ∀ c ∈ cs, c.Valid ∧ c.terms ≠ []) (h : Heap N K) (Fs : Dict Str Ref)
    (hM : ∀ o t, Operand o → Fs.lookup o = some t → h[t]? = some (M o) ∧ (M o).WF) :
    ∃ ext Fs', evalAll en h Fs (cs.map Comb.text) = .ok (h ++ ext, Fs') ∧
      (∀ k, k ∉ cs.map Comb.text → Fs'.lookup k = Fs.lookup k) ∧
      (∀ c ∈ cs, c.Present Fs → ∃ r R, Fs'.lookup c.text = some r ∧ h.length ≤ r ∧
        (h ++ ext)[r]? = some R ∧ R.WF ∧ R.inverse = none ∧ R.margFlag = true ∧ IsComb M c R) ∧
      (∀ c ∈ cs, ¬ c.Present Fs → Fs'.lookup c.text = Fs.lookup c.text) ∧
      ((Fs.map Prod.fst).Nodup → (Fs'.map Prod.fst).Nodup ∧
        ((Fs.map Prod.snd).Nodup → (∀ r ∈ Fs.map Prod.snd, r < h.length) →
          (Fs'.map Prod.snd).Nodup)) := by
  induction cs generalizing h Fs with
  | nil => exact ⟨[], Fs, by simp [evalAll], by simp, by simp, by simp, fun h => ⟨h, fun h _ => h⟩⟩
  | cons c cs ih =>
    obtain ⟨hcv, hct⟩ := hv c (by simp)
    have hv' : ∀ c ∈ cs, c.Valid ∧ c.terms ≠ [] := fun c hc => hv c (List.mem_cons_of_mem _ hc)
    have hmiss : ¬ c.Present Fs → ∃ o ∈ c.operands, Fs.lookup o = none := by
      intro h
      unfold Comb.Present at h
      push Not at h
      obtain ⟨o, ho, h⟩ := h
      exact ⟨o, ho, Option.not_isSome_iff_eq_none.mp h⟩
    by_cases hp : c.Present Fs
    · obtain ⟨ext, r, R, e1, e2, e3, e4, _, e60⟩ := combination_value hen h Fs M c hcv (fun o ho => by
        obtain ⟨t, ht⟩ := Option.isSome_iff_exists.mp (hp o ho)
        exact ⟨t, ht, hM o t (hcv o ho) ht⟩)
      obtain ⟨e6, e7, e8⟩ := e60 hct
      have hrlt : r < (h ++ ext).length := (List.getElem?_eq_some_iff.mp e2).1
      have hpres : ∀ d ∈ cs, d.Present (dictSet Fs c.text r) ↔ d.Present Fs := by
        intro d hd
        unfold Comb.Present
        refine forall₂_congr (fun o ho => ?_)
        rw [dictSet_lookup, if_neg (operand_ne_text hct ((hv' d hd).1 o ho))]
      obtain ⟨ext', Fs', f1, f2, f3, f4, f5⟩ := ih hv' (h ++ ext) (dictSet Fs c.text r) (by
        intro o t ho ht
        rw [dictSet_lookup, if_neg (operand_ne_text hct ho)] at ht
        obtain ⟨g1, g2⟩ := hM o t ho ht
        exact ⟨get_append_of_some g1 _, g2⟩)
      refine ⟨ext ++ ext', Fs', ?_, ?_, ?_, ?_, ?_⟩
      · simp only [List.map_cons, evalAll, e1, f1, List.append_assoc]
      · intro k hk
        simp only [List.map_cons, List.mem_cons, not_or] at hk
        rw [f2 k hk.2, dictSet_lookup, if_neg hk.1]
      · have hin : ∀ d ∈ cs, d.Present Fs → ∃ r R, Fs'.lookup d.text = some r ∧ h.length ≤ r ∧
            (h ++ (ext ++ ext'))[r]? = some R ∧ R.WF ∧ R.inverse = none ∧ R.margFlag = true ∧
            IsComb M d R := by
          intro d hd hdp
          obtain ⟨r', R', g1, g2, g3, g4, g5, g6, g7⟩ := f3 d hd ((hpres d hd).mpr hdp)
          rw [List.length_append] at g2
          exact ⟨r', R', g1, by omega, by rw [← List.append_assoc]; exact g3, g4, g5, g6, g7⟩
        intro d hd hdp
        rcases List.mem_cons.mp hd with rfl | hd
        · by_cases hmem : d.text ∈ cs.map Comb.text
          · obtain ⟨d', hd', he⟩ := List.mem_map.mp hmem
            have := text_injective (hv' d' hd').1 hcv he
            subst this
            exact hin d' hd' hdp
          · refine ⟨r, R, ?_, e6, ?_, e3, e7, e8, e4⟩
            · rw [f2 _ hmem, dictSet_lookup, if_pos rfl]
            · rw [← List.append_assoc]; exact get_append_of_some e2 _
        · exact hin d hd hdp
      · intro d hd hdp
        rcases List.mem_cons.mp hd with rfl | hd
        · exact absurd hp hdp
        · rw [f4 d hd (fun h => hdp ((hpres d hd).mp h)), dictSet_lookup]
          split
          · rename_i he
            have := text_injective (hv' d hd).1 hcv he
            subst this
            exact absurd hp hdp
          · rfl
      · intro hk
        refine ⟨(f5 (dictSet_keys_nodup hk _ _)).1, fun hn hlt => ?_⟩
        have hset : ∀ k', Fs.lookup k' = some r → k' = c.text := by
          intro k' hk'
          have : r ∈ Fs.map Prod.snd := List.mem_map.mpr ⟨_, mem_of_lookup hk', rfl⟩
          exact absurd (hlt r this) (Nat.not_lt.mpr e6)
        refine (f5 (dictSet_keys_nodup hk _ _)).2 (dictSet_refs_nodup hk hn _ hset) ?_
        intro r' hr'
        obtain ⟨⟨k', r''⟩, hm, rfl⟩ := List.mem_map.mp hr'
        have := lookup_of_mem (dictSet_keys_nodup hk c.text r) hm
        rw [dictSet_lookup] at this
        split at this
        · cases this; exact hrlt
        · have := hlt r'' (List.mem_map.mpr ⟨_, mem_of_lookup this, rfl⟩)
          rw [List.length_append]
          exact lt_of_lt_of_le this (Nat.le_add_right _ _)
    · obtain ⟨ext', Fs', f1, f2, f3, f4, f5⟩ := ih hv' h Fs hM
      have hin : c.text ∈ cs.map Comb.text → c ∈ cs := by
        intro hmem
        obtain ⟨d', hd', he⟩ := List.mem_map.mp hmem
        have := text_injective (hv' d' hd').1 hcv he
        subst this
        exact hd'
      refine ⟨ext', Fs', ?_, ?_, ?_, ?_, f5⟩
      · simp only [List.map_cons, evalAll, combination_missing en h Fs c hcv (hmiss hp), f1]
      · intro k hk
        simp only [List.map_cons, List.mem_cons, not_or] at hk
        exact f2 k hk.2
      · intro d hd hdp
        rcases List.mem_cons.mp hd with rfl | hd
        · exact absurd hdp hp
        · exact f3 d hd hdp
      · intro d hd hdp
        rcases List.mem_cons.mp hd with rfl | hd
        · by_cases hmem : d.text ∈ cs.map Comb.text
          · exact f4 d (hin hmem) hdp
          · exact f2 _ hmem
        · exact f4 d hd hdp

/-- C13. Evaluating a list in two parts: the second part sees the results of the first. -/
theorem combinations_sequential (en : Finset N → List N) (h : Heap N K) (Fs : Dict Str Ref)
    (ns ms : List Str) :
    evalAll en h Fs (ns ++ ms) = match evalAll en h Fs ns with
      | .error e => .error e
      | .ok (h', Fs') => evalAll en h' Fs' ms := by
  induction ns generalizing h Fs with
  | nil => simp [evalAll]
  | cons n ns ih =>
    simp only [List.cons_append, evalAll]
    split <;> simp_all

/-- "[WL] + [GCph] - [WL]" on the two example matrices. -/
example : ∃ ext r R, evalComb (fun s => s.sort (· ≤ ·)) [exF, exG]
      [("[WL]".toList, 0), ("[GCph]".toList, 1)] "[WL] + [GCph] - [WL]".toList
      = .ok ([exF, exG] ++ ext, some r) ∧ ([exF, exG] ++ ext)[r]? = some R ∧
      R.matrix.ent 0 0 = 3 := by
  obtain ⟨ext, r, R, h1, h2, _, h3, _⟩ := combination_value (N := ℕ) (K := ℚ) sortedIteration
    [exF, exG] [("[WL]".toList, 0), ("[GCph]".toList, 1)]
    (fun k => if k = "[WL]".toList then exF else exG)
    ⟨"[WL]".toList, [(true, "[GCph]".toList), (false, "[WL]".toList)]⟩
    (by intro s hs; simp [Comb.operands] at hs; rcases hs with rfl | rfl | rfl <;>
          exact ⟨by decide +kernel, by decide +kernel, by decide +kernel⟩)
    (by intro s hs; simp [Comb.operands] at hs
        rcases hs with rfl | rfl | rfl
        · exact ⟨0, by decide +kernel, rfl, exF_WF⟩
        rotate_left
        · exact ⟨0, by decide +kernel, rfl, exF_WF⟩
        · exact ⟨1, by decide +kernel, by rw [if_neg (by decide +kernel)]; rfl,
            by rw [if_neg (by decide +kernel)]; exact exG_WF⟩)
  refine ⟨ext, r, R, h1, h2, ?_⟩
  rw [h3.ent]
  norm_num [DF.ent, exF, exG, show ("[GCph]".toList = "[WL]".toList) = False by decide +kernel]

end Seyfert.Fisher
