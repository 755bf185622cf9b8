import Verif.Spec.Evaluator
import Verif.Props.Covariance
import Verif.Lemmas.Fisher

/-! Lemmas on the evaluation of Fisher matrices. -/

set_option linter.unusedSectionVars false

namespace Seyfert.Cov

open Ells
open Fisher hiding Err

variable {P N K : Type} [DecidableEq P] [LinearOrder N] [Field K] [LinearOrder K]

theorem vecBlock_eq (nb : P → Nat) (A B : P) (f : Nat → Nat → K) :
    vecBlock (decide (A = B)) (nb A) (nb B) f
      = .ok ((binPairs nb (A, B)).map (fun p => f p.1 p.2)) := by
  unfold vecBlock binPairs
  by_cases h : A = B
  · subst h
    simp only [decide_true, if_true]
    rw [Linalg.vecp_square, ← Linalg.triu_val, List.map_map]
    rfl
  · simp only [h, decide_false, Bool.false_eq_true, if_false]
    rw [← Linalg.colMajor_val, List.map_map]
    rfl

theorem vecArray_eq (nb : P → Nat) (A B : P) (ells : List K) (hne : ells ≠ [])
    (f : K → Nat → Nat → K) :
    vecArray (decide (A = B)) (nb A) (nb B) (ells.map f)
      = .ok (ells.map (fun ℓ => (binPairs nb (A, B)).map (fun p => f ℓ p.1 p.2))) := by
  unfold vecArray
  rw [if_neg (by simpa using hne), mapM_ok _ _ (fun g => (binPairs nb (A, B)).map (fun p => g p.1 p.2))
    (fun g _ => vecBlock_eq nb A B g), List.map_map]
  rfl

theorem zipWith_map_append {A B : Type} (l : List A) (f g : A → List B) :
    List.zipWith (· ++ ·) (l.map f) (l.map g) = l.map (fun x => f x ++ g x) := by
  induction l with
  | nil => rfl
  | cons a l ih => simp [ih]

theorem concatRows_eq {A : Type} (ells : List K) (l : List A) (hne : l ≠ []) (f : A → K → List K) :
    concatRows (l.map (fun x => ells.map (f x))) = .ok (ells.map (fun ℓ => l.flatMap (fun x => f x ℓ))) := by
  induction l with
  | nil => exact absurd rfl hne
  | cons a l ih =>
    cases l with
    | nil => simp [concatRows]
    | cons b l =>
      have := ih (by simp)
      rw [List.map_cons] at this
      rw [List.map_cons, List.map_cons, concatRows, this]
      simp only [List.length_map, if_true]
      rw [zipWith_map_append]
      rfl

/-- The derivative vectors of a store. -/
theorem derivVec_spec {s : Store P K} {nb : P → Nat} {g : P → P → List K}
    {d : P → P → K → Nat → Nat → K} (H : Holds s nb g d) {dv : List (P × P)} (hne : dv ≠ [])
    (hav : ∀ AB ∈ dv, Has s AB.1 AB.2) :
    ∃ ells : List K, ells.Pairwise (· < ·) ∧ (∀ ℓ, ℓ ∈ ells ↔ ∀ AB ∈ dv, ℓ ∈ g AB.1 AB.2) ∧
      (ells ≠ [] → derivVec s dv
        = .ok (ells, ells.map (fun ℓ => (layout nb dv).map (dcomp d ℓ)))) ∧
      (ells = [] → derivVec s dv = .error .valueError) := by
  have h1 : dv.mapM (fun AB => s.get AB.1 AB.2)
      = .ok (dv.map (fun AB => fullBlock nb g d AB.1 AB.2)) :=
    mapM_ok _ _ _ (fun AB h => get_eq H (hav AB h))
  have hzip : dv.zip (dv.map (fun AB => fullBlock nb g d AB.1 AB.2))
      = dv.map (fun AB => (AB, fullBlock nb g d AB.1 AB.2)) := by
    clear hav h1 hne
    induction dv with
    | nil => rfl
    | cons a l ih => simp [ih]
  obtain ⟨ells, he, hs, hm⟩ := commonElls_spec
    (d := dv.map (fun AB => (AB, fullBlock nb g d AB.1 AB.2)))
    (fun k : P × P => g k.1 k.2) (by simpa using hne)
    (by intro p hp; obtain ⟨AB, _, rfl⟩ := List.mem_map.mp hp; rfl)
    (fun p _ => H.sorted _ _)
  have hmem : ∀ ℓ, ℓ ∈ ells ↔ ∀ AB ∈ dv, ℓ ∈ g AB.1 AB.2 := by
    intro ℓ
    rw [hm]
    exact ⟨fun h AB hAB => h _ (List.mem_map.mpr ⟨AB, hAB, rfl⟩), fun h p hp => by
      obtain ⟨AB, hAB, rfl⟩ := List.mem_map.mp hp
      exact h AB hAB⟩
  refine ⟨ells, hs, hmem, ?_, ?_⟩
  · intro hene
    unfold derivVec
    rw [h1]
    simp only
    rw [hzip, he]
    simp only
    unfold derivRows
    have h2 : (dv.map (fun AB => (AB, fullBlock nb g d AB.1 AB.2))).mapM (vecEntry ells)
        = .ok ((dv.map (fun AB => (AB, fullBlock nb g d AB.1 AB.2))).map (fun p =>
            ells.map (fun ℓ => (binPairs nb p.1).map (fun q => d p.1.1 p.1.2 ℓ q.1 q.2)))) := by
      apply mapM_ok
      intro p hp
      obtain ⟨AB, hAB, rfl⟩ := List.mem_map.mp hp
      unfold vecEntry
      simp only [fullBlock]
      rw [mask_eq (H.sorted _ _) hs (fun x hx => (hmem x).mp hx AB hAB)]
      simp only
      rw [vecArray_eq nb AB.1 AB.2 ells hene]
    rw [h2, List.map_map]
    simp only
    have := concatRows_eq ells dv hne (fun AB ℓ => (binPairs nb AB).map (fun q => d AB.1 AB.2 ℓ q.1 q.2))
    rw [show ((fun p : (P × P) × Tomo K =>
          ells.map (fun ℓ => (binPairs nb p.1).map (fun q => d p.1.1 p.1.2 ℓ q.1 q.2)))
        ∘ fun AB => (AB, fullBlock nb g d AB.1 AB.2))
        = (fun AB => ells.map (fun ℓ => (binPairs nb AB).map (fun q => d AB.1 AB.2 ℓ q.1 q.2))) from rfl,
      this]
    simp only [Except.ok.injEq, Prod.mk.injEq, true_and]
    apply List.map_congr_left
    intro ℓ _
    unfold layout
    rw [List.map_flatMap]
    apply List.flatMap_congr
    intro AB _
    rw [List.map_map]
    rfl
  · rintro rfl
    unfold derivVec
    rw [h1]
    simp only
    rw [hzip, he]
    simp only
    unfold derivRows
    obtain ⟨AB, rest, rfl⟩ := List.exists_cons_of_ne_nil hne
    have h2 : vecEntry [] (AB, fullBlock nb g d AB.1 AB.2) = .error .valueError := by
      unfold vecEntry
      simp only [fullBlock]
      rw [mask_eq (H.sorted _ _) List.Pairwise.nil (by simp)]
      rfl
    rw [List.map_cons, List.mapM_cons, h2]
    rfl

theorem mem_updateNames (d l : List N) (a : N) : a ∈ updateNames d l ↔ a ∈ d ∨ a ∈ l := by
  unfold updateNames
  induction l generalizing d with
  | nil => simp
  | cons x l ih =>
    rw [List.foldl_cons, ih]
    by_cases h : x ∈ d
    · rw [if_pos h, List.mem_cons]
      constructor
      · rintro (h' | h')
        · exact Or.inl h'
        · exact Or.inr (Or.inr h')
      · rintro (h' | rfl | h')
        · exact Or.inl h'
        · exact Or.inl h
        · exact Or.inr h'
    · rw [if_neg h]
      simp only [List.mem_append, List.mem_cons, List.not_mem_nil, or_false]
      tauto

theorem nodup_updateNames {d : List N} (h : d.Nodup) (l : List N) : (updateNames d l).Nodup := by
  unfold updateNames
  induction l generalizing d with
  | nil => exact h
  | cons x l ih =>
    rw [List.foldl_cons]
    apply ih
    split
    · exact h
    · rename_i hx
      exact List.nodup_append.mpr ⟨h, by simp, by
        intro a ha b hb
        rw [List.mem_singleton] at hb
        rintro rfl
        exact hx (hb ▸ ha)⟩

theorem mem_freeNuisance (nuis : P → List N) (dv : List (P × P)) (a : N) :
    a ∈ freeNuisance nuis dv ↔ ∃ p ∈ probesOf dv, a ∈ nuis p := by
  have : ∀ d : List N, a ∈ dv.foldl (fun d AB => updateNames (updateNames d (nuis AB.1)) (nuis AB.2)) d
      ↔ a ∈ d ∨ ∃ p ∈ probesOf dv, a ∈ nuis p := by
    induction dv with
    | nil => intro d; simp [probesOf]
    | cons AB dv ih =>
      intro d
      rw [List.foldl_cons, ih, mem_updateNames, mem_updateNames]
      have : (∃ p ∈ probesOf (AB :: dv), a ∈ nuis p)
          ↔ (a ∈ nuis AB.1 ∨ a ∈ nuis AB.2) ∨ ∃ p ∈ probesOf dv, a ∈ nuis p := by
        simp [probesOf, or_and_right, exists_or, or_assoc]
      rw [this]
      tauto
  have := this []
  simpa [freeNuisance] using this

theorem mem_freeParams (cosmo : List N) (nuis : P → List N) (dv : List (P × P)) (a : N) :
    a ∈ freeParams cosmo nuis dv ↔ a ∈ cosmo ∨ ∃ p ∈ probesOf dv, a ∈ nuis p := by
  unfold freeParams
  rw [mem_updateNames, mem_updateNames, mem_freeNuisance]
  simp

theorem nodup_freeParams (cosmo : List N) (nuis : P → List N) (dv : List (P × P)) :
    (freeParams cosmo nuis dv).Nodup :=
  nodup_updateNames (nodup_updateNames List.nodup_nil _) _

theorem mem_combos {l : List N} {p : N × N} (h : p ∈ combos l) : p.1 ∈ l ∧ p.2 ∈ l := by
  induction l with
  | nil => simp [combos] at h
  | cons a l ih =>
    rw [combos, List.mem_append, List.mem_map] at h
    rcases h with ⟨b, hb, rfl⟩ | h
    · exact ⟨List.mem_cons_self, hb⟩
    · exact ⟨List.mem_cons_of_mem _ (ih h).1, List.mem_cons_of_mem _ (ih h).2⟩

theorem combos_cover {l : List N} {a b : N} (ha : a ∈ l) (hb : b ∈ l) :
    (a, b) ∈ combos l ∨ (b, a) ∈ combos l := by
  induction l with
  | nil => simp at ha
  | cons x l ih =>
    rw [combos]
    rcases List.mem_cons.mp ha with rfl | ha'
    · exact Or.inl (List.mem_append.mpr (Or.inl (List.mem_map.mpr ⟨b, hb, rfl⟩)))
    · rcases List.mem_cons.mp hb with rfl | hb'
      · exact Or.inr (List.mem_append.mpr (Or.inl (List.mem_map.mpr ⟨a, ha, rfl⟩)))
      · rcases ih ha' hb' with h | h
        · exact Or.inl (List.mem_append.mpr (Or.inr h))
        · exact Or.inr (List.mem_append.mpr (Or.inr h))

theorem lookup_of_all {A B : Type} [BEq A] [LawfulBEq A] {l : List (A × B)} {k : A} {v : B}
    (h : (k, v) ∈ l) (hall : ∀ w, (k, w) ∈ l → w = v) : l.lookup k = some v := by
  cases hl : l.lookup k with
  | some w => rw [hall w (mem_of_lookup' hl)]
  | none =>
    exfalso
    rw [List.lookup_eq_none_iff] at hl
    simpa using hl _ h

/-- The symmetric assignment loop fills every pair. -/
theorem symAssign {l : List N} {f : N → N → List K} (hf : ∀ a b, f a b = f b a) {a b : N} (ha : a ∈ l)
    (hb : b ∈ l) :
    ((((combos l).map (fun p => (p, f p.1 p.2))).flatMap
      (fun c => [c, ((c.1.2, c.1.1), c.2)])).reverse).lookup (a, b) = some (f a b) := by
  apply lookup_of_all
  · rw [List.mem_reverse, List.mem_flatMap]
    rcases combos_cover ha hb with h | h
    · exact ⟨((a, b), f a b), List.mem_map.mpr ⟨(a, b), h, rfl⟩, by simp⟩
    · exact ⟨((b, a), f b a), List.mem_map.mpr ⟨(b, a), h, rfl⟩, by simp [hf a b]⟩
  · intro w hw
    rw [List.mem_reverse, List.mem_flatMap] at hw
    obtain ⟨c, hc, hw⟩ := hw
    obtain ⟨p, _, rfl⟩ := List.mem_map.mp hc
    simp only [List.mem_cons, Prod.mk.injEq, List.not_mem_nil, or_false] at hw
    rcases hw with ⟨h1, rfl⟩ | ⟨⟨rfl, rfl⟩, rfl⟩
    · rw [← h1]
    · exact hf _ _

theorem lookup_zip_map {A B : Type} [BEq A] [LawfulBEq A] (l : List A) (f : A → B) {a : A} (h : a ∈ l) :
    (l.zip (l.map f)).lookup a = some (f a) := by
  apply lookup_of_all
  · induction l with
    | nil => simp at h
    | cons x l ih =>
      rw [List.map_cons, List.zip_cons_cons, List.mem_cons]
      rcases List.mem_cons.mp h with rfl | h
      · exact Or.inl rfl
      · exact Or.inr (ih h)
  · intro w hw
    clear h
    induction l with
    | nil => simp at hw
    | cons x l ih =>
      rw [List.map_cons, List.zip_cons_cons, List.mem_cons, Prod.mk.injEq] at hw
      rcases hw with ⟨rfl, rfl⟩ | h
      · rfl
      · exact ih h

theorem sumCol_map (ells : List K) (sel : K → Bool) (f : K → K) :
    sumCol ells sel (ells.map f) = ((ells.filter sel).map f).sum := by
  unfold sumCol
  rw [filter_zip_map ells f sel]

/-- Summing a table. -/
theorem sumFisher_spec {T : FEll N K} {ells : List K} {S : Finset N} {f : K → N → N → K}
    (hT : IsTable T ells S f) (sel : K → Bool) :
    ∃ F, sumFisher T sel = .ok F ∧ F.On S ∧ F.rows.Pairwise (· < ·) ∧
      ∀ a ∈ S, ∀ b ∈ S, F.val a b = ((ells.filter sel).map (fun ℓ => f ℓ a b)).sum := by
  have hr : ∀ a, a ∈ sortLabels (T.cols.map (fun p => p.1.1)).dedup ↔ a ∈ S := by
    intro a
    rw [mem_sortLabels, List.mem_dedup, List.mem_map]
    constructor
    · rintro ⟨p, hp, rfl⟩; exact (hT.names p hp).1
    · intro ha; exact ⟨_, mem_of_lookup' (hT.col a ha a ha), rfl⟩
  have hc : ∀ a, a ∈ sortLabels (T.cols.map (fun p => p.1.2)).dedup ↔ a ∈ S := by
    intro a
    rw [mem_sortLabels, List.mem_dedup, List.mem_map]
    constructor
    · rintro ⟨p, hp, rfl⟩; exact (hT.names p hp).2
    · intro ha; exact ⟨_, mem_of_lookup' (hT.col a ha a ha), rfl⟩
  have hsorted : ∀ l : List N, l.Nodup → (sortLabels l).Pairwise (· < ·) := by
    intro l hl
    have h1 : (sortLabels l).Pairwise (fun a b => decide (a ≤ b) = true) :=
      List.pairwise_mergeSort (fun a b c h1 h2 => by simp at *; exact le_trans h1 h2)
        (fun a b => by simpa using le_total a b) l
    have h2 : (sortLabels l).Nodup := nodup_sortLabels hl
    exact (h1.and h2).imp (fun h => lt_of_le_of_ne (by simpa using h.1) h.2)
  have hs1 := hsorted _ (List.nodup_dedup (T.cols.map (fun p => p.1.1)))
  have hs2 := hsorted _ (List.nodup_dedup (T.cols.map (fun p => p.1.2)))
  refine ⟨⟨sortLabels (T.cols.map (fun p => p.1.1)).dedup, sortLabels (T.cols.map (fun p => p.1.2)).dedup,
    fun a b => sumCol T.ells sel ((T.cols.lookup (a, b)).getD [])⟩, ?_,
    ⟨?_, nodup_sortLabels (List.nodup_dedup _), hr⟩, hs1, ?_⟩
  · unfold sumFisher
    simp only
    rw [if_pos]
    intro a ha b hb
    rw [hT.col a ((hr a).mp ha) b ((hc b).mp hb)]
    rfl
  · exact sorted_ext hs2 hs1 (fun x => (hc x).trans (hr x).symm)
  · intro a ha b hb
    show sumCol T.ells sel ((T.cols.lookup (a, b)).getD []) = _
    rw [hT.col a ha b hb, hT.index, Option.getD_some, sumCol_map]

theorem addFill_spec {F G : DF N K} {S S' : Finset N} (hF : F.On S) (hG : G.On S') (hsub : S' ⊆ S)
    (hs : F.rows.Pairwise (· < ·)) :
    ∃ R, addFill F G = .ok R ∧ R.On S ∧ R.rows.Pairwise (· < ·) ∧
      ∀ a ∈ S, ∀ b ∈ S, R.val a b = F.val a b + G.ent a b := by
  have hsorted : ∀ l : List N, l.Nodup → (sortLabels l).Pairwise (· < ·) := by
    intro l hl
    have h1 : (sortLabels l).Pairwise (fun a b => decide (a ≤ b) = true) :=
      List.pairwise_mergeSort (fun a b c h1 h2 => by simp at *; exact le_trans h1 h2)
        (fun a b => by simpa using le_total a b) l
    have h2 : (sortLabels l).Nodup := nodup_sortLabels hl
    exact (h1.and h2).imp (fun h => lt_of_le_of_ne (by simpa using h.1) h.2)
  have hj : joinLabels F.rows G.rows = F.rows := by
    unfold joinLabels
    split
    · rfl
    · apply sorted_ext (hsorted _ (List.nodup_dedup _)) hs
      intro x
      rw [mem_sortLabels, List.mem_dedup, List.mem_append, hG.mem, hF.mem]
      exact ⟨fun h => h.elim id (fun h => hsub h), Or.inl⟩
  refine ⟨⟨F.rows, F.rows, fun a b => (if a ∈ F.rows ∧ b ∈ F.cols then F.val a b else 0)
        + (if a ∈ G.rows ∧ b ∈ G.cols then G.val a b else 0)⟩, ?_, ⟨rfl, hF.nodup, hF.mem⟩, hs, ?_⟩
  · unfold addFill
    simp only
    rw [hF.same, hG.same, hj, if_pos (fun a ha b hb => Or.inl ⟨ha, hb⟩)]
  · intro a ha b hb
    show (if a ∈ F.rows ∧ b ∈ F.cols then F.val a b else 0) + _ = _
    rw [if_pos ⟨(hF.mem a).mpr ha, by rw [hF.same]; exact (hF.mem b).mpr hb⟩]
    rfl

end Seyfert.Cov
