import Verif.Spec.ClDerivative
import Verif.Props.Jobs
import Verif.Props.Stem
import Verif.Props.Runner
import Mathlib.Tactic.LinearCombination
import Mathlib.Tactic.FieldSimp

/-!
Lemmas about the derivatives of spectra.
-/

set_option linter.unusedSectionVars false

namespace Seyfert.ClDer

open Param (Coll Par stepNumbers)

section steps

theorem length_allSteps (n : Nat) : (allSteps n).length = 2 * n + 1 := by simp [allSteps]

theorem mem_allSteps (n : Nat) (s : Int) : s ∈ allSteps n ↔ s.natAbs ≤ n := by
  unfold allSteps
  rw [List.mem_map]
  constructor
  · rintro ⟨i, hi, rfl⟩
    rw [List.mem_range] at hi
    omega
  · intro h
    exact ⟨(s + n).toNat, List.mem_range.mpr (by omega), by omega⟩

theorem allSteps_split (n : Nat) :
    allSteps n = (stepNumbers n).take n ++ 0 :: (stepNumbers n).drop n := by
  have h1 : (stepNumbers n).take n = (List.range n).map (fun i : Nat => (i : Int) - n) := by
    simp [stepNumbers]
  have h2 : (stepNumbers n).drop n = (List.range n).map (fun i : Nat => (i : Int) + 1) := by
    simp [stepNumbers]
  rw [h1, h2]
  unfold allSteps
  rw [show 2 * n + 1 = n + (n + 1) by omega, List.range_add, List.map_append, List.range_succ_eq_map,
    List.map_cons, List.map_cons, List.map_map, List.map_map]
  congr 2
  · simp
  · apply List.map_congr_left
    intro i _
    simp only [Function.comp_apply, Nat.succ_eq_add_one]
    push_cast
    ring

theorem allSteps_sorted (n : Nat) : (allSteps n).Pairwise (· < ·) := by
  unfold allSteps
  rw [List.pairwise_map]
  exact (List.pairwise_lt_range).imp (fun h => by omega)

theorem allSteps_neg (n : Nat) : (allSteps n).reverse.map (fun s => -s) = allSteps n := by
  apply List.ext_getElem
  · simp
  · intro i h1 h2
    rw [length_allSteps] at h2
    simp only [allSteps, List.getElem_map, List.getElem_reverse, List.length_map, List.length_range,
      List.getElem_range]
    omega

theorem window_allSteps {A : Type} (n j : Nat) (hj : j ≤ n) (f : Int → A) :
    Stem.window ((allSteps n).map f) j = (allSteps (n - j)).map f := by
  unfold Stem.window
  rw [← List.map_drop, ← List.map_take, List.length_map]
  congr 1
  apply List.ext_getElem
  · simp only [List.length_take, List.length_drop, length_allSteps]; omega
  · intro i h1 h2
    simp only [allSteps, List.getElem_take, List.getElem_drop, List.getElem_map, List.getElem_range]
    omega

end steps

/-- Sorting by distinct keys gives the increasing list with the same elements. -/
theorem sort_keys' {A : Type} {l s : List (Int × A)} (hp : l.Perm s)
    (hs : (s.map (·.1)).Pairwise (· < ·)) : l.insertionSort (fun a b => a.1 ≤ b.1) = s := by
  have hperm := (List.perm_insertionSort (fun a b : Int × A => a.1 ≤ b.1) l).trans hp
  have hsorted : (l.insertionSort (fun a b : Int × A => a.1 ≤ b.1)).Pairwise (fun a b => a.1 ≤ b.1) :=
    haveI : Std.Total (fun a b : Int × A => a.1 ≤ b.1) := ⟨fun a b => le_total a.1 b.1⟩
    haveI : IsTrans (Int × A) (fun a b => a.1 ≤ b.1) := ⟨fun a b c => le_trans⟩
    List.pairwise_insertionSort _ l
  have hnd : (s.map (·.1)).Nodup := hs.imp (fun h => ne_of_lt h)
  refine hperm.eq_of_pairwise ?_ hsorted ((List.pairwise_map.mp hs).imp (fun h => le_of_lt h))
  intro a b ha hb h1 h2
  exact List.inj_on_of_nodup_map hnd (hperm.mem_iff.mp ha) hb (le_antisymm h1 h2)

variable {K S : Type} [Field K] [LinearOrder K] [IsStrictOrderedRing K]

section values

theorem dispAt_neg (base : List K) (s : Int) : dispAt base (-s) = -dispAt base s := by
  unfold dispAt
  by_cases h : s = 0
  · simp [h]
  · rw [if_neg (by omega), if_neg h]
    simp only [Int.natAbs_neg]
    by_cases h' : s < 0
    · rw [if_neg (by omega), if_pos h', neg_neg]
    · rw [if_pos (by omega), if_neg h']

theorem dispAt_ne (base : List K) (h : ∀ x ∈ base, 0 < x) {s : Int} (hs : s ≠ 0)
    (hn : s.natAbs ≤ base.length) : dispAt base s ≠ 0 := by
  unfold dispAt
  rw [if_neg hs]
  have hl : s.natAbs - 1 < (base.insertionSort (· ≤ ·)).length := by
    rw [List.length_insertionSort]; omega
  simp only [List.getElem?_eq_getElem hl, Option.getD_some]
  have := h _ ((List.mem_insertionSort (· ≤ ·)).mp (List.getElem_mem hl))
  split
  · exact neg_ne_zero.mpr (ne_of_gt this)
  · exact ne_of_gt this

theorem valueAt_zero (base : List K) (p : Par K) : valueAt base p 0 = p.fiducial := by
  unfold valueAt dispAt
  simp only [if_true, zero_mul, add_zero, mul_one]
  split
  · next h => exact h.symm
  · rfl

theorem valueAt_eq (base : List K) (p : Par K) (s : Int) :
    valueAt base p s = Param.valueFor p (dispAt base s) := by
  rw [Param.valueFor_spec]; rfl

/-- The table of values lists the values of the steps in order. -/
theorem stemValues_eq (c : Coll K) {base : List K} (h : ∀ x ∈ base, 0 < x) (p : Par K) {disps : List K}
    (hd : (Param.loadStem c base).disps = some disps) :
    Param.stemValues p disps = (allSteps base.length).map (valueAt base p) := by
  obtain ⟨h1, h2, h3⟩ := Param.stem_values p h c hd
  apply List.ext_getElem?
  intro i
  by_cases hi : i < 2 * base.length + 1
  · have hr : ((allSteps base.length).map (valueAt base p))[i]? =
        some (valueAt base p ((i : Int) - base.length)) := by
      rw [List.getElem?_map, allSteps, List.getElem?_map, List.getElem?_range hi]
      rfl
    rw [hr]
    have hsort : Param.sorted base = base.insertionSort (· ≤ ·) := rfl
    rcases Nat.lt_trichotomy i base.length with hlt | rfl | hgt
    · have hk : base.length - 1 - i < base.length := by omega
      have := (h3 _ hk).2.1
      rw [show base.length - (base.length - 1 - i + 1) = i by omega] at this
      rw [this, valueAt_eq, hsort]
      have hl : base.length - 1 - i < (base.insertionSort (· ≤ ·)).length := by
        rw [List.length_insertionSort]; omega
      have hd : dispAt base ((i : Int) - base.length) =
          -((base.insertionSort (· ≤ ·))[base.length - 1 - i]'hl) := by
        unfold dispAt
        rw [if_neg (by omega), if_pos (by omega)]
        rw [show ((i : Int) - base.length).natAbs - 1 = base.length - 1 - i by omega,
          List.getElem?_eq_getElem hl]
        rfl
      rw [hd, List.getElem?_eq_getElem hl]
      rfl
    · rw [h2, show ((base.length : Int) - base.length) = 0 by omega, valueAt_zero]
    · have hk : i - base.length - 1 < base.length := by omega
      have := (h3 _ hk).1
      rw [show base.length + (i - base.length - 1 + 1) = i by omega] at this
      rw [this, valueAt_eq, hsort]
      have hl : i - base.length - 1 < (base.insertionSort (· ≤ ·)).length := by
        rw [List.length_insertionSort]; omega
      have hd : dispAt base ((i : Int) - base.length) =
          ((base.insertionSort (· ≤ ·))[i - base.length - 1]'hl) := by
        unfold dispAt
        rw [if_neg (by omega), if_neg (by omega)]
        rw [show ((i : Int) - base.length).natAbs - 1 = i - base.length - 1 by omega,
          List.getElem?_eq_getElem hl]
        rfl
      rw [hd, List.getElem?_eq_getElem hl]
      rfl
  · rw [List.getElem?_eq_none (by omega), List.getElem?_eq_none]
    rw [List.length_map, length_allSteps]
    omega

end values

section stacked

theorem Entries.choose {sp : Str → Int → Cls K} {dvar : Str} {n : Nat} {key : Str × Str} {m : Nat}
    (h : Entries sp dvar n key m) : ∃ v : Int → Spec K,
      (∀ s ∈ allSteps n, (spectraAt sp dvar s).lookup key = some (v s)) ∧
      ∀ s ∈ allSteps n, (v s).vals.length = m := by
  have hx : ∀ s, ∃ t : Spec K, s ∈ allSteps n →
      (spectraAt sp dvar s).lookup key = some t ∧ t.vals.length = m := by
    intro s
    by_cases hs : s ∈ allSteps n
    · obtain ⟨t, ht⟩ := h s hs
      exact ⟨t, fun _ => ht⟩
    · exact ⟨⟨[], []⟩, fun h' => absurd h' hs⟩
  choose v hv using hx
  exact ⟨v, fun s hs => (hv s hs).1, fun s hs => (hv s hs).2⟩

theorem rowsOf_map {A : Type} (key : Str × Str) (l : List A) (f : A → Cls K) (v : A → Spec K)
    (h : ∀ a ∈ l, (f a).lookup key = some (v a)) :
    rowsOf key (l.map f) = .ok (l.map (fun a => (v a).vals)) := by
  induction l with
  | nil => rfl
  | cons a l ih =>
    simp only [List.map_cons, rowsOf, h a List.mem_cons_self,
      ih (fun b hb => h b (List.mem_cons_of_mem _ hb))]

theorem columns_map {A : Type} (l : List A) (v : A → List K) {m : Nat} (hl : l ≠ [])
    (h : ∀ a ∈ l, (v a).length = m) :
    columns (l.map v) = .ok ((List.range m).map (fun e => l.map (fun a => (v a).getD e 0))) := by
  cases l with
  | nil => exact absurd rfl hl
  | cons a l =>
    have ha := h a List.mem_cons_self
    unfold columns
    simp only [List.map_cons]
    rw [if_pos]
    · simp only [ha, List.map_map, Function.comp_def]
    · rw [List.all_eq_true]
      intro x hx
      rw [← List.map_cons, List.mem_map] at hx
      obtain ⟨b, hb, rfl⟩ := hx
      rw [decide_eq_true_eq, h b hb, ha]

theorem readDirs_map {A : Type} (dirs : List (Str × Cls K)) (l : List A) (d : A → Str) (f : A → Cls K)
    (h : ∀ a ∈ l, dirs.lookup (d a) = some (f a)) : readDirs dirs (l.map d) = .ok (l.map f) := by
  induction l with
  | nil => rfl
  | cons a l ih =>
    simp only [List.map_cons, readDirs, h a List.mem_cons_self,
      ih (fun b hb => h b (List.mem_cons_of_mem _ hb))]

theorem zip_map_same {A B C : Type} (l : List A) (f : A → B) (g : A → C) :
    (l.map f).zip (l.map g) = l.map (fun a => (f a, g a)) := by
  induction l with
  | nil => rfl
  | cons a l ih => simp [ih]

/-- The derivative of spectra given in the order of the steps. -/
theorem doStem_steps (c₀ : Coll K) {base : List K} (hpos : ∀ x ∈ base, 0 < x) {dvar : Str} {p : Par K}
    (hp : c₀.pars.lookup dvar = some p) (v : Int → List K) {m : Nat} (hm : 0 < m)
    (hv : ∀ s ∈ allSteps base.length, (v s).length = m) :
    doStem (Param.loadStem c₀ base) dvar ((allSteps base.length).map v) =
      .ok ((List.range m).map (fun e => Stem.colLoop ((allSteps base.length).map
        (fun s => (valueAt base p s, (v s).getD e 0))))) := by
  have hne : allSteps base.length ≠ [] := by
    intro e; have := length_allSteps base.length; rw [e] at this; simp at this
  obtain ⟨g1, _, _, g4, _⟩ := Param.loaded c₀ hpos
  unfold doStem
  rw [columns_map _ _ hne hv]
  simp only [g4, hp, g1]
  rw [stemValues_eq c₀ hpos p g1]
  have := (Stem.vectorized_elementwise ((allSteps base.length).map (valueAt base p))
    ((List.range m).map (fun e => (allSteps base.length).map (fun a => (v a).getD e 0)))).2.2 ?_ ?_ ?_
  · rw [this]
    simp only [List.map_map]
    congr 1
    apply List.map_congr_left
    intro e _
    simp only [Function.comp_apply, zip_map_same]
  · intro y hy
    obtain ⟨e, _, rfl⟩ := List.mem_map.mp hy
    simp
  · simpa using hne
  · intro h
    rw [List.map_eq_nil_iff] at h
    have : m = 0 := by simpa using h
    omega

/-- A fit of spectra whose number is not that of the parameter values is refused. -/
theorem doStem_wrong_number (c₀ : Coll K) {base : List K} (hpos : ∀ x ∈ base, 0 < x) (dvar : Str)
    (rows : List (List K)) (hr : rows.length ≠ 2 * base.length + 1) :
    ∃ e, doStem (Param.loadStem c₀ base) dvar rows = .error e := by
  obtain ⟨g1, _, _, g4, _⟩ := Param.loaded c₀ hpos
  unfold doStem
  cases hc : columns rows with
  | error e => exact ⟨e, rfl⟩
  | ok cols =>
    simp only
    cases hp : (Param.loadStem c₀ base).pars.lookup dvar with
    | none => exact ⟨_, rfl⟩
    | some p =>
      simp only [g1]
      have hx : (Param.stemValues p (Param.allDisps base)).length = 2 * base.length + 1 := by
        rw [stemValues_eq c₀ hpos p g1, List.length_map, length_allSteps]
      have hcols : ∀ y ∈ cols, y.length = rows.length := by
        unfold columns at hc
        cases rows with
        | nil => cases hc
        | cons r l =>
          simp only at hc
          split at hc
          · cases hc
            intro y hy
            obtain ⟨e, _, rfl⟩ := List.mem_map.mp hy
            simp
          · cases hc
      have hverr : ∃ e, Stem.vectorized (Param.stemValues p (Param.allDisps base)) cols = .error e := by
        cases cols with
        | nil =>
          exact ⟨_, (Stem.vectorized_elementwise _ _).2.1 (by simp) (Or.inr rfl)⟩
        | cons y l =>
          refine ⟨_, (Stem.vectorized_elementwise _ _).1 ⟨y, List.mem_cons_self, ?_⟩⟩
          rw [hx, hcols y List.mem_cons_self]
          exact fun e => hr e.symm
      obtain ⟨e, he⟩ := hverr
      exact ⟨_, by rw [he]⟩

end stacked

section quadratic

theorem sum_odd (n : Nat) (f : Int → K) (h : ∀ s, f (-s) = -f s) : ((allSteps n).map f).sum = 0 := by
  have e : ((allSteps n).map f).sum = -((allSteps n).map f).sum := by
    conv_lhs => rw [← allSteps_neg n]
    rw [List.map_map, show f ∘ (fun s => -s) = fun s => -f s from funext fun s => h s]
    rw [show (fun s => -f s) = (Neg.neg ∘ f) from rfl, ← List.map_map]
    rw [show (List.map Neg.neg (List.map f (allSteps n).reverse)).sum
      = -(List.map f (allSteps n).reverse).sum from by rw [List.sum_neg]]
    rw [((List.reverse_perm (allSteps n)).map f).sum_eq]
  linarith

theorem sum_sq_pos (n : Nat) (hn : 0 < n) (t : Int → K) (ht : ∀ s ∈ allSteps n, s ≠ 0 → t s ≠ 0) :
    0 < ((allSteps n).map (fun s => t s * t s)).sum := by
  have h1 : (1 : Int) ∈ allSteps n := (mem_allSteps n 1).mpr (by simp; omega)
  have h0 : t 1 ≠ 0 := ht 1 h1 (by decide)
  obtain ⟨a, b, hab⟩ := List.append_of_mem h1
  have hnn : ∀ l : List Int, 0 ≤ (l.map (fun s => t s * t s)).sum := by
    intro l
    apply List.sum_nonneg
    intro x hx
    obtain ⟨s, _, rfl⟩ := List.mem_map.mp hx
    exact mul_self_nonneg _
  rw [hab, List.map_append, List.map_cons, List.sum_append, List.sum_cons]
  have := mul_self_pos.mpr h0
  have := hnn a
  have := hnn b
  linarith

theorem sum_map_add' (l : List Int) (f g : Int → K) :
    (l.map (fun s => f s + g s)).sum = (l.map f).sum + (l.map g).sum := by
  induction l with
  | nil => simp
  | cons a l ih => simp only [List.map_cons, List.sum_cons, ih]; ring

theorem sum_map_mul' (l : List Int) (a : K) (f : Int → K) :
    (l.map (fun s => a * f s)).sum = a * (l.map f).sum := by
  induction l with
  | nil => simp
  | cons b l ih => simp only [List.map_cons, List.sum_cons, ih]; ring

theorem sum_map_const' (l : List Int) (a : K) : (l.map (fun _ => a)).sum = l.length * a := by
  induction l with
  | nil => simp
  | cons b l ih => simp only [List.map_cons, List.sum_cons, ih, List.length_cons]; push_cast; ring

/-- The least squares line through points of a parabola, symmetric about `f`, has the slope of the
tangent at `f`. -/
theorem slope_parabola (n : Nat) (hn : 0 < n) (t : Int → K) (hodd : ∀ s, t (-s) = -t s)
    (ht : ∀ s ∈ allSteps n, s ≠ 0 → t s ≠ 0) (f a b q : K) :
    Stem.slope ((allSteps n).map (fun s => (f + t s, a + b * t s + q * (t s * t s)))) = b := by
  have s1 := sum_odd n t hodd
  have s3 : ((allSteps n).map (fun s => t s * (t s * t s))).sum = 0 :=
    sum_odd n _ (fun s => by simp only [hodd]; ring)
  have s2 := sum_sq_pos n hn t ht
  set T2 := ((allSteps n).map (fun s => t s * t s)).sum with hT2
  have hN : (0 : K) < ((allSteps n).length : K) := by
    rw [length_allSteps]; exact_mod_cast Nat.succ_pos _
  set N : K := ((allSteps n).length : K) with hNdef
  unfold Stem.slope Stem.sumXY Stem.sumX Stem.sumY Stem.sumXX
  simp only [List.map_map, List.length_map, Function.comp_def]
  have eX : ((allSteps n).map (fun s => f + t s)).sum = N * f := by
    rw [sum_map_add', sum_map_const', s1, add_zero]
  have eY : ((allSteps n).map (fun s => a + b * t s + q * (t s * t s))).sum = N * a + q * T2 := by
    rw [sum_map_add', sum_map_add', sum_map_const', sum_map_mul', sum_map_mul', s1, mul_zero, add_zero]
  have eXX : ((allSteps n).map (fun s => (f + t s) * (f + t s))).sum = N * (f * f) + T2 := by
    have : (fun s => (f + t s) * (f + t s)) = (fun s => (f * f + (2 * f) * t s) + t s * t s) := by
      funext s; ring
    rw [this, sum_map_add', sum_map_add', sum_map_const', sum_map_mul', s1, mul_zero, add_zero]
  have eXY : ((allSteps n).map (fun s => (f + t s) * (a + b * t s + q * (t s * t s)))).sum =
      N * (f * a) + (f * q + b) * T2 := by
    have : (fun s => (f + t s) * (a + b * t s + q * (t s * t s))) =
        (fun s => (f * a + (f * b + a) * t s) + ((f * q + b) * (t s * t s) + q * (t s * (t s * t s)))) := by
      funext s; ring
    rw [this, sum_map_add', sum_map_add', sum_map_add', sum_map_const', sum_map_mul', sum_map_mul',
      sum_map_mul', s1, s3, mul_zero, mul_zero, add_zero, add_zero]
  rw [eX, eY, eXX, eXY]
  have hden : N * (N * (f * f) + T2) - N * f * (N * f) = N * T2 := by ring
  have hnum : N * (N * (f * a) + (f * q + b) * T2) - N * f * (N * a + q * T2) = b * (N * T2) := by ring
  rw [hden, hnum, mul_div_assoc, div_self (ne_of_gt (mul_pos hN s2)), mul_one]

/-- So has the line that the procedure settles on. -/
theorem colLoop_parabola (n : Nat) (hn : 0 < n) (t : Int → K) (hodd : ∀ s, t (-s) = -t s)
    (ht : ∀ s ∈ allSteps n, s ≠ 0 → t s ≠ 0) (f a b q : K) :
    Stem.colLoop ((allSteps n).map (fun s => (f + t s, a + b * t s + q * (t s * t s)))) = b := by
  obtain ⟨j, h1, _, _, h4⟩ := Stem.colLoop_spec
    ((allSteps n).map (fun s => (f + t s, a + b * t s + q * (t s * t s))))
  have hj : j < n := by
    rcases h4 with rfl | h4
    · exact hn
    · rw [Stem.window_length, List.length_map, length_allSteps] at h4
      omega
  rw [h1, window_allSteps n j (by omega)]
  refine slope_parabola (n - j) (by omega) t hodd (fun s hs => ht s ?_) f a b q
  rw [mem_allSteps] at hs ⊢
  omega

end quadratic

end Seyfert.ClDer
