import Verif.Model.Names
import Verif.Lemmas.PyNum
import Verif.Lemmas.PyStr

set_option linter.unusedSectionVars false

namespace Seyfert.Names

theorem spanChars_stop (p : Char → Bool) (a : Str) (c : Char) (s : Str) (ha : ∀ x ∈ a, p x = true)
    (hc : p c = false) : spanChars p (a ++ c :: s) = (a, c :: s) := by
  induction a with
  | nil => simp [spanChars, hc]
  | cons x a ih =>
    have := ih (fun y hy => ha y (List.mem_cons_of_mem _ hy))
    simp [spanChars, ha x List.mem_cons_self, this]

theorem spanChars_all (p : Char → Bool) (a : Str) (ha : ∀ x ∈ a, p x = true) : spanChars p a = (a, []) := by
  induction a with
  | nil => rfl
  | cons x a ih =>
    have := ih (fun y hy => ha y (List.mem_cons_of_mem _ hy))
    simp [spanChars, ha x List.mem_cons_self, this]

theorem spanChars_spec (p : Char → Bool) (s : Str) :
    (spanChars p s).1 ++ (spanChars p s).2 = s ∧ (∀ x ∈ (spanChars p s).1, p x = true) ∧
    ∀ c r, (spanChars p s).2 = c :: r → p c = false := by
  induction s with
  | nil => simp [spanChars]
  | cons c s ih =>
    obtain ⟨h1, h2, h3⟩ := ih
    unfold spanChars
    by_cases hc : p c = true
    · simp only [hc, if_true, List.cons_append, h1, true_and]
      refine ⟨?_, h3⟩
      intro x hx
      rcases List.mem_cons.mp hx with rfl | hx
      · exact hc
      · exact h2 x hx
    · simp only [hc, Bool.false_eq_true, if_false, List.nil_append, true_and]
      refine ⟨by simp, ?_⟩
      intro c' r e
      cases e
      simpa using hc

theorem matchPat_length : ∀ (p : List (Option Char)) (s : Str), matchPat p s = true → s.length = p.length
  | [], [], _ => rfl
  | none :: p, c :: s, h => by
    simp only [matchPat, Bool.and_eq_true] at h
    simp [matchPat_length p s h.2]
  | some d :: p, c :: s, h => by
    simp only [matchPat, Bool.and_eq_true] at h
    simp [matchPat_length p s h.2]
  | [], _ :: _, h => by simp [matchPat] at h
  | none :: _, [], h => by simp [matchPat] at h
  | some _ :: _, [], h => by simp [matchPat] at h

theorem matchPat_lit (d : Char) (p : List (Option Char)) (s : Str) :
    matchPat (some d :: p) s = true ↔ ∃ r, s = d :: r ∧ matchPat p r = true := by
  cases s with
  | nil => simp [matchPat]
  | cons c s =>
    simp only [matchPat, Bool.and_eq_true, decide_eq_true_eq, List.cons.injEq]
    constructor
    · rintro ⟨rfl, h⟩; exact ⟨s, ⟨rfl, rfl⟩, h⟩
    · rintro ⟨r, ⟨rfl, rfl⟩, h⟩; exact ⟨rfl, h⟩

theorem matchPat_dig (n : Nat) (p : List (Option Char)) (s : Str) :
    matchPat (dig n ++ p) s = true ↔
      ∃ a r, s = a ++ r ∧ a.length = n ∧ (∀ c ∈ a, isDigit c = true) ∧ matchPat p r = true := by
  induction n generalizing s with
  | zero =>
    simp only [dig, List.replicate_zero, List.nil_append]
    constructor
    · intro h; exact ⟨[], s, rfl, rfl, by simp, h⟩
    · rintro ⟨a, r, rfl, ha, _, h⟩
      rw [List.length_eq_zero_iff] at ha
      subst ha; exact h
  | succ n ih =>
    have hd : dig (n + 1) ++ p = none :: (dig n ++ p) := rfl
    rw [hd]
    cases s with
    | nil =>
      simp only [matchPat, Bool.false_eq_true, false_iff]
      rintro ⟨a, r, h, ha, _⟩
      have := congrArg List.length h
      simp at this; omega
    | cons c s =>
      simp only [matchPat, Bool.and_eq_true, ih]
      constructor
      · rintro ⟨hc, a, r, rfl, ha, hd, h⟩
        refine ⟨c :: a, r, rfl, by simp [ha], ?_, h⟩
        intro x hx
        rcases List.mem_cons.mp hx with rfl | hx
        · exact hc
        · exact hd x hx
      · rintro ⟨a, r, h, ha, hd, h'⟩
        match a, ha with
        | x :: a, ha =>
          simp only [List.cons_append, List.cons.injEq] at h
          obtain ⟨rfl, rfl⟩ := h
          exact ⟨hd c List.mem_cons_self, a, r, rfl, by simpa using ha,
            fun y hy => hd y (List.mem_cons_of_mem _ hy), h'⟩

theorem splitTail_join (a t : Str) : splitTail t.length (a ++ '_' :: t) = some (a, t) := by
  unfold splitTail
  have hl : (a ++ '_' :: t).length = a.length + (t.length + 1) := by simp
  rw [hl, if_pos]
  · rw [show a.length + (t.length + 1) - (t.length + 1) = a.length by omega,
      show a.length + (t.length + 1) - t.length = a.length + 1 by omega]
    simp
  · refine ⟨by omega, ?_⟩
    rw [show a.length + (t.length + 1) - (t.length + 1) = a.length by omega]
    simp

theorem splitTail_sound {k : Nat} {s a t : Str} (h : splitTail k s = some (a, t)) :
    s = a ++ '_' :: t ∧ t.length = k := by
  unfold splitTail at h
  split at h
  · next hc =>
    obtain ⟨h1, h2⟩ := hc
    simp only [Option.some.injEq, Prod.mk.injEq] at h
    obtain ⟨rfl, rfl⟩ := h
    obtain ⟨hlt, he⟩ := List.getElem?_eq_some_iff.mp h2
    refine ⟨?_, by simp; omega⟩
    conv_lhs => rw [← List.take_append_drop (s.length - (k + 1)) s]
    congr 1
    rw [List.drop_eq_getElem_cons hlt, he]
    congr 2
    omega
  · cases h

/-- `padDec` one digit at a time. -/
theorem padDec_succ (w n : Nat) : padDec (w + 2) n = padDec (w + 1) (n / 10) ++ [digitChar (n % 10)] := by
  unfold padDec
  by_cases h : n < 10
  · rw [Nat.div_eq_of_lt h, Nat.mod_eq_of_lt h, decStr_small h, decStr_small (by omega : 0 < 10)]
    simp only [List.length_singleton]
    rw [show w + 2 - 1 = w + 1 by omega, show w + 1 - 1 = w by omega, List.replicate_succ']
    rfl
  · rw [decStr_big (by omega), List.length_append, List.length_singleton, ← List.append_assoc]
    congr 3
    omega

theorem padDec_decVal : ∀ (w : Nat) (s : Str), s.length = w + 1 → (∀ c ∈ s, isDigit c = true) →
    padDec (w + 1) (decVal s) = s
  | 0, s, hl, hd => by
    match s, hl with
    | [c], _ =>
      have hc := hd c (by simp)
      have hlt := digitVal_lt hc
      have hv : decVal [c] = digitVal c := by simp [decVal]
      rw [hv]
      unfold padDec
      rw [decStr_small hlt, digitChar_digitVal hc]
      rfl
  | w + 1, s, hl, hd => by
    obtain ⟨t, c, rfl⟩ : ∃ t c, s = t ++ [c] := by
      refine ⟨s.dropLast, s.getLast (by intro e; rw [e] at hl; simp at hl), ?_⟩
      exact (List.dropLast_append_getLast _).symm
    have hc := hd c (by simp)
    have hlt := digitVal_lt hc
    rw [padDec_succ, decVal_append]
    have h1 : (10 * decVal t + digitVal c) / 10 = decVal t := by omega
    have h2 : (10 * decVal t + digitVal c) % 10 = digitVal c := by omega
    rw [h1, h2, digitChar_digitVal hc, padDec_decVal w t (by simpa using hl)
      (fun x hx => hd x (by simp [hx]))]

end Seyfert.Names
