import Verif.Model.PyNum
import Mathlib.Tactic.IntervalCases

namespace Seyfert

theorem isDigit_digitChar {d : Nat} (h : d < 10) : isDigit (digitChar d) = true := by
  interval_cases d <;> decide

theorem digitVal_digitChar {d : Nat} (h : d < 10) : digitVal (digitChar d) = d := by
  interval_cases d <;> decide

theorem digitVal_lt {c : Char} (h : isDigit c = true) : digitVal c < 10 := by
  simp only [isDigit, Bool.and_eq_true, decide_eq_true_eq] at h
  have h9 : '9'.toNat = 57 := rfl
  have h0 : '0'.toNat = 48 := rfl
  unfold digitVal; omega

theorem digitChar_digitVal {c : Char} (h : isDigit c = true) : digitChar (digitVal c) = c := by
  simp only [isDigit, Bool.and_eq_true, decide_eq_true_eq] at h
  unfold digitChar digitVal
  rw [show '0'.toNat + (c.toNat - '0'.toNat) = c.toNat by omega]
  exact Char.ofNat_toNat c

theorem digitChar_inj {a b : Nat} (ha : a < 10) (hb : b < 10) (h : digitChar a = digitChar b) : a = b := by
  rw [← digitVal_digitChar ha, ← digitVal_digitChar hb, h]

theorem decStr_small {n : Nat} (h : n < 10) : decStr n = [digitChar n] := by
  rw [decStr, if_pos h]

theorem decStr_big {n : Nat} (h : 10 ≤ n) : decStr n = decStr (n / 10) ++ [digitChar (n % 10)] := by
  rw [decStr, if_neg (by omega)]

theorem decStr_ne_nil (n : Nat) : decStr n ≠ [] := by
  rw [decStr]; split <;> simp

theorem decStr_digits (n : Nat) : ∀ c ∈ decStr n, isDigit c = true := by
  induction n using Nat.strong_induction_on with
  | _ n ih =>
    intro c hc
    by_cases h : n < 10
    · rw [decStr_small h, List.mem_singleton] at hc
      rw [hc]; exact isDigit_digitChar h
    · rw [decStr_big (by omega), List.mem_append, List.mem_singleton] at hc
      rcases hc with hc | rfl
      · exact ih (n / 10) (by omega) c hc
      · exact isDigit_digitChar (by omega)

theorem decStr_getLast (n : Nat) : (decStr n).getLast? = some (digitChar (n % 10)) := by
  by_cases h : n < 10
  · rw [decStr_small h, Nat.mod_eq_of_lt h]; rfl
  · rw [decStr_big (by omega)]; simp

theorem decVal_append (s : Str) (c : Char) : decVal (s ++ [c]) = 10 * decVal s + digitVal c := by
  simp [decVal]

theorem decVal_decStr (n : Nat) : decVal (decStr n) = n := by
  induction n using Nat.strong_induction_on with
  | _ n ih =>
    by_cases h : n < 10
    · rw [decStr_small h]
      simp [decVal, digitVal_digitChar h]
    · rw [decStr_big (by omega), decVal_append, ih (n / 10) (by omega), digitVal_digitChar (by omega)]
      omega

/-- Reading back the decimal notation. -/
theorem parseNat_decStr (n : Nat) : parseNat (decStr n) = some n := by
  unfold parseNat
  rw [if_pos ⟨decStr_ne_nil n, List.all_eq_true.mpr (decStr_digits n)⟩, decVal_decStr]

theorem decStr_inj {m n : Nat} (h : decStr m = decStr n) : m = n := by
  rw [← decVal_decStr m, ← decVal_decStr n, h]

theorem decStr_length_le {n w : Nat} (hw : 0 < w) (h : n < 10 ^ w) : (decStr n).length ≤ w := by
  induction n using Nat.strong_induction_on generalizing w with
  | _ n ih =>
    by_cases hn : n < 10
    · rw [decStr_small hn]; exact hw
    · rw [decStr_big (by omega), List.length_append, List.length_singleton]
      match w, hw with
      | 1, _ => omega
      | w + 2, _ =>
        have := ih (n / 10) (by omega) (w := w + 1) (by omega)
          (by rw [Nat.div_lt_iff_lt_mul (by omega)]; rw [pow_succ] at h; exact h)
        omega

theorem decStr_length_one {n : Nat} : (decStr n).length = 1 ↔ n < 10 := by
  constructor
  · intro h
    by_contra hn
    rw [decStr_big (by omega), List.length_append, List.length_singleton] at h
    have := List.length_pos_of_ne_nil (decStr_ne_nil (n / 10))
    omega
  · intro h; rw [decStr_small h]; rfl

theorem decVal_zeros (k : Nat) (s : Str) : decVal (List.replicate k '0' ++ s) = decVal s := by
  unfold decVal
  rw [List.foldl_append]
  congr 1
  induction k with
  | zero => rfl
  | succ k ih =>
    rw [List.replicate_succ, List.foldl_cons]
    exact ih

theorem padDec_length {w n : Nat} (hw : 0 < w) (h : n < 10 ^ w) : (padDec w n).length = w := by
  have := decStr_length_le hw h
  simp [padDec]; omega

theorem padDec_digits (w n : Nat) : ∀ c ∈ padDec w n, isDigit c = true := by
  intro c hc
  rcases List.mem_append.mp hc with hc | hc
  · rw [(List.mem_replicate.mp hc).2]; decide
  · exact decStr_digits n c hc

theorem decVal_padDec (w n : Nat) : decVal (padDec w n) = n := by
  unfold padDec
  rw [decVal_zeros, decVal_decStr]

end Seyfert
