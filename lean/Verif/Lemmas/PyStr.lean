import Verif.Model.PyStr

namespace Seyfert

theorem splitChar_ne_nil (c : Char) (s : Str) : splitChar c s ≠ [] := by
  cases s with
  | nil => simp [splitChar]
  | cons x xs =>
    unfold splitChar
    split
    · simp
    · split <;> simp

theorem splitChar_no_sep (c : Char) (s : Str) (h : c ∉ s) : splitChar c s = [s] := by
  induction s with
  | nil => rfl
  | cons x xs ih =>
    have hx : x ≠ c := by rintro rfl; simp at h
    unfold splitChar
    rw [if_neg hx, ih (fun hc => h (List.mem_cons_of_mem _ hc))]

theorem splitChar_append (c : Char) (p s : Str) (h : c ∉ p) :
    splitChar c (p ++ c :: s) = p :: splitChar c s := by
  induction p with
  | nil => simp [splitChar]
  | cons x xs ih =>
    have hx : x ≠ c := by rintro rfl; simp at h
    rw [List.cons_append]
    conv_lhs => unfold splitChar
    rw [if_neg hx, ih (fun hc => h (List.mem_cons_of_mem _ hc))]

/-- Splitting a joined list of parts gives back the parts. -/
theorem splitChar_join (c : Char) (l : List Str) (hl : l ≠ []) (h : ∀ p ∈ l, c ∉ p) :
    splitChar c (joinStr [c] l) = l := by
  induction l with
  | nil => exact absurd rfl hl
  | cons p l ih =>
    cases l with
    | nil => exact splitChar_no_sep c p (h p (by simp))
    | cons q rest =>
      change splitChar c (p ++ [c] ++ joinStr [c] (q :: rest)) = _
      rw [List.append_assoc, List.singleton_append, splitChar_append c p _ (h p (by simp)),
        ih (by simp) (fun x hx => h x (by simp [hx]))]

theorem joinStr_cons_cons (sep p q : Str) (rest : List Str) :
    joinStr sep (p :: q :: rest) = p ++ sep ++ joinStr sep (q :: rest) := rfl

/-- Joining split parts gives back the string. -/
theorem join_splitChar (c : Char) (s : Str) : joinStr [c] (splitChar c s) = s := by
  induction s with
  | nil => rfl
  | cons x xs ih =>
    unfold splitChar
    split
    · next h =>
      subst h
      cases hs : splitChar x xs with
      | nil => exact absurd hs (splitChar_ne_nil x xs)
      | cons q rest =>
        rw [joinStr_cons_cons, ← hs, ih]
        rfl
    · next h =>
      cases hs : splitChar c xs with
      | nil => exact absurd hs (splitChar_ne_nil c xs)
      | cons q rest =>
        simp only
        rw [hs] at ih
        cases rest with
        | nil => simp only [joinStr] at ih ⊢; rw [ih]
        | cons r rs =>
          rw [joinStr_cons_cons] at ih ⊢
          rw [List.cons_append, List.cons_append, ih]

theorem mem_joinStr (sep : Str) (l : List Str) (x : Char) (h : x ∈ joinStr sep l) :
    x ∈ sep ∨ ∃ p ∈ l, x ∈ p := by
  induction l with
  | nil => simp [joinStr] at h
  | cons p l ih =>
    cases l with
    | nil => exact Or.inr ⟨p, by simp, h⟩
    | cons q rest =>
      rw [joinStr_cons_cons] at h
      rcases List.mem_append.mp h with h | h
      · rcases List.mem_append.mp h with h | h
        · exact Or.inr ⟨p, by simp, h⟩
        · exact Or.inl h
      · rcases ih h with h | ⟨r, hr, h⟩
        · exact Or.inl h
        · exact Or.inr ⟨r, by simp [hr], h⟩

theorem removeChar_append (c : Char) (a b : Str) :
    removeChar c (a ++ b) = removeChar c a ++ removeChar c b := by
  simp [removeChar]

theorem removeChar_self (c : Char) (s : Str) (h : c ∉ s) : removeChar c s = s := by
  unfold removeChar
  rw [List.filter_eq_self]
  intro a ha
  simp
  rintro rfl
  exact h ha

theorem stripPrefix_eq_some (p s r : Str) : stripPrefix p s = some r ↔ s = p ++ r := by
  induction p generalizing s with
  | nil => simp [stripPrefix]
  | cons a p ih =>
    cases s with
    | nil => simp [stripPrefix]
    | cons b s =>
      unfold stripPrefix
      by_cases hab : a = b
      · subst hab
        simp [ih]
      · simp only [if_neg hab]
        constructor
        · simp
        · intro h
          simp at h
          exact absurd h.1.symm hab

theorem stripPrefix_append (p r : Str) : stripPrefix p (p ++ r) = some r :=
  (stripPrefix_eq_some p _ r).mpr rfl

theorem stripPrefix_isSome (p s : Str) : (stripPrefix p s).isSome ↔ ∃ r, s = p ++ r := by
  rw [Option.isSome_iff_exists]
  simp only [stripPrefix_eq_some]

end Seyfert
