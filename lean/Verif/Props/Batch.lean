import Verif.Model.Batch
import Verif.Lemmas.Names
import Mathlib.Algebra.Order.Archimedean.Basic
import Mathlib.Data.Rat.Floor
import Mathlib.Tactic.Linarith

/-!
C30: waiting for batch jobs.
-/

set_option linter.unusedSectionVars false

namespace Seyfert.Batch

open Names (spanChars)

/-! ### Spans -/

theorem span_all (p : Char → Bool) (a : Str) (ha : ∀ c ∈ a, p c = true) (s : Str)
    (hs : ∀ c ∈ s.head?, p c = false) : spanChars p (a ++ s) = (a, s) := by
  induction a with
  | nil =>
    cases s with
    | nil => rfl
    | cons c s => simp [spanChars, hs c (by simp)]
  | cons c a ih =>
    rw [List.cons_append, spanChars, if_pos (ha c List.mem_cons_self),
      ih (fun d hd => ha d (List.mem_cons_of_mem _ hd))]

theorem span_append (p : Char → Bool) (s : Str) : (spanChars p s).1 ++ (spanChars p s).2 = s := by
  induction s with
  | nil => rfl
  | cons c s ih =>
    unfold spanChars
    split
    · simp [ih]
    · rfl

theorem span_fst (p : Char → Bool) (s : Str) : ∀ c ∈ (spanChars p s).1, p c = true := by
  induction s with
  | nil => simp [spanChars]
  | cons c s ih =>
    unfold spanChars
    split
    · rename_i h
      intro d hd
      rcases List.mem_cons.mp hd with rfl | hd
      · exact h
      · exact ih d hd
    · simp

theorem span_head (p : Char → Bool) (s : Str) : ∀ c ∈ (spanChars p s).2.head?, p c = false := by
  induction s with
  | nil => simp [spanChars]
  | cons c s ih =>
    unfold spanChars
    split
    · exact ih
    · rename_i h
      intro d hd
      simp at hd
      subst hd
      simpa using h

theorem digit_not_space {c : Char} (h : isDigit c = true) : isSpace c = false := by
  by_contra hs
  simp only [Bool.not_eq_false] at hs
  unfold isSpace at hs
  simp only [Bool.or_eq_true, beq_iff_eq] at hs
  rcases hs with ((((rfl | rfl) | rfl) | rfl) | rfl) | rfl <;> revert h <;> decide

theorem lower_not_space {c : Char} (h : isLower c = true) : isSpace c = false := by
  by_contra hs
  simp only [Bool.not_eq_false] at hs
  unfold isSpace at hs
  simp only [Bool.or_eq_true, beq_iff_eq] at hs
  rcases hs with ((((rfl | rfl) | rfl) | rfl) | rfl) | rfl <;> revert h <;> decide

theorem upper_not_space {c : Char} (h : isUpper c = true) : isSpace c = false := by
  by_contra hs
  simp only [Bool.not_eq_false] at hs
  unfold isSpace at hs
  simp only [Bool.or_eq_true, beq_iff_eq] at hs
  rcases hs with ((((rfl | rfl) | rfl) | rfl) | rfl) | rfl <;> revert h <;> decide

theorem upper_not_lower {c : Char} (h : isUpper c = true) : isLower c = false := by
  unfold isUpper at h
  unfold isLower
  simp only [Bool.and_eq_true, decide_eq_true_eq, Bool.and_eq_false_iff, decide_eq_false_iff_not] at *
  have h1 : 'Z'.toNat = 90 := rfl
  have h2 : 'a'.toNat = 97 := rfl
  omega

theorem lower_not_digit {c : Char} (h : isLower c = true) : isDigit c = false := by
  unfold isLower at h
  unfold isDigit
  simp only [Bool.and_eq_true, decide_eq_true_eq, Bool.and_eq_false_iff, decide_eq_false_iff_not] at *
  have h1 : '9'.toNat = 57 := rfl
  have h2 : 'a'.toNat = 97 := rfl
  omega

theorem upper_not_digit {c : Char} (h : isUpper c = true) : isDigit c = false := by
  unfold isUpper at h
  unfold isDigit
  simp only [Bool.and_eq_true, decide_eq_true_eq, Bool.and_eq_false_iff, decide_eq_false_iff_not] at *
  have h1 : '9'.toNat = 57 := rfl
  have h2 : 'A'.toNat = 65 := rfl
  omega

theorem space_not_digit {c : Char} (h : isSpace c = true) : isDigit c = false := by
  by_contra hd
  simp only [Bool.not_eq_false] at hd
  rw [digit_not_space hd] at h
  exact absurd h (by decide)

theorem space_not_lower {c : Char} (h : isSpace c = true) : isLower c = false := by
  by_contra hd
  simp only [Bool.not_eq_false] at hd
  rw [lower_not_space hd] at h
  exact absurd h (by decide)

theorem space_not_upper {c : Char} (h : isSpace c = true) : isUpper c = false := by
  by_contra hd
  simp only [Bool.not_eq_false] at hd
  rw [upper_not_space hd] at h
  exact absurd h (by decide)

theorem digit_not_lower {c : Char} (h : isDigit c = true) : isLower c = false := by
  by_contra hd
  simp only [Bool.not_eq_false] at hd
  rw [lower_not_digit hd] at h
  exact absurd h (by decide)

/-- The first character of a non-empty string of a class, followed by anything. -/
theorem head_class {p q : Char → Bool} {a : Str} (ha : ∀ c ∈ a, p c = true) (hne : a ≠ [])
    (hpq : ∀ c, p c = true → q c = false) (s : Str) : ∀ c ∈ (a ++ s).head?, q c = false := by
  obtain ⟨x, xs, rfl⟩ := List.exists_cons_of_ne_nil hne
  intro c hc
  simp at hc
  subst hc
  exact hpq _ (ha _ List.mem_cons_self)

/-! ### Lines of the table -/

/-- The first field of `s` is a number and the next one starts with a lower case letter. -/
def startsLikeRow (s : Str) : Bool :=
  let a := spanChars isDigit s
  let b := spanChars isSpace a.2
  !a.1.isEmpty && !b.1.isEmpty && (b.2.head?.map isLower).getD false

/-- Nowhere in the text does a number stand before a word starting with a lower case letter. -/
def calm : Str → Bool
  | [] => true
  | c :: s => !startsLikeRow (c :: s) && calm s

/-- One line of the output of `bjobs`: number, user, status, and the other columns up to and with the end of
the line. -/
structure Line where
  row : Row
  sp1 : Str
  sp2 : Str
  tail : Str

def Line.text (l : Line) : Str :=
  l.row.id ++ (l.sp1 ++ (l.row.user ++ (l.sp2 ++ (l.row.stat ++ l.tail))))

/-- The columns other than the user name are as printed by `bjobs`. -/
structure Line.Printed (l : Line) : Prop where
  id : l.row.id ≠ [] ∧ ∀ c ∈ l.row.id, isDigit c = true
  sp1 : l.sp1 ≠ [] ∧ ∀ c ∈ l.sp1, isSpace c = true
  sp2 : l.sp2 ≠ [] ∧ ∀ c ∈ l.sp2, isSpace c = true
  stat : l.row.stat ≠ [] ∧ ∀ c ∈ l.row.stat, isUpper c = true
  tail : calm l.tail = true ∧ l.tail.getLast? = some '\n' ∧ ∀ c ∈ l.tail.head?, isUpper c = false

/-- The user name consists of lower case letters. -/
def Line.LowerUser (l : Line) : Prop := l.row.user ≠ [] ∧ ∀ c ∈ l.row.user, isLower c = true

/-- The user name has no blanks, and some character that is not a lower case letter. -/
def Line.OtherUser (l : Line) : Prop :=
  (∀ c ∈ l.row.user, isSpace c = false) ∧ ∃ c ∈ l.row.user, isLower c = false

def StartsDigit (w : Str) : Prop := ∀ c ∈ w.head?, isDigit c = true

theorem span_mono (p : Char → Bool) (s w : Str) (h : (spanChars p s).2 ≠ []) :
    spanChars p (s ++ w) = ((spanChars p s).1, (spanChars p s).2 ++ w) := by
  conv_lhs => rw [← span_append p s, List.append_assoc]
  apply span_all p _ (span_fst p s)
  obtain ⟨x, xs, hx⟩ := List.exists_cons_of_ne_nil h
  have := span_head p s
  rw [hx] at this ⊢
  simpa using this

theorem span_nil_of_head (p : Char → Bool) (s : Str) (h : ∀ c ∈ s.head?, p c = false) :
    spanChars p s = ([], s) := span_all p [] (by simp) s h

theorem matchRow_none_of_digit {s : Str} (h : ∀ c ∈ s.head?, isDigit c = false) : matchRow s = none := by
  unfold matchRow
  simp [span_nil_of_head isDigit s h]

theorem matchRow_calm {t w : Str} (ht : startsLikeRow t = false) (hl : t.getLast? = some '\n')
    (hw : StartsDigit w) : matchRow (t ++ w) = none := by
  have ha2 : (spanChars isDigit t).2 ≠ [] := by
    intro e
    have := span_append isDigit t
    rw [e, List.append_nil] at this
    have h2 := span_fst isDigit t
    rw [this] at h2
    have := h2 '\n' (List.mem_of_getLast? hl)
    exact absurd this (by decide)
  have hlow : ∀ c ∈ (spanChars isSpace ((spanChars isDigit t).2 ++ w)).2.head?,
      (spanChars isDigit t).1 ≠ [] → (spanChars isSpace ((spanChars isDigit t).2 ++ w)).1 ≠ [] →
        isLower c = false := by
    intro c hc hn1 hn2
    by_cases hb2 : (spanChars isSpace (spanChars isDigit t).2).2 = []
    · have hsp : ∀ c ∈ (spanChars isDigit t).2, isSpace c = true := by
        have := span_append isSpace (spanChars isDigit t).2
        rw [hb2, List.append_nil] at this
        have h2 := span_fst isSpace (spanChars isDigit t).2
        rwa [this] at h2
      rw [span_all isSpace _ hsp w (fun c hc => digit_not_space (hw c hc))] at hc
      exact digit_not_lower (hw c hc)
    · rw [span_mono isSpace _ w hb2] at hc hn2
      obtain ⟨x, xs, hx⟩ := List.exists_cons_of_ne_nil hb2
      simp only [hx, List.cons_append, List.head?_cons, Option.mem_def, Option.some.injEq] at hc
      subst hc
      unfold startsLikeRow at ht
      simp only [hx, List.head?_cons, Option.map_some, Option.getD_some, Bool.and_eq_false_iff] at ht
      rcases ht with (ht | ht) | ht
      · exact absurd (by simpa using ht) hn1
      · exact absurd (by simpa using ht) hn2
      · exact ht
  unfold matchRow
  rw [span_mono isDigit t w ha2]
  simp only
  by_cases h1 : (spanChars isDigit t).1 = []
  · rw [if_pos (Or.inl h1)]
  · by_cases h2 : (spanChars isSpace ((spanChars isDigit t).2 ++ w)).1 = []
    · rw [if_pos (Or.inr (Or.inl h2))]
    · rw [if_pos]
      right; right; left
      rw [span_nil_of_head isLower _ (fun c hc => hlow c hc h1 h2)]

/-- Text in which no match starts is passed over. -/
theorem findRows_pass (u w : Str) (h : ∀ a v, u = a ++ v → v ≠ [] → matchRow (v ++ w) = none) :
    findRows 0 (u ++ w) = findRows 0 w := by
  induction u with
  | nil => rfl
  | cons c u ih =>
    have h0 := h [] (c :: u) rfl (by simp)
    rw [List.cons_append, findRows, if_pos rfl]
    rw [List.cons_append] at h0
    rw [h0]
    exact ih (fun a v e hv => h (c :: a) v (by rw [e]; rfl) hv)

theorem findRows_skip (u w : Str) : findRows u.length (u ++ w) = findRows 0 w := by
  induction u with
  | nil => rfl
  | cons c u ih =>
    rw [List.length_cons, List.cons_append, findRows, if_neg (by omega)]
    exact ih

theorem findRows_no_digit (u w : Str) (h : ∀ c ∈ u, isDigit c = false) :
    findRows 0 (u ++ w) = findRows 0 w := by
  apply findRows_pass
  intro a v e hv
  apply matchRow_none_of_digit
  obtain ⟨x, xs, rfl⟩ := List.exists_cons_of_ne_nil hv
  intro c hc
  simp at hc
  subst hc
  exact h _ (by rw [e]; simp)

theorem calm_suffix {a v : Str} (h : calm (a ++ v) = true) (hv : v ≠ []) : startsLikeRow v = false := by
  induction a with
  | nil =>
    obtain ⟨x, xs, rfl⟩ := List.exists_cons_of_ne_nil hv
    simp only [List.nil_append, calm, Bool.and_eq_true] at h
    simpa using h.1
  | cons c a ih =>
    simp only [List.cons_append, calm, Bool.and_eq_true] at h
    exact ih h.2

theorem findRows_calm (t w : Str) (ht : calm t = true) (hl : t.getLast? = some '\n') (hw : StartsDigit w) :
    findRows 0 (t ++ w) = findRows 0 w := by
  apply findRows_pass
  intro a v e hv
  refine matchRow_calm (calm_suffix (a := a) (by rw [← e]; exact ht) hv) ?_ hw
  rw [e, List.getLast?_append_of_ne_nil _ hv] at hl
  exact hl

theorem matchRow_line (l : Line) (h : l.Printed) (hu : l.LowerUser) (w : Str) :
    matchRow (l.text ++ w) = some (l.row, l.tail ++ w) := by
  have htail : ∀ c ∈ (l.tail ++ w).head?, isUpper c = false := by
    cases hl : l.tail with
    | nil => have := h.tail.2.1; rw [hl] at this; simp at this
    | cons x xs => have := h.tail.2.2; rw [hl] at this; simpa using this
  have e1 := span_all isDigit l.row.id h.id.2
    (l.sp1 ++ (l.row.user ++ (l.sp2 ++ (l.row.stat ++ (l.tail ++ w)))))
    (head_class h.sp1.2 h.sp1.1 (fun _ => space_not_digit) _)
  have e2 := span_all isSpace l.sp1 h.sp1.2 (l.row.user ++ (l.sp2 ++ (l.row.stat ++ (l.tail ++ w))))
    (head_class hu.2 hu.1 (fun _ => lower_not_space) _)
  have e3 := span_all isLower l.row.user hu.2 (l.sp2 ++ (l.row.stat ++ (l.tail ++ w)))
    (head_class h.sp2.2 h.sp2.1 (fun _ => space_not_lower) _)
  have e4 := span_all isSpace l.sp2 h.sp2.2 (l.row.stat ++ (l.tail ++ w))
    (head_class h.stat.2 h.stat.1 (fun _ => upper_not_space) _)
  have e5 := span_all isUpper l.row.stat h.stat.2 (l.tail ++ w) htail
  unfold matchRow Line.text
  simp only [List.append_assoc]
  rw [e1]
  simp only
  rw [e2]
  simp only
  rw [e3]
  simp only
  rw [e4]
  simp only
  rw [e5]
  simp only
  rw [if_neg]
  simp [h.id.1, h.sp1.1, hu.1, h.sp2.1, h.stat.1]

theorem findRows_line (l : Line) (h : l.Printed) (hu : l.LowerUser) (w : Str) (hw : StartsDigit w) :
    findRows 0 (l.text ++ w) = l.row :: findRows 0 w := by
  have hm := matchRow_line l h hu w
  obtain ⟨x, xs, hx⟩ := List.exists_cons_of_ne_nil h.id.1
  have ht : l.text = x :: (xs ++ (l.sp1 ++ (l.row.user ++ (l.sp2 ++ l.row.stat))) ++ l.tail) := by
    simp [Line.text, hx]
  rw [ht, List.cons_append] at hm ⊢
  rw [findRows, if_pos rfl, hm]
  simp only
  have hlen : (xs ++ (l.sp1 ++ (l.row.user ++ (l.sp2 ++ l.row.stat))) ++ l.tail ++ w).length - (l.tail ++ w).length
      = (xs ++ (l.sp1 ++ (l.row.user ++ (l.sp2 ++ l.row.stat)))).length := by
    simp only [List.length_append]; omega
  rw [hlen, List.append_assoc, findRows_skip, findRows_calm l.tail w h.tail.1 h.tail.2.1 hw]

theorem text_startsDigit (l : Line) (h : l.Printed) (w : Str) : StartsDigit (l.text ++ w) := by
  obtain ⟨x, xs, hx⟩ := List.exists_cons_of_ne_nil h.id.1
  intro c hc
  simp [Line.text, hx] at hc
  subst hc
  exact h.id.2 _ (by rw [hx]; exact List.mem_cons_self)

theorem lines_startsDigit (ls : List Line) (h : ∀ l ∈ ls, l.Printed) :
    StartsDigit (ls.flatMap Line.text) := by
  cases ls with
  | nil => simp [StartsDigit]
  | cons l ls => exact text_startsDigit l (h l List.mem_cons_self) _

/-- C30. The table read from the output of `bjobs` has one row for each printed line, with the number, user and
status printed there, if user names are in lower case letters. -/
theorem parse_table (header : Str) (hh : ∀ c ∈ header, isDigit c = false) (ls : List Line)
    (h : ∀ l ∈ ls, l.Printed) (hu : ∀ l ∈ ls, l.LowerUser) :
    parseTable (header ++ ls.flatMap Line.text) = ls.map (·.row) := by
  unfold parseTable
  rw [findRows_no_digit _ _ hh]
  induction ls with
  | nil => rfl
  | cons l ls ih =>
    rw [List.flatMap_cons, findRows_line l (h l List.mem_cons_self) (hu l List.mem_cons_self) _
      (lines_startsDigit ls (fun m hm => h m (List.mem_cons_of_mem _ hm))), List.map_cons,
      ih (fun m hm => h m (List.mem_cons_of_mem _ hm)) (fun m hm => hu m (List.mem_cons_of_mem _ hm))]

theorem findRows_other (l : Line) (h : l.Printed) (hu : l.OtherUser) (w : Str) (hw : StartsDigit w) :
    findRows 0 (l.text ++ w) = findRows 0 w := by
  obtain ⟨hu1, z, hz, hzl⟩ := hu
  have hune : l.row.user ≠ [] := List.ne_nil_of_mem hz
  have hlow2 : (spanChars isLower l.row.user).2 ≠ [] := by
    intro e
    have := span_append isLower l.row.user
    rw [e, List.append_nil] at this
    have h2 := span_fst isLower l.row.user
    rw [this] at h2
    rw [h2 z hz] at hzl
    exact absurd hzl (by decide)
  have huhead : ∀ s, ∀ c ∈ (l.row.user ++ s).head?, isSpace c = false := by
    intro s c hc
    obtain ⟨x, xs, hx⟩ := List.exists_cons_of_ne_nil hune
    rw [hx] at hc
    simp at hc
    subst hc
    exact hu1 _ (by rw [hx]; exact List.mem_cons_self)
  unfold Line.text
  simp only [List.append_assoc]
  -- number
  rw [findRows_pass l.row.id]
  · -- blanks
    rw [findRows_no_digit l.sp1 _ (fun c hc => space_not_digit (h.sp1.2 c hc))]
    -- user name
    rw [findRows_pass l.row.user]
    · rw [findRows_no_digit l.sp2 _ (fun c hc => space_not_digit (h.sp2.2 c hc)),
        findRows_no_digit l.row.stat _ (fun c hc => upper_not_digit (h.stat.2 c hc)),
        findRows_calm l.tail w h.tail.1 h.tail.2.1 hw]
    · intro a v e hv
      by_cases hd2 : (spanChars isDigit v).2 = []
      · have hdig : ∀ c ∈ v, isDigit c = true := by
          have := span_append isDigit v
          rw [hd2, List.append_nil] at this
          have h2 := span_fst isDigit v
          rwa [this] at h2
        have e1 := span_all isDigit v hdig (l.sp2 ++ (l.row.stat ++ (l.tail ++ w)))
          (head_class h.sp2.2 h.sp2.1 (fun _ => space_not_digit) _)
        have e2 := span_all isSpace l.sp2 h.sp2.2 (l.row.stat ++ (l.tail ++ w))
          (head_class h.stat.2 h.stat.1 (fun _ => upper_not_space) _)
        have e3 := span_nil_of_head isLower (l.row.stat ++ (l.tail ++ w))
          (head_class h.stat.2 h.stat.1 (fun _ => upper_not_lower) _)
        unfold matchRow
        rw [e1]
        simp only
        rw [e2]
        simp only
        rw [e3]
        simp
      · have e1 := span_mono isDigit v (l.sp2 ++ (l.row.stat ++ (l.tail ++ w))) hd2
        obtain ⟨x, xs, hx⟩ := List.exists_cons_of_ne_nil hd2
        have hmem : x ∈ l.row.user := by
          rw [e, ← span_append isDigit v, hx]; simp
        have e2 := span_nil_of_head isSpace ((spanChars isDigit v).2 ++ (l.sp2 ++ (l.row.stat ++ (l.tail ++ w))))
          (by rw [hx]; intro c hc; simp at hc; subst hc; exact hu1 _ hmem)
        unfold matchRow
        rw [e1]
        simp only
        rw [e2]
        simp
  · intro a v e hv
    have e1 := span_all isDigit v (fun c hc => h.id.2 c (by rw [e]; exact List.mem_append_right _ hc))
      (l.sp1 ++ (l.row.user ++ (l.sp2 ++ (l.row.stat ++ (l.tail ++ w)))))
      (head_class h.sp1.2 h.sp1.1 (fun _ => space_not_digit) _)
    have e2 := span_all isSpace l.sp1 h.sp1.2 (l.row.user ++ (l.sp2 ++ (l.row.stat ++ (l.tail ++ w))))
      (huhead _)
    have e3 := span_mono isLower l.row.user (l.sp2 ++ (l.row.stat ++ (l.tail ++ w))) hlow2
    obtain ⟨x, xs, hx⟩ := List.exists_cons_of_ne_nil hlow2
    have hmem : x ∈ l.row.user := by
      rw [← span_append isLower l.row.user, hx]; simp
    have e4 := span_nil_of_head isSpace ((spanChars isLower l.row.user).2 ++
      (l.sp2 ++ (l.row.stat ++ (l.tail ++ w))))
      (by rw [hx]; intro c hc; simp at hc; subst hc; exact hu1 _ hmem)
    unfold matchRow
    rw [e1]
    simp only
    rw [e2]
    simp only
    rw [e3]
    simp only
    rw [e4]
    simp

/-- C30, what goes wrong: lines of users whose name has a digit or an upper case letter are not in the
table. -/
theorem parse_table_other (header : Str) (hh : ∀ c ∈ header, isDigit c = false) (ls : List Line)
    (h : ∀ l ∈ ls, l.Printed) (hu : ∀ l ∈ ls, l.OtherUser) :
    parseTable (header ++ ls.flatMap Line.text) = [] := by
  unfold parseTable
  rw [findRows_no_digit _ _ hh]
  induction ls with
  | nil => rfl
  | cons l ls ih =>
    rw [List.flatMap_cons, findRows_other l (h l List.mem_cons_self) (hu l List.mem_cons_self) _
      (lines_startsDigit ls (fun m hm => h m (List.mem_cons_of_mem _ hm))),
      ih (fun m hm => h m (List.mem_cons_of_mem _ hm)) (fun m hm => hu m (List.mem_cons_of_mem _ hm))]

/-! ### The loop -/

/-- A pass after which the loop goes on: some listed job is not done, none has failed, and the time is not
over. -/
def Undecided (maxS : ℚ) (p : Poll) : Prop :=
  (∃ r ∈ parseTable p.out, r.stat ≠ "DONE".toList) ∧ (∀ r ∈ parseTable p.out, r.stat ≠ "EXIT".toList) ∧
    p.elapsed ≤ maxS

theorem allDone_iff (rows : List Row) : allDone rows = true ↔ ∀ r ∈ rows, r.stat = "DONE".toList := by
  simp [allDone]

theorem statCount_pos (st : Str) (rows : List Row) : 0 < statCount st rows ↔ ∃ r ∈ rows, r.stat = st := by
  unfold statCount
  rw [List.length_pos_iff_exists_mem]
  simp [List.mem_filter]

theorem wait_undecided {maxS : ℚ} {p : Poll} (h : Undecided maxS p) (ps : List Poll) :
    waitLoop maxS (p :: ps) = waitLoop maxS ps := by
  obtain ⟨⟨r, hr, hd⟩, he, ht⟩ := h
  rw [waitLoop, if_neg, if_neg, if_neg (not_lt.mpr ht)]
  · rw [statCount_pos]
    rintro ⟨r', hr', e⟩
    exact he r' hr' e
  · rw [allDone_iff]
    exact fun h => hd (h r hr)

theorem wait_prefix {maxS : ℚ} (pre : List Poll) (h : ∀ p ∈ pre, Undecided maxS p) (ps : List Poll) :
    waitLoop maxS (pre ++ ps) = waitLoop maxS ps := by
  induction pre with
  | nil => rfl
  | cons p pre ih =>
    rw [List.cons_append, wait_undecided (h p List.mem_cons_self),
      ih (fun q hq => h q (List.mem_cons_of_mem _ hq))]

/-- What a deciding pass makes of the wait. -/
def Decides (maxS : ℚ) (p : Poll) : Outcome → Prop
  | .done => ∀ r ∈ parseTable p.out, r.stat = "DONE".toList
  | .raised n => n = ((parseTable p.out).filter (fun r => decide (r.stat = "EXIT".toList))).length ∧ 0 < n
  | .timeout => (∃ r ∈ parseTable p.out, r.stat ≠ "DONE".toList) ∧
      (∀ r ∈ parseTable p.out, r.stat ≠ "EXIT".toList) ∧ maxS < p.elapsed
  | .pending => False
  | .noJobs => False

theorem decide_cases (maxS : ℚ) (p : Poll) (ps : List Poll) :
    (Undecided maxS p ∧ waitLoop maxS (p :: ps) = waitLoop maxS ps) ∨
    (¬ Undecided maxS p ∧ Decides maxS p (waitLoop maxS (p :: ps))) := by
  by_cases h1 : allDone (parseTable p.out) = true
  · right
    have h1' := (allDone_iff _).mp h1
    refine ⟨fun ⟨⟨r, hr, hd⟩, _⟩ => hd (h1' r hr), ?_⟩
    rw [waitLoop, if_pos h1]
    exact h1'
  · have h1' : ∃ r ∈ parseTable p.out, r.stat ≠ "DONE".toList := by
      by_contra hc
      push Not at hc
      exact h1 ((allDone_iff _).mpr hc)
    by_cases h2 : 0 < statCount "EXIT".toList (parseTable p.out)
    · right
      obtain ⟨r, hr, he⟩ := (statCount_pos _ _).mp h2
      refine ⟨fun h => h.2.1 r hr he, ?_⟩
      rw [waitLoop, if_neg h1, if_pos h2]
      exact ⟨rfl, h2⟩
    · have h2' : ∀ r ∈ parseTable p.out, r.stat ≠ "EXIT".toList := fun r hr he =>
        h2 ((statCount_pos _ _).mpr ⟨r, hr, he⟩)
      by_cases h3 : maxS < p.elapsed
      · right
        refine ⟨fun h => absurd h.2.2 (not_le.mpr h3), ?_⟩
        rw [waitLoop, if_neg h1, if_neg h2, if_pos h3]
        exact ⟨h1', h2', h3⟩
      · left
        have hu : Undecided maxS p := ⟨h1', h2', not_lt.mp h3⟩
        exact ⟨hu, wait_undecided hu ps⟩

/-- C30. How the wait ends: at the first pass that is not undecided, by returning if every listed job is done,
otherwise by raising with the number of failed jobs if there are any, otherwise because the time is over. -/
theorem wait_spec {ids : List Str} (hids : ids ≠ []) (maxH : ℚ) (polls : List Poll) :
    (waitForJobs ids maxH polls = .pending ∧ ∀ p ∈ polls, Undecided (maxH * 3600) p) ∨
    ∃ pre p post, polls = pre ++ p :: post ∧ (∀ q ∈ pre, Undecided (maxH * 3600) q) ∧
      ¬ Undecided (maxH * 3600) p ∧ Decides (maxH * 3600) p (waitForJobs ids maxH polls) := by
  unfold waitForJobs
  rw [if_neg hids]
  induction polls with
  | nil => left; exact ⟨rfl, by simp⟩
  | cons p ps ih =>
    rcases decide_cases (maxH * 3600) p ps with ⟨hu, e⟩ | ⟨hu, hd⟩
    · rw [e]
      rcases ih with ⟨h1, h2⟩ | ⟨pre, q, post, h1, h2, h3, h4⟩
      · left
        exact ⟨h1, by simpa using ⟨hu, h2⟩⟩
      · right
        exact ⟨p :: pre, q, post, by rw [h1]; rfl, by simpa using ⟨hu, h2⟩, h3, h4⟩
    · right
      exact ⟨[], p, ps, rfl, by simp, hu, hd⟩

/-- C30. A failure listed while the wait goes on raises, with the number of failed jobs: also if other jobs are
still running, and if the time is over. -/
theorem failure_raises {ids : List Str} (hids : ids ≠ []) (maxH : ℚ) (pre post : List Poll)
    (hpre : ∀ q ∈ pre, Undecided (maxH * 3600) q) (p : Poll)
    (hp : ∃ r ∈ parseTable p.out, r.stat = "EXIT".toList) :
    waitForJobs ids maxH (pre ++ p :: post) = .raised
      ((parseTable p.out).filter (fun r => decide (r.stat = "EXIT".toList))).length := by
  unfold waitForJobs
  obtain ⟨r, hr, he⟩ := hp
  rw [if_neg hids, wait_prefix pre hpre, waitLoop, if_neg, if_pos ((statCount_pos _ _).mpr ⟨r, hr, he⟩)]
  · rfl
  · rw [allDone_iff]
    intro h
    have := h r hr
    rw [he] at this
    exact absurd this (by decide)

/-- C30 (partial). If every answer of the scheduler lists every submitted job, and the wait returns because the
jobs are finished, then at that moment each of them was listed as done.
Missing: answers that do not list a job, and the return at the end of the maximum time; see `returns_early`,
`returns_at_timeout` and `other_users_ignored`. -/
theorem done_partial {ids : List Str} {maxH : ℚ} {polls : List Poll}
    (hlist : ∀ p ∈ polls, ∀ j ∈ ids, ∃ r ∈ parseTable p.out, r.id = j)
    (h : waitForJobs ids maxH polls = .done) :
    ∃ p ∈ polls, ∀ j ∈ ids, ∃ r ∈ parseTable p.out, r.id = j ∧ r.stat = "DONE".toList := by
  by_cases hids : ids = []
  · unfold waitForJobs at h
    rw [if_pos hids] at h
    exact absurd h (by decide)
  · rcases wait_spec hids maxH polls with ⟨e, _⟩ | ⟨pre, p, post, e, _, _, hd⟩
    · rw [h] at e; exact absurd e (by decide)
    · rw [h] at hd
      have hp : p ∈ polls := by rw [e]; simp
      refine ⟨p, hp, fun j hj => ?_⟩
      obtain ⟨r, hr, hrj⟩ := hlist p hp j hj
      exact ⟨r, hr, hrj, hd r hr⟩

/-- C30. If the clock passes the maximum time, the wait ends. -/
theorem wait_ends (ids : List Str) (maxH : ℚ) (polls : Nat → Poll)
    (hclock : ∃ n, maxH * 3600 < (polls n).elapsed) :
    ∃ n, waitForJobs ids maxH ((List.range n).map polls) ≠ .pending := by
  obtain ⟨n, hn⟩ := hclock
  refine ⟨n + 1, fun h => ?_⟩
  by_cases hids : ids = []
  · unfold waitForJobs at h
    rw [if_pos hids] at h
    exact absurd h (by decide)
  · rcases wait_spec hids maxH ((List.range (n + 1)).map polls) with ⟨_, hu⟩ | ⟨_, p, _, _, _, _, hd⟩
    · have := (hu (polls n) (List.mem_map_of_mem (List.mem_range.mpr (by omega)))).2.2
      exact absurd this (not_le.mpr hn)
    · rw [h] at hd; exact hd

/-- C30 is false: the wait returns as if the jobs were finished when the scheduler prints nothing. -/
theorem returns_early (ids : List Str) (hids : ids ≠ []) (maxH : ℚ) (t : ℚ) (ps : List Poll) :
    waitForJobs ids maxH (⟨[], t⟩ :: ps) = .done := by
  unfold waitForJobs
  rw [if_neg hids]
  rfl

/-- C30 is false: when the maximum time has passed the wait returns although a job is still running. -/
theorem returns_at_timeout : ∃ p : Poll, parseTable p.out = [⟨"7".toList, "luca".toList, "RUN".toList⟩] ∧
    waitForJobs ["7".toList] 3 [p] = .timeout :=
  ⟨⟨"7 luca RUN q
".toList, 10801⟩, by decide +kernel, by decide +kernel⟩

/-- C30 is false: if the user name has a digit or an upper case letter, the wait returns as if the jobs were
finished whatever their status is. -/
theorem other_users_ignored {ids : List Str} (hids : ids ≠ []) (maxH : ℚ) (header : Str)
    (hh : ∀ c ∈ header, isDigit c = false) (ls : List Line) (h : ∀ l ∈ ls, l.Printed)
    (hu : ∀ l ∈ ls, l.OtherUser) (t : ℚ) (ps : List Poll) :
    waitForJobs ids maxH (⟨header ++ ls.flatMap Line.text, t⟩ :: ps) = .done := by
  unfold waitForJobs
  rw [if_neg hids, waitLoop, parse_table_other header hh ls h hu]
  rfl

/-- Another defect: a number at the end of the host name, before a job name in lower case, is read as a
job of its own, so the wait does not see that the only job is done. -/
theorem host_number_is_a_job :
    parseTable "7 luca DONE medium ui01 wn12 seyfert Nov 16 10:33
".toList =
      [⟨"7".toList, "luca".toList, "DONE".toList⟩, ⟨"12".toList, "seyfert".toList, "N".toList⟩] ∧
    waitForJobs ["7".toList] 3 [⟨"7 luca DONE medium ui01 wn12 seyfert Nov 16 10:33
".toList, 31⟩] =
      .pending := by
  decide +kernel

/-! ### Counting down -/

theorem countDown_nat (n : Nat) : countDown (n + 1) (n : ℚ) = some n := by
  induction n with
  | zero => simp [countDown]
  | succ n ih =>
    rw [countDown, if_neg (by positivity)]
    rw [show ((n + 1 : ℕ) : ℚ) - 1 = (n : ℚ) by push_cast; ring, ih]
    rfl

/-- The pause between two checks ends exactly if the number of seconds is a natural number, and then it has
that many sleeps. -/
theorem countDown_iff (t : ℚ) (n : Nat) : (∃ fuel, countDown fuel t = some n) ↔ t = n := by
  constructor
  · rintro ⟨fuel, h⟩
    induction fuel generalizing t n with
    | zero => simp [countDown] at h
    | succ fuel ih =>
      rw [countDown] at h
      split at h
      · rename_i h0
        simp at h
        subst h
        simpa using h0
      · obtain ⟨m, hm, e⟩ := Option.map_eq_some_iff.mp h
        have := ih _ _ hm
        subst e
        push_cast
        linarith
  · rintro rfl
    exact ⟨n + 1, countDown_nat n⟩

/-! ### Job numbers -/

theorem jobLit : "Job <".toList = ['J', 'o', 'b', ' ', '<'] := by decide

/-- The number of a submitted job is the one announced, if the text before the announcement has no `J`. -/
theorem getJobID_spec (pre d post : Str) (hpre : 'J' ∉ pre) (hd : d ≠ [] ∧ ∀ c ∈ d, isDigit c = true) :
    getJobID (pre ++ ("Job <".toList ++ (d ++ ("> is submitted to".toList ++ post)))) = some d := by
  induction pre with
  | nil =>
    have e := span_all isDigit d hd.2 ("> is submitted to".toList ++ post) (by
      intro c hc
      have : c = '>' := by
        have h : "> is submitted to".toList = '>' :: " is submitted to".toList := by decide
        rw [h] at hc
        simpa using hc.symm
      subst this
      decide)
    have hm : matchJobId ("Job <".toList ++ (d ++ ("> is submitted to".toList ++ post))) = some d := by
      unfold matchJobId
      rw [stripPrefix_append]
      simp only [Option.bind_some]
      rw [e]
      simp only
      rw [if_neg hd.1, stripPrefix_append]
      rfl
    rw [jobLit] at hm ⊢
    simp only [List.nil_append, List.cons_append] at hm ⊢
    rw [getJobID, hm]
    rfl
  | cons c pre ih =>
    have hc : c ≠ 'J' := fun e => hpre (by rw [e]; exact List.mem_cons_self)
    rw [List.cons_append, getJobID, ih (fun h => hpre (List.mem_cons_of_mem _ h))]
    have : matchJobId (c :: (pre ++ ("Job <".toList ++ (d ++ ("> is submitted to".toList ++ post))))) = none := by
      unfold matchJobId
      rw [jobLit]
      simp only [stripPrefix]
      rw [if_neg (fun e => hc e.symm)]
      rfl
    rw [this]
    rfl

/-! ### Cases meeting the hypotheses -/

def exampleLine (user stat : Str) : Line :=
  ⟨⟨"4711".toList, user, stat⟩, "    ".toList, "  ".toList,
    "  medium     ui01.farm  16*wn12.farm *run.py --x 2020 Nov 16 10:33
".toList⟩

example : (exampleLine "luca".toList "DONE".toList).Printed :=
  ⟨⟨by decide, by decide⟩, ⟨by decide, by decide⟩, ⟨by decide, by decide⟩, ⟨by decide, by decide⟩,
    ⟨by decide +kernel, by decide +kernel, by decide⟩⟩

example : (exampleLine "user01".toList "RUN".toList).Printed :=
  ⟨⟨by decide, by decide⟩, ⟨by decide, by decide⟩, ⟨by decide, by decide⟩, ⟨by decide, by decide⟩,
    ⟨by decide +kernel, by decide +kernel, by decide⟩⟩

example : (exampleLine "luca".toList "DONE".toList).LowerUser ∧
    (exampleLine "user01".toList "DONE".toList).OtherUser := by
  refine ⟨⟨by decide, by decide⟩, ⟨by decide, '0', by decide, by decide⟩⟩

example : waitForJobs ["4711".toList] 3 [⟨"4711 luca PEND q
".toList, 31⟩, ⟨"4711 luca RUN q
".toList, 62⟩,
    ⟨"4711 luca DONE q
".toList, 93⟩] = .done ∧
  waitForJobs ["4711".toList] 3 [⟨"4711 luca PEND q
".toList, 31⟩, ⟨"4711 luca EXIT q
".toList, 62⟩,
    ⟨"4711 luca DONE q
".toList, 93⟩] = .raised 1 := by decide +kernel

end Seyfert.Batch
