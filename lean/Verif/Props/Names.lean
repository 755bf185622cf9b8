import Verif.Lemmas.Names
import Mathlib.Tactic.Linarith
import Mathlib.Tactic.NormNum

/-!
C27: job directory names.  C33: run identifiers.  C43: durations.
-/

set_option linter.unusedSectionVars false

namespace Seyfert.Names

/-- A parameter name as the pipeline expects it: letters and digits, at least one. -/
def GoodName (d : Str) : Prop := d ≠ [] ∧ ∀ c ∈ d, isAlnum c = true

/-- First decimal digit. -/
def firstDigit (n : Nat) : Nat := digitVal ((decStr n).headD '0')

theorem step_lit : "_step_".toList = ['_', 's', 't', 'e', 'p', '_'] := by decide
theorem step0_lit : "_step".toList = ['_', 's', 't', 'e', 'p'] := by decide
theorem m_lit : "m_".toList = ['m', '_'] := by decide
theorem p_lit : "p_".toList = ['p', '_'] := by decide
theorem zero_lit : "0".toList = ['0'] := by decide
theorem under_lit : "__".toList = ['_', '_'] := by decide

theorem matchJobDir_of (d : Str) (hd : GoodName d) (t : Str) :
    matchJobDir ("dvar_".toList ++ d ++ "_step".toList ++ t)
      = stepAfter d (signs none t).1 (signs none t).2 := by
  unfold matchJobDir
  have e1 : stripPrefix "dvar_".toList ("dvar_".toList ++ d ++ "_step".toList ++ t)
      = some (d ++ ("_step".toList ++ t)) := by
    rw [List.append_assoc, List.append_assoc]; exact stripPrefix_append _ _
  rw [e1, Option.bind_some]
  have e2 : spanChars isAlnum (d ++ ("_step".toList ++ t)) = (d, "_step".toList ++ t) := by
    rw [step0_lit]
    exact spanChars_stop isAlnum d '_' _ hd.2 (by decide)
  rw [e2]
  simp only
  rw [if_neg hd.1, stripPrefix_append, Option.bind_some]

theorem parse_first {s : Str} {r : Str × Int} (h : matchJobDir s = some r) : parseJobDir s = some r := by
  cases s with
  | nil => exact h
  | cons c s => unfold parseJobDir; rw [h]; rfl

theorem jobDir_split (d : Str) (s : Int) :
    jobDir d s = "dvar_".toList ++ d ++ "_step".toList ++ ('_' :: stepStr s) := by
  unfold jobDir
  rw [step_lit, step0_lit]
  simp

theorem digit_not_sign {c : Char} (h : isDigit c = true) : ¬ (c = 'p' ∨ c = 'm') := by
  rintro (rfl | rfl) <;> exact absurd h (by decide)

/-- What the name of a job directory is read as, for every step: the parameter, and the sign and first digit
of the step. -/
theorem parse_jobDir (d : Str) (hd : GoodName d) (s : Int) :
    parseJobDir (jobDir d s) = some (d, s.sign * firstDigit s.natAbs) := by
  apply parse_first
  rw [jobDir_split, matchJobDir_of d hd]
  obtain ⟨c, r, hcr⟩ := List.exists_cons_of_ne_nil (decStr_ne_nil s.natAbs)
  have hc : isDigit c = true := decStr_digits s.natAbs c (by rw [hcr]; exact List.mem_cons_self)
  have hf : firstDigit s.natAbs = digitVal c := by unfold firstDigit; rw [hcr]; rfl
  have hns := digit_not_sign hc
  rcases lt_trichotomy s 0 with h | h | h
  · have e : stepStr s = 'm' :: '_' :: c :: r := by
      unfold stepStr
      rw [if_neg h.ne, if_pos h, m_lit, hcr]; rfl
    rw [e]
    have es : signs none ('_' :: 'm' :: '_' :: c :: r) = (some 'm', '_' :: c :: r) := by
      rw [signs, if_pos (Or.inr rfl), signs, if_neg hns]
    rw [es, stepAfter, if_pos hc, if_pos rfl, hf, Int.sign_eq_neg_one_of_neg h]
    simp
  · subst h
    have e : stepStr 0 = ['0'] := by decide
    rw [e]
    have es : signs none ['_', '0'] = (none, ['_', '0']) := by decide
    rw [es, stepAfter, if_pos (by decide), if_neg (by simp)]
    simp [digitVal]
  · have e : stepStr s = 'p' :: '_' :: c :: r := by
      unfold stepStr
      rw [if_neg h.ne', if_neg (by omega), p_lit, hcr]; rfl
    rw [e]
    have es : signs none ('_' :: 'p' :: '_' :: c :: r) = (some 'p', '_' :: c :: r) := by
      rw [signs, if_pos (Or.inl rfl), signs, if_neg hns]
    rw [es, stepAfter, if_pos hc, if_neg (by simp), hf, Int.sign_eq_one_of_pos h]
    simp

theorem firstDigit_small {n : Nat} (h : n < 10) : firstDigit n = n := by
  unfold firstDigit
  rw [decStr_small h]
  exact digitVal_digitChar h

/-- C27 (partial). The name of a job directory is read back as the parameter and the signed step, for names of
letters and digits and steps below ten. Missing: larger steps, see `large_step_misread`. -/
theorem jobDir_roundtrip_partial (d : Str) (hd : GoodName d) (s : Int) (hs : s.natAbs < 10) :
    parseJobDir (jobDir d s) = some (d, s) := by
  rw [parse_jobDir d hd, firstDigit_small hs]
  congr 2
  exact Int.sign_mul_natAbs s

theorem append_digits_inj {x y a b : Str} (ha : ∀ c ∈ a, isDigit c = true) (hb : ∀ c ∈ b, isDigit c = true)
    (hx : x.getLast? = some '_') (hy : y.getLast? = some '_') (h : x ++ a = y ++ b) : x = y ∧ a = b := by
  have key : ∀ (x y a b : Str), (∀ c ∈ a, isDigit c = true) → y.getLast? = some '_' →
      (∃ as, y = x ++ as ∧ a = as ++ b) → x = y ∧ a = b := by
    rintro x y a b ha hy ⟨as, rfl, rfl⟩
    by_cases has : as = []
    · subst has; simp
    · rw [List.getLast?_append_of_ne_nil _ has] at hy
      have hm : '_' ∈ as := List.mem_of_getLast? hy
      exact absurd (ha '_' (List.mem_append_left _ hm)) (by decide)
  rcases List.append_eq_append_iff.mp h with ⟨as, h1, h2⟩ | ⟨bs, h1, h2⟩
  · exact key x y a b ha hy ⟨as, h1, h2⟩
  · obtain ⟨e1, e2⟩ := key y x b a hb hx ⟨bs, h1, h2⟩
    exact ⟨e1.symm, e2.symm⟩

/-- The part of a directory name before the number. -/
def stem' (d : Str) (s : Int) : Str :=
  "dvar_".toList ++ d ++ ['_', 's', 't', 'e', 'p', '_'] ++
    (if s = 0 then [] else if s < 0 then ['m', '_'] else ['p', '_'])

theorem jobDir_eq (d : Str) (s : Int) : jobDir d s = stem' d s ++ decStr s.natAbs := by
  unfold jobDir stem' stepStr
  rw [step_lit, m_lit, p_lit, zero_lit]
  by_cases h : s = 0
  · subst h; simp [decStr_small, digitChar]
  · by_cases hn : s < 0
    · simp [h, hn]
    · simp [h, hn]

/-- C27. Different variations use different directories: the name determines the parameter and the step, for
every parameter name whatsoever and every step. -/
theorem jobDir_injective {d d' : Str} {s s' : Int} (h : jobDir d s = jobDir d' s') : d = d' ∧ s = s' := by
  rw [jobDir_eq, jobDir_eq] at h
  have hlast : ∀ d s, (stem' d s).getLast? = some '_' := by
    intro d s
    unfold stem'
    by_cases h0 : s = 0
    · rw [if_pos h0, List.append_nil, List.getLast?_append_of_ne_nil _ (by simp)]; rfl
    · rw [if_neg h0, List.getLast?_append_of_ne_nil]
      · split <;> rfl
      · split <;> simp
  obtain ⟨h1, h2⟩ := append_digits_inj (decStr_digits _) (decStr_digits _) (hlast d s) (hlast d' s') h
  have hnat : s.natAbs = s'.natAbs := decStr_inj h2
  have hrev := congrArg List.reverse h1
  unfold stem' at hrev
  rcases lt_trichotomy s 0 with hs | hs | hs
  · have hs0 : s ≠ 0 := hs.ne
    rcases lt_trichotomy s' 0 with hs' | hs' | hs'
    · have hs0' : s' ≠ 0 := hs'.ne
      simp [hs0, hs, hs0', hs'] at hrev
      exact ⟨hrev, by omega⟩
    · omega
    · exfalso
      have hs0' : s' ≠ 0 := hs'.ne'
      have hn' : ¬ s' < 0 := by omega
      simp [hs0, hs, hs0', hn'] at hrev
  · have hs' : s' = 0 := by omega
    simp [hs, hs'] at hrev
    exact ⟨hrev, by omega⟩
  · have hs0 : s ≠ 0 := hs.ne'
    have hn : ¬ s < 0 := by omega
    rcases lt_trichotomy s' 0 with hs' | hs' | hs'
    · exfalso
      have hs0' : s' ≠ 0 := hs'.ne
      simp [hs0, hn, hs0', hs'] at hrev
    · omega
    · have hs0' : s' ≠ 0 := hs'.ne'
      have hn' : ¬ s' < 0 := by omega
      simp [hs0, hn, hs0', hn'] at hrev
      exact ⟨hrev, by omega⟩

/-- C27 is false for steps from ten on: step 10 is read as step 1, step -25 as step -2, and so on. -/
theorem large_step_misread (d : Str) (hd : GoodName d) {s : Int} (hs : 10 ≤ s.natAbs) :
    ∃ t : Int, parseJobDir (jobDir d s) = some (d, t) ∧ t.natAbs < 10 ∧ t ≠ s := by
  refine ⟨_, parse_jobDir d hd s, ?_, ?_⟩
  all_goals
    have hlt : firstDigit s.natAbs < 10 := by
      unfold firstDigit
      obtain ⟨c, r, hcr⟩ := List.exists_cons_of_ne_nil (decStr_ne_nil s.natAbs)
      rw [hcr]
      exact digitVal_lt (decStr_digits s.natAbs c (by rw [hcr]; exact List.mem_cons_self))
    have habs : (s.sign * (firstDigit s.natAbs : Int)).natAbs = firstDigit s.natAbs := by
      rw [Int.natAbs_mul, Int.natAbs_sign_of_ne_zero (by omega)]
      simp
  · omega
  · intro e
    have := congrArg Int.natAbs e
    omega

/-- A name with an underscore cannot be read back (the exception). -/
example : parseJobDir (jobDir "a_b".toList 1) = none := by decide +kernel

/-- C27. Fisher job directories: the name gives back the two parameters. -/
theorem fisherDir_roundtrip (a b : Str) (ha : GoodName a) (hb : GoodName b) :
    parseFisherDir (fisherDir a b) = some (a, b) := by
  unfold parseFisherDir fisherDir
  have e1 : spanChars isAlnum (a ++ "__".toList ++ b) = (a, "__".toList ++ b) := by
    rw [List.append_assoc, under_lit]
    exact spanChars_stop isAlnum a '_' _ ha.2 (by decide)
  rw [e1]
  simp only
  rw [if_neg ha.1, stripPrefix_append, Option.bind_some, spanChars_all isAlnum b hb.2]
  simp only
  rw [if_neg hb.1]

example : GoodName "Omm".toList := ⟨by decide, by decide⟩
example : parseJobDir (jobDir "Omm".toList (-3)) = some ("Omm".toList, -3) :=
  jobDir_roundtrip_partial _ ⟨by decide, by decide⟩ _ (by decide)

/-! ### Run identifiers -/

/-- A version of the documented form: three digits with dots, possibly followed by `dev`. -/
def Version (v : Str) : Prop :=
  ∃ a b c : Char, isDigit a = true ∧ isDigit b = true ∧ isDigit c = true ∧
    (v = [a, '.', b, '.', c] ∨ v = [a, '.', b, '.', c, 'd', 'e', 'v'])

theorem matchPat_version (v : Str) : matchPat versionPat v = true ↔
    ∃ a b c : Char, isDigit a = true ∧ isDigit b = true ∧ isDigit c = true ∧ v = [a, '.', b, '.', c] := by
  constructor
  · intro h
    have hl := matchPat_length _ _ h
    match v, hl with
    | [a, d, b, e, c], _ =>
      simp only [versionPat, matchPat, Bool.and_eq_true, decide_eq_true_eq, and_true] at h
      obtain ⟨ha, rfl, hb, rfl, hc⟩ := h
      exact ⟨a, b, c, ha, hb, hc, rfl⟩
  · rintro ⟨a, b, c, ha, hb, hc, rfl⟩
    simp [versionPat, matchPat, ha, hb, hc]

theorem matchPat_versionDev (v : Str) : matchPat versionDevPat v = true ↔
    ∃ a b c : Char, isDigit a = true ∧ isDigit b = true ∧ isDigit c = true ∧
      v = [a, '.', b, '.', c, 'd', 'e', 'v'] := by
  constructor
  · intro h
    have hl := matchPat_length _ _ h
    match v, hl with
    | [a, d, b, e, c, x, y, z], _ =>
      simp only [versionDevPat, versionPat, List.cons_append, List.nil_append, matchPat, Bool.and_eq_true,
        decide_eq_true_eq, and_true] at h
      obtain ⟨ha, rfl, hb, rfl, hc, rfl, rfl, rfl⟩ := h
      exact ⟨a, b, c, ha, hb, hc, rfl⟩
  · rintro ⟨a, b, c, ha, hb, hc, rfl⟩
    simp [versionDevPat, versionPat, matchPat, ha, hb, hc]

theorem matchTail_join {p : List (Option Char)} {a t : Str} (h : matchPat p t = true) :
    matchTail p (a ++ '_' :: t) = some (a, t) := by
  unfold matchTail
  rw [← matchPat_length _ _ h, splitTail_join, Option.bind_some, if_pos h]

theorem matchTail_sound {p : List (Option Char)} {s a t : Str} (h : matchTail p s = some (a, t)) :
    s = a ++ '_' :: t ∧ matchPat p t = true := by
  unfold matchTail at h
  cases hs : splitTail p.length s with
  | none => rw [hs] at h; simp at h
  | some q =>
    rw [hs, Option.bind_some] at h
    split at h
    · next hm =>
      cases h
      exact ⟨(splitTail_sound hs).1, hm⟩
    · cases h

theorem matchVersion (ident v : Str) (hv : Version v) :
    (matchTail versionPat (ident ++ '_' :: v)).or (matchTail versionDevPat (ident ++ '_' :: v))
      = some (ident, v) := by
  obtain ⟨a, b, c, ha, hb, hc, rfl | rfl⟩ := hv
  · rw [matchTail_join ((matchPat_version _).mpr ⟨a, b, c, ha, hb, hc, rfl⟩)]; rfl
  · rw [matchTail_join ((matchPat_versionDev _).mpr ⟨a, b, c, ha, hb, hc, rfl⟩)]
    have hnone : matchTail versionPat (ident ++ '_' :: [a, '.', b, '.', c, 'd', 'e', 'v']) = none := by
      unfold matchTail splitTail
      rw [if_neg, Option.bind_none]
      rintro ⟨_, h⟩
      have hlen : (ident ++ '_' :: [a, '.', b, '.', c, 'd', 'e', 'v']).length = ident.length + 9 := by simp
      rw [hlen, show versionPat.length = 5 from rfl,
        show ident.length + 9 - (5 + 1) = ident.length + 3 by omega,
        List.getElem?_append_right (by omega)] at h
      simp only [Nat.add_sub_cancel_left, List.getElem?_cons_succ, List.getElem?_cons_zero,
        Option.some.injEq] at h
      rw [h] at hb
      exact absurd hb (by decide)
    rw [hnone]; rfl

/-- The fields of a time stamp. -/
theorem stampPat_fields (sep : Char) (s : Str) : matchPat (stampPat sep) s = true ↔
    ∃ y mo d h mi se : Str, s = y ++ '-' :: (mo ++ '-' :: (d ++ 'T' :: (h ++ sep :: (mi ++ sep :: se)))) ∧
      (y.length = 4 ∧ mo.length = 2 ∧ d.length = 2 ∧ h.length = 2 ∧ mi.length = 2 ∧ se.length = 2) ∧
      ∀ f ∈ [y, mo, d, h, mi, se], ∀ c ∈ f, isDigit c = true := by
  have hend : ∀ s : Str, matchPat (dig 2) s = true ↔ s.length = 2 ∧ ∀ c ∈ s, isDigit c = true := by
    intro s
    have := matchPat_dig 2 [] s
    rw [List.append_nil] at this
    rw [this]
    constructor
    · rintro ⟨a, r, rfl, h1, h2, h3⟩
      have hr : r = [] := List.length_eq_zero_iff.mp (matchPat_length _ _ h3)
      subst hr
      simpa using ⟨h1, h2⟩
    · rintro ⟨h1, h2⟩
      exact ⟨s, [], by simp, h1, h2, rfl⟩
  have hpat : stampPat sep = dig 4 ++ (some '-' :: (dig 2 ++ (some '-' :: (dig 2 ++ (some 'T' :: (dig 2 ++
      (some sep :: (dig 2 ++ (some sep :: dig 2))))))))) := by
    simp [stampPat]
  rw [hpat]
  simp only [matchPat_dig, matchPat_lit, hend]
  constructor
  · rintro ⟨y, _, rfl, ly, hy, _, rfl, mo, _, rfl, lmo, hmo, _, rfl, d, _, rfl, ld, hd, _, rfl, h, _, rfl,
      lh, hh, _, rfl, mi, _, rfl, lmi, hmi, se, rfl, lse, hse⟩
    refine ⟨y, mo, d, h, mi, se, rfl, ⟨ly, lmo, ld, lh, lmi, lse⟩, ?_⟩
    simp only [List.mem_cons, List.not_mem_nil, or_false, forall_eq_or_imp, forall_eq]
    exact ⟨hy, hmo, hd, hh, hmi, hse⟩
  · rintro ⟨y, mo, d, h, mi, se, rfl, ⟨ly, lmo, ld, lh, lmi, lse⟩, hf⟩
    simp only [List.mem_cons, List.not_mem_nil, or_false, forall_eq_or_imp, forall_eq] at hf
    obtain ⟨hy, hmo, hd, hh, hmi, hse⟩ := hf
    exact ⟨y, _, rfl, ly, hy, _, rfl, mo, _, rfl, lmo, hmo, _, rfl, d, _, rfl, ld, hd, _, rfl, h, _, rfl,
      lh, hh, _, rfl, mi, _, rfl, lmi, hmi, se, rfl, lse, hse⟩

theorem parseStamp_fields (sep : Char) {y mo d h mi se : Str} (ly : y.length = 4) (lmo : mo.length = 2)
    (ld : d.length = 2) (lh : h.length = 2) (lmi : mi.length = 2) (lse : se.length = 2) :
    parseStamp (y ++ '-' :: (mo ++ '-' :: (d ++ 'T' :: (h ++ sep :: (mi ++ sep :: se))))) =
      if (⟨decVal y, decVal mo, decVal d, decVal h, decVal mi, decVal se⟩ : DateTime).valid then
        some ⟨decVal y, decVal mo, decVal d, decVal h, decVal mi, decVal se⟩ else none := by
  match y, ly with
  | [y1, y2, y3, y4], _ =>
  match mo, lmo with
  | [m1, m2], _ =>
  match d, ld with
  | [d1, d2], _ =>
  match h, lh with
  | [h1, h2], _ =>
  match mi, lmi with
  | [n1, n2], _ =>
  match se, lse with
  | [s1, s2], _ => rfl

/-- C33. Dates are those of the Gregorian calendar, of which 146097 days make 400 years. -/
theorem calendar (y m d : Nat) (h mi s : Nat) (hy : 1 ≤ y ∧ y ≤ 9999) (hm : 1 ≤ m ∧ m ≤ 12) :
    ((⟨y, m, d, h, mi, s⟩ : DateTime).valid = true ↔
      (1 ≤ d ∧ (d ≤ 28 ∨ (d ≤ 30 ∧ m ≠ 2) ∨ (d = 31 ∧ m ∈ [1, 3, 5, 7, 8, 10, 12]) ∨
        (d = 29 ∧ m = 2 ∧ 4 ∣ y ∧ (¬ 100 ∣ y ∨ 400 ∣ y)))) ∧ h ≤ 23 ∧ mi ≤ 59 ∧ s ≤ 59) := by
  unfold DateTime.valid
  rw [decide_eq_true_eq]
  simp only [daysIn, isLeap, decide_eq_true_eq, List.mem_cons, List.not_mem_nil, or_false]
  by_cases h2 : m = 2
  · subst h2
    rw [if_pos rfl]
    have e4 : 4 ∣ y ↔ y % 4 = 0 := Nat.dvd_iff_mod_eq_zero
    have e100 : 100 ∣ y ↔ y % 100 = 0 := Nat.dvd_iff_mod_eq_zero
    have e400 : 400 ∣ y ↔ y % 400 = 0 := Nat.dvd_iff_mod_eq_zero
    rw [e4, e100, e400]
    split <;> constructor <;> intro hh <;> (refine ⟨?_, ?_⟩ <;> omega)
  · rw [if_neg h2]
    split <;> omega

/-- C33. Any 400 years in a row have 97 leap years. -/
theorem leap_count (y : Nat) : ((List.range 400).filter (fun i => isLeap (y + i))).length = 97 := by
  have h0 : ∀ r < 400, ((List.range 400).filter (fun i => isLeap (r + i))).length = 97 := by decide +kernel
  have h1 : ∀ i, isLeap (y + i) = isLeap (y % 400 + i) := by
    intro i
    unfold isLeap
    congr 1
    rw [eq_iff_iff]
    omega
  simp only [h1]
  exact h0 _ (Nat.mod_lt _ (by decide))

theorem valid_bounds {t : DateTime} (h : t.valid = true) : t.year < 10 ^ 4 ∧ t.month < 10 ^ 2 ∧
    t.day < 10 ^ 2 ∧ t.hour < 10 ^ 2 ∧ t.minute < 10 ^ 2 ∧ t.second < 10 ^ 2 := by
  unfold DateTime.valid at h
  rw [decide_eq_true_eq] at h
  have hd : daysIn t.year t.month ≤ 31 := by
    unfold daysIn; split <;> (try split) <;> omega
  omega

/-- C33. Every valid date survives formatting and parsing, with any separator. -/
theorem stamp_roundtrip (sep : Char) {t : DateTime} (h : t.valid = true) :
    matchPat (stampPat sep) (stampStr sep t) = true ∧ parseStamp (stampStr sep t) = some t := by
  obtain ⟨b1, b2, b3, b4, b5, b6⟩ := valid_bounds h
  have e : stampStr sep t = padDec 4 t.year ++ '-' :: (padDec 2 t.month ++ '-' :: (padDec 2 t.day ++ 'T' ::
      (padDec 2 t.hour ++ sep :: (padDec 2 t.minute ++ sep :: padDec 2 t.second)))) := by
    simp [stampStr]
  have l1 := padDec_length (by omega : 0 < 4) b1
  have l2 := padDec_length (by omega : 0 < 2) b2
  have l3 := padDec_length (by omega : 0 < 2) b3
  have l4 := padDec_length (by omega : 0 < 2) b4
  have l5 := padDec_length (by omega : 0 < 2) b5
  have l6 := padDec_length (by omega : 0 < 2) b6
  constructor
  · rw [stampPat_fields]
    refine ⟨_, _, _, _, _, _, e, ⟨l1, l2, l3, l4, l5, l6⟩, ?_⟩
    intro f hf c hc
    simp only [List.mem_cons, List.not_mem_nil, or_false] at hf
    rcases hf with rfl | rfl | rfl | rfl | rfl | rfl <;> exact padDec_digits _ _ c hc
  · rw [e, parseStamp_fields sep l1 l2 l3 l4 l5 l6]
    simp only [decVal_padDec]
    rw [if_pos h]

/-- C33. The name of a run directory is split into the identifier, version and time it was built from, for
every identifier. -/
theorem runId_roundtrip (ident v : Str) (hv : Version v) {t : DateTime} (ht : t.valid = true) :
    splitRunId (runDirName ident v t) = some (ident, some (v, t)) := by
  obtain ⟨h1, h2⟩ := stamp_roundtrip '-' ht
  have e : runDirName ident v t = (ident ++ '_' :: v) ++ '_' :: stampStr '-' t := by
    simp [runDirName]
  unfold splitRunId matchRunId
  rw [e, matchTail_join h1, Option.bind_some, matchVersion ident v hv, Option.map_some]
  simp only
  rw [h2]; rfl

/-- C33. Conversely, if a name is split then it was built from the parts; all other names are returned
unchanged, and the only failure is a well-formed name with an impossible date. -/
theorem splitRunId_sound (s : Str) :
    (∀ name v t, splitRunId s = some (name, some (v, t)) →
      s = runDirName name v t ∧ Version v ∧ t.valid = true) ∧
    (∀ name, splitRunId s = some (name, none) → name = s ∧
      ¬ ∃ ident v, ∃ t : DateTime, Version v ∧ t.valid = true ∧ s = runDirName ident v t) ∧
    (splitRunId s = none → ∃ ident v st, Version v ∧ matchPat (stampPat '-') st = true ∧
      parseStamp st = none ∧ s = ident ++ '_' :: v ++ '_' :: st) := by
  have hm : ∀ name v st, matchRunId s = some (name, v, st) →
      s = name ++ '_' :: v ++ '_' :: st ∧ Version v ∧ matchPat (stampPat '-') st = true := by
    intro name v st h
    unfold matchRunId at h
    obtain ⟨q, hq, h⟩ := Option.bind_eq_some_iff.mp h
    obtain ⟨r, hr, h⟩ := Option.map_eq_some_iff.mp h
    obtain ⟨r1, r2⟩ := r
    obtain ⟨q1, q2⟩ := q
    simp only [Prod.mk.injEq] at h
    obtain ⟨rfl, rfl, rfl⟩ := h
    obtain ⟨hs, hst⟩ := matchTail_sound hq
    rcases Option.or_eq_some_iff.mp hr with hr | ⟨_, hr⟩
    · obtain ⟨h1, h2⟩ := matchTail_sound hr
      obtain ⟨a, b, c, ha, hb, hc, e⟩ := (matchPat_version _).mp h2
      refine ⟨by rw [hs]; simp only at h1 ⊢; rw [h1], ⟨a, b, c, ha, hb, hc, Or.inl e⟩, hst⟩
    · obtain ⟨h1, h2⟩ := matchTail_sound hr
      obtain ⟨a, b, c, ha, hb, hc, e⟩ := (matchPat_versionDev _).mp h2
      refine ⟨by rw [hs]; simp only at h1 ⊢; rw [h1], ⟨a, b, c, ha, hb, hc, Or.inr e⟩, hst⟩
  refine ⟨?_, ?_, ?_⟩
  · intro name v t h
    unfold splitRunId at h
    cases he : matchRunId s with
    | none => rw [he] at h; simp at h
    | some q =>
      obtain ⟨n', v', st⟩ := q
      rw [he] at h
      simp only at h
      obtain ⟨t', ht', h⟩ := Option.map_eq_some_iff.mp h
      simp only [Prod.mk.injEq, Option.some.injEq] at h
      obtain ⟨rfl, rfl, rfl⟩ := h
      obtain ⟨e1, e2, e3⟩ := hm _ _ _ he
      have hst : st = stampStr '-' t' ∧ t'.valid = true := by
        obtain ⟨y, mo, d, ho, mi, se, rfl, ⟨ly, lmo, ld, lh, lmi, lse⟩, hf⟩ := (stampPat_fields _ _).mp e3
        rw [parseStamp_fields _ ly lmo ld lh lmi lse] at ht'
        simp only [List.mem_cons, List.not_mem_nil, or_false, forall_eq_or_imp, forall_eq] at hf
        obtain ⟨hy, hmo, hd, hh, hmi, hse⟩ := hf
        split at ht'
        · next hv =>
          have := Option.some.inj ht'
          subst this
          refine ⟨?_, hv⟩
          simp only [stampStr]
          rw [padDec_decVal 3 y ly hy, padDec_decVal 1 mo lmo hmo, padDec_decVal 1 d ld hd,
            padDec_decVal 1 ho lh hh, padDec_decVal 1 mi lmi hmi, padDec_decVal 1 se lse hse]
          simp
        · cases ht'
      refine ⟨?_, e2, hst.2⟩
      unfold runDirName
      rw [← hst.1]; exact e1
  · intro name h
    have hne : ¬ ∃ ident v, ∃ t : DateTime, Version v ∧ t.valid = true ∧ s = runDirName ident v t := by
      rintro ⟨ident, v, t, hv, ht, rfl⟩
      rw [runId_roundtrip ident v hv ht] at h
      simp at h
    refine ⟨?_, hne⟩
    unfold splitRunId at h
    cases he : matchRunId s with
    | none => rw [he] at h; simp at h; exact h.symm
    | some q =>
      obtain ⟨n', v', st⟩ := q
      rw [he] at h
      simp only at h
      obtain ⟨t', _, h⟩ := Option.map_eq_some_iff.mp h
      simp at h
  · intro h
    unfold splitRunId at h
    cases he : matchRunId s with
    | none => rw [he] at h; simp at h
    | some q =>
      obtain ⟨n', v', st⟩ := q
      rw [he] at h
      simp only at h
      obtain ⟨e1, e2, e3⟩ := hm _ _ _ he
      exact ⟨n', v', st, e2, e3, by simpa using h, e1⟩

example : splitRunId (runDirName "a_1.2.3_b".toList "1.3.8".toList ⟨2021, 2, 28, 23, 59, 1⟩)
    = some ("a_1.2.3_b".toList, some ("1.3.8".toList, ⟨2021, 2, 28, 23, 59, 1⟩)) :=
  runId_roundtrip _ _ ⟨'1', '3', '8', by decide, by decide, by decide, Or.inl (by decide)⟩ (by decide)

/-- A version with a number above nine is not recognised. -/
example : splitRunId (runDirName "a".toList "1.3.10".toList ⟨2021, 2, 28, 23, 59, 1⟩)
    = some (runDirName "a".toList "1.3.10".toList ⟨2021, 2, 28, 23, 59, 1⟩, none) := by decide +kernel

/-! ### Durations -/

/-- Rounding to three decimals: a multiple of one thousandth, at most half of that away. -/
def Round3 (r : ℚ → ℚ) : Prop := ∀ x, (∃ k : ℤ, r x = k / 1000) ∧ |r x - x| ≤ 1 / 2000

/-- C43 (partial). For a nonnegative duration: minutes and seconds are below 60, milliseconds between 0 and
1000, and the parts recompose to the duration up to half a microsecond, exactly if the duration is a whole
number of microseconds. Missing: milliseconds below 1000, see `ms_reach_1000`. -/
theorem timeFormat_partial {r : ℚ → ℚ} (hr : Round3 r) {dt : ℚ} (h0 : 0 ≤ dt) :
    let (h, m, s, ms) := timeFormat r dt
    0 ≤ h ∧ (0 ≤ m ∧ m < 60) ∧ (0 ≤ s ∧ s < 60) ∧ (0 ≤ ms ∧ ms ≤ 1000) ∧ 3600 * h + 60 * m + s = ⌊dt⌋ ∧
    |(3600 * h + 60 * m + s : ℚ) + ms / 1000 - dt| ≤ 1 / 2000000 ∧
    ((∃ k : ℤ, dt = k / 1000000) → (3600 * h + 60 * m + s : ℚ) + ms / 1000 = dt) := by
  simp only [timeFormat]
  have hf : 0 ≤ ⌊dt⌋ := Int.floor_nonneg.mpr h0
  have hlo : (⌊dt⌋ : ℚ) ≤ dt := Int.floor_le dt
  have hhi : dt < ⌊dt⌋ + 1 := Int.lt_floor_add_one dt
  obtain ⟨⟨k, hk⟩, habs⟩ := hr (1000 * (dt - ⌊dt⌋))
  have hsum : 3600 * (⌊dt⌋ / 3600) + 60 * (⌊dt⌋ % 3600 / 60) + ⌊dt⌋ % 3600 % 60 = ⌊dt⌋ := by omega
  have hsumQ : (3600 * ((⌊dt⌋ / 3600 : ℤ) : ℚ) + 60 * ((⌊dt⌋ % 3600 / 60 : ℤ) : ℚ)
      + ((⌊dt⌋ % 3600 % 60 : ℤ) : ℚ)) = (⌊dt⌋ : ℚ) := by exact_mod_cast congrArg (fun z : ℤ => (z : ℚ)) hsum
  rw [abs_le] at habs
  have hk0 : 0 ≤ k := by
    by_contra hneg
    have : (k : ℚ) ≤ -1 := by exact_mod_cast (by omega : k ≤ -1)
    rw [hk] at habs
    linarith [habs.1]
  have hk1 : k ≤ 1000000 := by
    by_contra hbig
    have : (1000001 : ℚ) ≤ k := by exact_mod_cast (by omega : (1000001 : ℤ) ≤ k)
    rw [hk] at habs
    linarith [habs.2]
  refine ⟨by omega, by omega, by omega, ⟨?_, ?_⟩, hsum, ?_, ?_⟩
  · rw [hk]
    have : (0 : ℚ) ≤ k := by exact_mod_cast hk0
    positivity
  · rw [hk]
    have : (k : ℚ) ≤ 1000000 := by exact_mod_cast hk1
    linarith
  · rw [hsumQ, abs_le]
    constructor <;> linarith [habs.1, habs.2]
  · rintro ⟨j, hj⟩
    rw [hsumQ, hk]
    have e : (k : ℚ) = j - 1000000 * ⌊dt⌋ := by
      have e1 : 1000 * (dt - ⌊dt⌋) = ((j - 1000000 * ⌊dt⌋ : ℤ) : ℚ) / 1000 := by
        rw [hj]; push_cast; ring
      rw [hk, e1] at habs
      have hz : k = j - 1000000 * ⌊dt⌋ := by
        have a1 : ((k - (j - 1000000 * ⌊dt⌋) : ℤ) : ℚ) < 1 := by push_cast at habs ⊢; linarith [habs.2]
        have a2 : (-1 : ℚ) < ((k - (j - 1000000 * ⌊dt⌋) : ℤ) : ℚ) := by push_cast at habs ⊢; linarith [habs.1]
        have b1 : k - (j - 1000000 * ⌊dt⌋) < 1 := by exact_mod_cast a1
        have b2 : -1 < k - (j - 1000000 * ⌊dt⌋) := by exact_mod_cast a2
        omega
      rw [hz]; push_cast; ring
    rw [e, hj]; ring

/-- C43 is false as it stands: the milliseconds can be 1000. -/
theorem ms_reach_1000 {r : ℚ → ℚ} (hr : Round3 r) :
    (timeFormat r (9999999 / 10000000)).2.2.2 = 1000 := by
  have hfl : ⌊(9999999 / 10000000 : ℚ)⌋ = 0 := by
    rw [Int.floor_eq_zero_iff]; constructor <;> norm_num
  simp only [timeFormat, hfl]
  obtain ⟨⟨k, hk⟩, habs⟩ := hr (1000 * (9999999 / 10000000 - ((0 : ℤ) : ℚ)))
  rw [hk, abs_le] at habs
  rw [hk]
  norm_num at habs
  have h1 : (k : ℚ) < 1000001 := by linarith [habs.2]
  have h2 : (999999 : ℚ) < k := by linarith [habs.1]
  have h1' : k < 1000001 := by exact_mod_cast h1
  have h2' : 999999 < k := by exact_mod_cast h2
  have : k = 1000000 := by omega
  rw [this]; norm_num

/-- There are such roundings. -/
example : Round3 (fun x => (⌊1000 * x + 1 / 2⌋ : ℚ) / 1000) := by
  intro x
  refine ⟨⟨_, rfl⟩, ?_⟩
  have h1 := Int.floor_le (1000 * x + 1 / 2)
  have h2 := Int.lt_floor_add_one (1000 * x + 1 / 2)
  rw [abs_le]
  constructor <;> linarith

end Seyfert.Names
