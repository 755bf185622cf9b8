import Verif.Spec.Tools
import Verif.Lemmas.PyStr

namespace Seyfert.Tools

theorem takeWhile_span {p : Char → Bool} {a b : Str} (ha : ∀ c ∈ a, p c = true) (hb : ∀ c t, b = c :: t → p c = false) :
    (a ++ b).takeWhile p = a ∧ (a ++ b).dropWhile p = b := by
  rw [List.takeWhile_append_of_pos ha, List.dropWhile_append_of_pos ha]
  cases b with
  | nil => exact ⟨List.append_nil a, rfl⟩
  | cons c t =>
    rw [List.takeWhile_cons, List.dropWhile_cons, hb c t rfl]
    exact ⟨List.append_nil a, rfl⟩

def rstrip (s : Str) : Str := (s.reverse.dropWhile isSpace).reverse

theorem rstrip_spec (s : Str) : ∃ t, s = rstrip s ++ t ∧ ∀ c ∈ t, isSpace c = true := by
  refine ⟨(s.reverse.takeWhile isSpace).reverse, ?_, ?_⟩
  · unfold rstrip
    rw [← List.reverse_append, List.takeWhile_append_dropWhile, List.reverse_reverse]
  · intro c hc
    exact (List.all_eq_true.mp List.all_takeWhile) c (List.mem_reverse.mp hc)

theorem rstrip_append {a : Str} {d : Char} (s : Str) (hd : isSpace d = false) : rstrip (a ++ [d] ++ s) = a ++ [d] ++ rstrip s := by
  unfold rstrip
  rw [List.reverse_append, List.reverse_append, List.dropWhile_append]
  split
  · next h =>
    have h' : s.reverse.dropWhile isSpace = [] := List.isEmpty_iff.mp h
    rw [h']
    show (List.dropWhile isSpace (d :: a.reverse)).reverse = a ++ [d] ++ []
    rw [List.dropWhile_cons, hd, List.append_nil]
    simp
  · rw [List.reverse_append, List.reverse_append, List.reverse_reverse, List.reverse_reverse]

theorem strip_of {c : Char} {t : Str} (h : isSpace c = false) : strip (c :: t) = rstrip (c :: t) := by
  unfold strip rstrip
  rw [List.dropWhile_cons, h]
  rfl

theorem word_blank : ∀ w ∈ runWords, ∀ c ∈ w, isSpace c = false := by decide
theorem word_mark : ∀ w ∈ runWords, '_' ∈ w := by decide
theorem word_ne : ∀ w ∈ runWords, w ≠ [] := by decide

theorem mentions_iff (s : Str) : mentions s = true ↔ ∃ w ∈ runWords, ∃ c, (isSpace c = true ∨ c = '/') ∧ (c :: w) <:+: s := by
  induction s with
  | nil =>
    refine ⟨nofun, ?_⟩
    rintro ⟨w, -, c, -, h⟩
    exact absurd (List.infix_nil.mp h) (by simp)
  | cons d s ih =>
    unfold mentions
    rw [Bool.or_eq_true, Bool.and_eq_true, Bool.or_eq_true, List.any_eq_true, ih]
    constructor
    · rintro (⟨h1, w, hw, h2⟩ | ⟨w, hw, c, hc, h⟩)
      · obtain ⟨u, hu⟩ := List.isPrefixOf_iff_prefix.mp h2
        exact ⟨w, hw, d, h1.imp id of_decide_eq_true, [], u, by rw [← hu]; rfl⟩
      · exact ⟨w, hw, c, hc, h.trans (List.suffix_cons d s).isInfix⟩
    · rintro ⟨w, hw, c, hc, y, z, h⟩
      cases y with
      | nil =>
        rw [List.nil_append, List.cons_append] at h
        injection h with e1 e2
        subst e1
        exact .inl ⟨hc.imp id decide_eq_true, w, hw, List.isPrefixOf_iff_prefix.mpr ⟨z, e2⟩⟩
      | cons y0 y =>
        rw [List.cons_append, List.cons_append] at h
        injection h with _ e2
        exact .inr ⟨w, hw, c, hc, y, z, e2⟩

theorem mentions_blank {x t : Str} (ht : ∀ c ∈ t, isSpace c = true) : mentions (x ++ t) = mentions x := by
  rw [Bool.eq_iff_iff, mentions_iff, mentions_iff]
  constructor
  · rintro ⟨w, hw, c, hc, y, z, h⟩
    refine ⟨w, hw, c, hc, ?_⟩
    rcases List.append_eq_append_iff.mp h with ⟨a, h1, h2⟩ | ⟨a, h1, h2⟩
    · exact ⟨y, a, h1.symm⟩
    · obtain ⟨w', e, hwe⟩ : ∃ w' e, w = w' ++ [e] := ⟨w.dropLast, w.getLast (word_ne w hw), (List.dropLast_append_getLast _).symm⟩
      rcases List.eq_nil_or_concat a with ha | ⟨a', f, ha⟩
      · subst ha
        rw [List.append_nil] at h1
        exact ⟨y, [], by rw [List.append_nil, h1]⟩
      · exfalso
        rw [List.concat_eq_append] at ha
        subst ha
        have h3 : (y ++ c :: w') ++ [e] = (x ++ a') ++ [f] := by
          rw [List.append_assoc, List.append_assoc, ← h1, hwe]
          rfl
        have h4 := (List.append_inj' h3 rfl).2
        injection h4 with h4
        have h5 := word_blank w hw e (hwe ▸ List.mem_append.mpr (.inr List.mem_cons_self))
        rw [h4, ht f (h2 ▸ List.mem_append.mpr (.inl (List.mem_append.mpr (.inr List.mem_cons_self))))] at h5
        cases h5
  · rintro ⟨w, hw, c, hc, h⟩
    exact ⟨w, hw, c, hc, h.trans (List.prefix_append x t).isInfix⟩

theorem mentions_skip {a : Str} (ha : '_' ∉ a) {k : Char} (hk : ∀ w ∈ runWords, k ∉ w) (cmd : Str) :
    mentions (a ++ k :: cmd) = mentions (k :: cmd) := by
  induction a with
  | nil => rfl
  | cons d a ih =>
    have ih := ih fun h => ha (List.mem_cons_of_mem _ h)
    rw [List.cons_append]
    conv => lhs; unfold mentions
    have : runWords.any (fun w => w.isPrefixOf (a ++ k :: cmd)) = false := by
      rw [List.any_eq_false]
      intro w hw h
      obtain ⟨u, hu⟩ := List.isPrefixOf_iff_prefix.mp h
      rcases List.append_eq_append_iff.mp hu with ⟨b, h1, h2⟩ | ⟨b, h1, h2⟩
      · exact ha (List.mem_cons_of_mem _ (h1 ▸ List.mem_append.mpr (.inl (word_mark w hw))))
      · cases b with
        | nil =>
          rw [List.append_nil] at h1
          exact ha (List.mem_cons_of_mem _ (h1 ▸ word_mark w hw))
        | cons b0 b =>
          rw [List.cons_append] at h2
          injection h2 with e _
          exact hk w hw (by rw [h1, e]; exact List.mem_append.mpr (.inr List.mem_cons_self))
    rw [this, Bool.and_false, Bool.false_or, ih]

theorem mentions_named (cmd : Str) : mentions (' ' :: cmd) = true ↔ Named cmd := by
  conv => lhs; unfold mentions
  rw [Bool.or_eq_true, Bool.and_eq_true, List.any_eq_true, mentions_iff]
  constructor
  · rintro (⟨-, w, hw, h⟩ | ⟨w, hw, c, hc, h⟩)
    · exact ⟨w, hw, .inl (List.isPrefixOf_iff_prefix.mp h)⟩
    · exact ⟨w, hw, .inr ⟨c, hc, h⟩⟩
  · rintro ⟨w, hw, h | ⟨c, hc, h⟩⟩
    · exact .inl ⟨by decide, w, hw, List.isPrefixOf_iff_prefix.mpr h⟩
    · exact .inr ⟨w, hw, c, hc, h⟩

instance (cmd : Str) : Decidable (Named cmd) := decidable_of_iff _ (mentions_named cmd)
instance (user : Str) : Decidable (Short user) := inferInstanceAs (Decidable (_ ∧ _))

theorem isLetter_not_space {c : Char} (h : isLetter c = true) : isSpace c = false := by
  cases hs : isSpace c with
  | false => rfl
  | true =>
    exfalso
    simp only [isLetter, isLower, isUpper, isSpace, Bool.or_eq_true, Bool.and_eq_true, decide_eq_true_eq] at h hs
    have e1 : 'a'.toNat = 97 := rfl
    have e2 : 'A'.toNat = 65 := rfl
    rcases hs with ((((rfl | rfl) | rfl) | rfl) | hs) | hs
    · exact absurd h (by decide)
    · exact absurd h (by decide)
    · exact absurd h (by decide)
    · exact absurd h (by decide)
    · omega
    · omega

theorem isDigit_not_space {c : Char} (h : isDigit c = true) : isSpace c = false := by
  cases hs : isSpace c with
  | false => rfl
  | true =>
    exfalso
    simp only [isDigit, isSpace, Bool.or_eq_true, Bool.and_eq_true, decide_eq_true_eq] at h hs
    have e1 : '0'.toNat = 48 := rfl
    rcases hs with ((((rfl | rfl) | rfl) | rfl) | hs) | hs
    · exact absurd h (by decide)
    · exact absurd h (by decide)
    · exact absurd h (by decide)
    · exact absurd h (by decide)
    · omega
    · omega

theorem shown_letters (user : Str) : (∀ c ∈ shown user, isLetter c = true) ↔ Short user := by
  unfold shown Short
  split
  · next hl => exact ⟨fun h => ⟨hl, h⟩, fun h => h.2⟩
  · next hl =>
    refine ⟨fun h => absurd (h '+' (List.mem_append.mpr (.inr List.mem_cons_self))) (by decide), fun h => absurd h.1 hl⟩

theorem shown_ne {user : Str} (h : user ≠ []) : shown user ≠ [] := by
  unfold shown
  split
  · exact h
  · exact fun e => absurd (List.append_eq_nil_iff.mp e).2 (by decide)

theorem shown_word {user : Str} (h : ∀ c ∈ user, isSpace c = false) : ∀ c ∈ shown user, isSpace c = false := by
  unfold shown
  split
  · exact h
  · intro c hc
    rcases List.mem_append.mp hc with hc | hc
    · exact h c (List.mem_of_mem_take hc)
    · rcases List.mem_singleton.mp hc with rfl
      decide

/-- The match of a line, for lines of any first column. -/
theorem match_line {u pad pid x : Str} (hu : u ≠ []) (hw : ∀ c ∈ u, isSpace c = false) (hp : pad ≠ []) (hb : ∀ c ∈ pad, c = ' ')
    (hd : pid ≠ []) (hn : ∀ c ∈ pid, isDigit c = true) (hx : ∀ c t, x = c :: t → isDigit c = false) (ho : (∀ c ∈ u, isLetter c = true) ∨ ¬ ∀ c ∈ u, isLetter c = true) :
    (¬ (∀ c ∈ u, isLetter c = true) → matchPid (u ++ (pad ++ (pid ++ x))) = none) ∧
    ((∀ c ∈ u, isLetter c = true) → matchPid (u ++ (pad ++ (pid ++ x))) = if mentions x then some pid else none) := by
  constructor
  · intro hno
    have h1 : ∃ y z : Str, u = y ++ z ∧ (∀ c ∈ y, isLetter c = true) ∧ ∃ d t, z = d :: t ∧ isLetter d = false := by
      refine ⟨u.takeWhile isLetter, u.dropWhile isLetter, (List.takeWhile_append_dropWhile).symm, fun c hc => (List.all_eq_true.mp List.all_takeWhile) c hc, ?_⟩
      cases hz : u.dropWhile isLetter with
      | nil =>
        exfalso
        apply hno
        have h2 : u.takeWhile isLetter = u := by
          have := List.takeWhile_append_dropWhile (p := isLetter) (l := u)
          rw [hz, List.append_nil] at this
          exact this
        intro c hc
        rw [← h2] at hc
        exact (List.all_eq_true.mp List.all_takeWhile) c hc
      | cons d t =>
        refine ⟨d, t, rfl, ?_⟩
        have h3 := List.head?_dropWhile_not isLetter u
        rw [hz] at h3
        exact h3
    obtain ⟨y, z, rfl, hy, d, t, rfl, hd'⟩ := h1
    have hs := takeWhile_span (p := isLetter) (a := y) (b := (d :: t) ++ (pad ++ (pid ++ x))) hy (fun c t' e => by
      rw [List.cons_append] at e
      injection e with e _
      exact e ▸ hd')
    unfold matchPid
    rw [List.append_assoc, hs.1, hs.2]
    dsimp only
    rw [List.cons_append, List.takeWhile_cons, hw d (List.mem_append.mpr (.inr List.mem_cons_self))]
    split
    · rfl
    · exact if_pos rfl
  · intro hl
    obtain ⟨p0, pad', rfl⟩ := List.exists_cons_of_ne_nil hp
    have hp0 : p0 = ' ' := hb p0 List.mem_cons_self
    obtain ⟨d0, pid', rfl⟩ := List.exists_cons_of_ne_nil hd
    have s1 := takeWhile_span (p := isLetter) (a := u) (b := (p0 :: pad') ++ ((d0 :: pid') ++ x)) hl (fun c t' e => by
      rw [List.cons_append] at e
      injection e with e _
      subst e hp0
      decide)
    have s2 := takeWhile_span (p := isSpace) (a := p0 :: pad') (b := (d0 :: pid') ++ x) (fun c hc => by rw [hb c hc]; decide)
      (fun c t' e => by
        rw [List.cons_append] at e
        injection e with e _
        exact e ▸ isDigit_not_space (hn d0 List.mem_cons_self))
    have s3 := takeWhile_span (p := isDigit) (a := d0 :: pid') (b := x) hn hx
    unfold matchPid
    rw [s1.1, s1.2]
    dsimp only
    rw [s2.1, s2.2, s3.1, s3.2, if_neg hu, if_neg (List.cons_ne_nil _ _), if_neg (List.cons_ne_nil _ _)]

theorem match_proc (p : Proc) (h : p.Valid) :
    (Short p.user ∧ Named p.cmd → matchPid (strip p.line) = some p.pid) ∧
    (¬ (Short p.user ∧ Named p.cmd) → matchPid (strip p.line) = none) := by
  have hs := shown_letters p.user
  have hne := shown_ne h.user_ne
  have hw := shown_word h.user_word
  obtain ⟨u0, u', hu⟩ := List.exists_cons_of_ne_nil hne
  obtain ⟨pid', e, hpe⟩ : ∃ w' e, p.pid = w' ++ [e] := ⟨p.pid.dropLast, p.pid.getLast h.pid_ne, (List.dropLast_append_getLast _).symm⟩
  have he : isSpace e = false := isDigit_not_space (h.pid_digits e (hpe ▸ List.mem_append.mpr (.inr List.mem_cons_self)))
  have hstrip : strip p.line = shown p.user ++ (p.pad ++ (p.pid ++ rstrip (' ' :: p.mid ++ ' ' :: p.cmd))) := by
    have e1 : p.line = (shown p.user ++ (p.pad ++ pid')) ++ [e] ++ (' ' :: p.mid ++ ' ' :: p.cmd) := by
      unfold Proc.line
      rw [hpe]
      simp only [List.append_assoc]
      rfl
    have e2 : strip p.line = rstrip p.line := by
      rw [e1, hu]
      exact strip_of (hw u0 (hu ▸ List.mem_cons_self))
    rw [e2, e1, rstrip_append _ he, hpe]
    simp only [List.append_assoc]
  obtain ⟨t, ht, hb⟩ := rstrip_spec (' ' :: p.mid ++ ' ' :: p.cmd)
  have hm : mentions (rstrip (' ' :: p.mid ++ ' ' :: p.cmd)) = true ↔ Named p.cmd := by
    rw [← mentions_blank (x := rstrip (' ' :: p.mid ++ ' ' :: p.cmd)) hb, ← ht, mentions_skip _ (by decide), mentions_named]
    intro hm
    rcases List.mem_cons.mp hm with hm | hm
    · exact absurd hm (by decide)
    · exact (h.mid_plain _ hm).1 rfl
  have hx : ∀ c t', rstrip (' ' :: p.mid ++ ' ' :: p.cmd) = c :: t' → isDigit c = false := by
    intro c t' e'
    rw [e', List.cons_append, List.cons_append] at ht
    injection ht with ht _
    exact ht ▸ by decide
  obtain ⟨m1, m2⟩ := match_line (x := rstrip (' ' :: p.mid ++ ' ' :: p.cmd)) hne hw h.pad_ne h.pad_blank h.pid_ne h.pid_digits hx (Classical.em _)
  rw [hstrip]
  constructor
  · rintro ⟨h1, h2⟩
    rw [m2 (hs.mpr h1), if_pos (hm.mpr h2)]
  · intro hn
    by_cases h1 : Short p.user
    · rw [m2 (hs.mpr h1), if_neg]
      exact fun h2 => hn ⟨h1, hm.mp h2⟩
    · exact m1 fun h2 => h1 (hs.mp h2)

theorem line_noBreak (p : Proc) (h : p.Valid) : '\n' ∉ p.line := by
  have hb : isSpace '\n' = true := by decide
  intro hm
  unfold Proc.line at hm
  rcases List.mem_append.mp hm with hm | hm
  · rcases List.mem_append.mp hm with hm | hm
    · rcases List.mem_append.mp hm with hm | hm
      · rcases List.mem_append.mp hm with hm | hm
        · rcases List.mem_append.mp hm with hm | hm
          · rcases List.mem_append.mp hm with hm | hm
            · rw [shown_word h.user_word _ hm] at hb
              cases hb
            · exact absurd (h.pad_blank _ hm) (by decide)
          · rw [isDigit_not_space (h.pid_digits _ hm)] at hb
            cases hb
        · revert hm
          decide
      · exact (h.mid_plain _ hm).2 rfl
    · revert hm
      decide
  · exact h.cmd_line hm

theorem split_lines (ps : List Proc) (h : ∀ p ∈ ps, p.Valid) :
    splitChar '\n' (ps.flatMap (fun p => p.line ++ "\n".toList)) = ps.map Proc.line ++ [[]] := by
  induction ps with
  | nil => rfl
  | cons p ps ih =>
    have ih := ih fun q hq => h q (List.mem_cons_of_mem _ hq)
    rw [List.flatMap_cons, List.append_assoc]
    show splitChar '\n' (p.line ++ '\n' :: _) = _
    rw [splitChar_append _ _ _ (line_noBreak p (h p List.mem_cons_self))]
    exact congrArg (p.line :: ·) ih

/-! ### Lines of a log -/

theorem stripPrefix_some {p s r : Str} : stripPrefix p s = some r ↔ s = p ++ r := by
  induction p generalizing s with
  | nil => exact ⟨fun h => (Option.some.inj h), fun h => by rw [h]; rfl⟩
  | cons a p ih =>
    cases s with
    | nil => exact ⟨nofun, nofun⟩
    | cons b s =>
      unfold stripPrefix
      split
      · next e =>
        subst e
        rw [ih, List.cons_append]
        exact ⟨fun h => by rw [h], fun h => by injection h⟩
      · next e =>
        refine ⟨nofun, fun h => ?_⟩
        rw [List.cons_append] at h
        injection h with h _
        exact absurd h.symm e

def Ends (b : Str) : Prop := b = [] ∨ ∃ b', b = '\n' :: b'

theorem ends_iff (b : Str) : (b = [] || b.head? = some '\n') = true ↔ Ends b := by
  cases b with
  | nil => exact ⟨fun _ => .inl rfl, fun _ => rfl⟩
  | cons c b =>
    constructor
    · intro h
      have : c = '\n' := by simpa using h
      exact .inr ⟨b, by rw [this]⟩
    · rintro (h | ⟨b', h⟩)
      · cases h
      · injection h with h _
        subst h
        rfl

theorem search_iff (w : Str) (start : Bool) (s : Str) : searchLine w start s = true ↔
    (start = true ∧ ∃ b, s = w ++ b ∧ Ends b) ∨ ∃ a b, s = a ++ '\n' :: (w ++ b) ∧ Ends b := by
  induction s generalizing start with
  | nil =>
    unfold searchLine
    rw [Bool.and_eq_true, decide_eq_true_eq]
    constructor
    · rintro ⟨h1, rfl⟩
      exact .inl ⟨h1, [], rfl, .inl rfl⟩
    · rintro (⟨h1, b, h2, -⟩ | ⟨a, b, h, -⟩)
      · exact ⟨h1, (List.append_eq_nil_iff.mp h2.symm).1⟩
      · exact absurd h.symm (by simp)
  | cons c s ih =>
    unfold searchLine
    rw [Bool.or_eq_true, Bool.and_eq_true, ih, decide_eq_true_eq]
    constructor
    · rintro (⟨h1, h2⟩ | ⟨h1, b, h2, h3⟩ | ⟨a, b, h2, h3⟩)
      · cases hr : stripPrefix w (c :: s) with
        | none => rw [hr] at h2; cases h2
        | some r =>
          rw [hr] at h2
          exact .inl ⟨h1, r, stripPrefix_some.mp hr, (ends_iff r).mp h2⟩
      · exact .inr ⟨[], b, by rw [h1, h2]; rfl, h3⟩
      · exact .inr ⟨c :: a, b, by rw [h2]; rfl, h3⟩
    · rintro (⟨h1, b, h2, h3⟩ | ⟨a, b, h2, h3⟩)
      · refine .inl ⟨h1, ?_⟩
        rw [stripPrefix_some.mpr h2]
        exact (ends_iff b).mpr h3
      · cases a with
        | nil =>
          rw [List.nil_append] at h2
          injection h2 with e1 e2
          exact .inr (.inl ⟨e1, b, e2, h3⟩)
        | cons a0 a =>
          rw [List.cons_append] at h2
          injection h2 with e1 e2
          exact .inr (.inr ⟨a, b, e2, h3⟩)

/-! ### Branches -/

theorem branch_skip {a : Str} (h : '*' ∉ a) (s : Str) : currentBranch (a ++ s) = currentBranch s := by
  induction a with
  | nil => rfl
  | cons c a ih =>
    have ih := ih fun hm => h (List.mem_cons_of_mem _ hm)
    have hn : stripPrefix "* ".toList (c :: (a ++ s)) = none := by
      show (if '*' = c then _ else none) = none
      exact if_neg fun (e : '*' = c) => h (e ▸ List.mem_cons_self)
    rw [List.cons_append]
    conv => lhs; unfold currentBranch
    rw [hn]
    exact ih

theorem lower_line (b s : Str) : (b ++ '\n' :: s).takeWhile isLower = b.takeWhile isLower := by
  induction b with
  | nil => rfl
  | cons c b ih =>
    rw [List.cons_append, List.takeWhile_cons, List.takeWhile_cons]
    split
    · rw [ih]
    · rfl

theorem branch_star (t : Str) : currentBranch ('*' :: ' ' :: t) =
    if t.takeWhile isLower = [] then currentBranch (' ' :: t) else some (t.takeWhile isLower) := by
  conv => lhs; unfold currentBranch
  rfl

theorem no_star_lines {l : List Str} {r : Repo} (h : ∀ b ∈ l, '*' ∉ b) (hn : ∀ b ∈ l, branchLine r b = "  ".toList ++ b) :
    '*' ∉ (l.map (branchLine r)).flatMap (· ++ "\n".toList) := by
  intro hm
  obtain ⟨x, hx, hm⟩ := List.mem_flatMap.mp hm
  obtain ⟨b, hb, rfl⟩ := List.mem_map.mp hx
  rw [hn b hb] at hm
  rcases List.mem_append.mp hm with hm | hm
  · rcases List.mem_append.mp hm with hm | hm
    · revert hm; decide
    · exact h b hb hm
  · revert hm; decide

theorem current_branch {r : Repo} (h : r.Valid) {b : Str} (hb : r.head = .branch b) :
    currentBranch (gitBranch r) = if b.takeWhile isLower = [] then none else some (b.takeWhile isLower) := by
  have hm := h.current b hb
  obtain ⟨l1, l2, hl⟩ := List.append_of_mem hm
  have hnd := h.once
  rw [hl] at hnd
  have h1 : b ∉ l1 := fun hx => (List.nodup_append.mp hnd).2.2 b hx b List.mem_cons_self rfl
  have h2 : b ∉ l2 := ((List.nodup_append.mp hnd).2.1 |> List.nodup_cons.mp).1
  have line : ∀ x, branchLine r x = if x = b then "* ".toList ++ x else "  ".toList ++ x := by
    intro x
    unfold branchLine
    rw [hb]
  have n1 : '*' ∉ (l1.map (branchLine r)).flatMap (· ++ "\n".toList) :=
    no_star_lines (fun x hx => h.names x (hl ▸ List.mem_append.mpr (.inl hx))) fun x hx => by
      rw [line, if_neg]
      rintro rfl
      exact h1 hx
  have n2 : '*' ∉ (l2.map (branchLine r)).flatMap (· ++ "\n".toList) :=
    no_star_lines (fun x hx => h.names x (hl ▸ List.mem_append.mpr (.inr (List.mem_cons_of_mem _ hx)))) fun x hx => by
      rw [line, if_neg]
      rintro rfl
      exact h2 hx
  have e : gitBranch r = (l1.map (branchLine r)).flatMap (· ++ "\n".toList) ++
      ('*' :: ' ' :: (b ++ '\n' :: (l2.map (branchLine r)).flatMap (· ++ "\n".toList))) := by
    unfold gitBranch
    rw [hb]
    dsimp only
    rw [hl, List.map_append, List.map_cons, List.flatMap_append, List.flatMap_cons, line, if_pos rfl]
    simp only [List.append_assoc]
    rfl
  rw [e, branch_skip n1, branch_star, lower_line]
  split
  · have n3 : '*' ∉ ' ' :: (b ++ '\n' :: (l2.map (branchLine r)).flatMap (· ++ "\n".toList)) := by
      intro hx
      rcases List.mem_cons.mp hx with hx | hx
      · exact absurd hx (by decide)
      · rcases List.mem_append.mp hx with hx | hx
        · exact h.names b hm hx
        · rcases List.mem_cons.mp hx with hx | hx
          · exact absurd hx (by decide)
          · exact n2 hx
    have := branch_skip n3 []
    rw [List.append_nil] at this
    exact this
  · rfl

theorem current_detached {r : Repo} (h : r.Valid) {v : Str} (hv : r.head = .detached v) : currentBranch (gitBranch r) = none := by
  have line : ∀ x, branchLine r x = "  ".toList ++ x := by
    intro x
    unfold branchLine
    rw [hv]
  have n1 : '*' ∉ (r.branches.map (branchLine r)).flatMap (· ++ "\n".toList) :=
    no_star_lines h.names fun x _ => line x
  have e : gitBranch r = '*' :: ' ' :: ("(HEAD detached at ".toList ++ v ++ ")\n".toList ++
      (r.branches.map (branchLine r)).flatMap (· ++ "\n".toList)) := by
    unfold gitBranch
    rw [hv]
    dsimp only
    simp only [List.append_assoc]
    rfl
  have ht : (("(HEAD detached at ".toList ++ v ++ ")\n".toList ++
      (r.branches.map (branchLine r)).flatMap (· ++ "\n".toList)) : Str).takeWhile isLower = [] := rfl
  rw [e, branch_star, if_pos ht]
  have n3 : '*' ∉ ' ' :: ("(HEAD detached at ".toList ++ v ++ ")\n".toList ++
      (r.branches.map (branchLine r)).flatMap (· ++ "\n".toList)) := by
    intro hx
    rcases List.mem_cons.mp hx with hx | hx
    · exact absurd hx (by decide)
    · rcases List.mem_append.mp hx with hx | hx
      · rcases List.mem_append.mp hx with hx | hx
        · rcases List.mem_append.mp hx with hx | hx
          · revert hx; decide
          · exact h.place v hv hx
        · revert hx; decide
      · exact n1 hx
  have := branch_skip n3 []
  rw [List.append_nil] at this
  exact this

theorem checkout_known {r : Repo} {v : Str} (h : Known r v) : checkout r v = { r with head := target r v } := by
  unfold checkout target
  by_cases hb : v ∈ r.branches
  · rw [if_pos hb, if_pos hb]
  · rw [if_neg hb, if_neg hb, if_pos (h.resolve_left hb)]

theorem checkout_unknown {r : Repo} {v : Str} (h : ¬ Known r v) : checkout r v = r := by
  unfold checkout
  rw [if_neg fun hb => h (.inl hb), if_neg fun hb => h (.inr hb)]

end Seyfert.Tools
