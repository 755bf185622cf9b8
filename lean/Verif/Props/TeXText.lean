import Verif.Spec.TeXText
import Verif.Lemmas.PyStr
import Verif.Lemmas.PyDict

/-! Properties of the translation of texts. -/

namespace Seyfert.TeXText

/-! ### Replacement from left to right -/

theorem subFrom_drop (m : Matcher) : ∀ (n : Nat) (s : Str), subFrom m n s = sub m (s.drop n)
  | 0, s => by rw [List.drop_zero]; rfl
  | n + 1, [] => by rw [List.drop_nil]; rfl
  | n + 1, c :: s => by rw [subFrom, List.drop_succ_cons]; exact subFrom_drop m n s

theorem sub_nil (m : Matcher) : sub m [] = [] := rfl

theorem sub_none {m : Matcher} {c : Char} {s : Str} (h : m (c :: s) = none) : sub m (c :: s) = c :: sub m s := by
  unfold sub
  rw [subFrom, h]

theorem sub_some {m : Matcher} {c : Char} {s r : Str} {k : Nat} (h : m (c :: s) = some (k, r)) :
    sub m (c :: s) = r ++ sub m (s.drop (k - 1)) := by
  unfold sub
  rw [subFrom, h]
  dsimp only
  rw [subFrom_drop]
  rfl

theorem words_none {ws : List (Str × Str)} {s : Str} : words ws s = none ↔ ∀ p ∈ ws, ¬ p.1 <+: s := by
  induction ws with
  | nil => exact ⟨fun _ p hp => (by cases hp), fun _ => rfl⟩
  | cons p ws ih =>
    obtain ⟨w, r⟩ := p
    rw [words]
    by_cases h : w.isPrefixOf s = true
    · rw [if_pos h]
      exact ⟨fun e => (by cases e), fun e => absurd (List.isPrefixOf_iff_prefix.mp h) (e (w, r) List.mem_cons_self)⟩
    · rw [if_neg h, ih]
      constructor
      · intro e p hp
        rcases List.mem_cons.mp hp with rfl | hp
        · exact fun hc => h (List.isPrefixOf_iff_prefix.mpr hc)
        · exact e p hp
      · intro e p hp; exact e p (List.mem_cons_of_mem _ hp)

theorem words_some {ws : List (Str × Str)} {s r : Str} {k : Nat} (h : words ws s = some (k, r)) :
    ∃ w, (w, r) ∈ ws ∧ k = w.length ∧ w <+: s := by
  induction ws with
  | nil => cases h
  | cons p ws ih =>
    obtain ⟨w, q⟩ := p
    rw [words] at h
    split at h
    · next hp => cases h; exact ⟨w, List.mem_cons_self, rfl, List.isPrefixOf_iff_prefix.mp hp⟩
    · obtain ⟨w', h1, h2⟩ := ih h
      exact ⟨w', List.mem_cons_of_mem _ h1, h2⟩

/-- Replacing the words from left to right replaces all of them. -/
theorem done_sub {ws : List (Str × Str)} (hne : ∀ p ∈ ws, p.1 ≠ []) : ∀ (n : Nat) (s : Str), s.length ≤ n →
    Done ws s (sub (words ws) s)
  | _, [], _ => .nil
  | 0, c :: s, h => absurd h (by simp)
  | n + 1, c :: s, h => by
    cases hm : words ws (c :: s) with
    | none =>
      rw [sub_none hm]
      exact .char (words_none.mp hm) (done_sub hne n s (by simpa using h))
    | some q =>
      obtain ⟨k, r⟩ := q
      rw [sub_some hm]
      obtain ⟨w, h1, h2, h3⟩ := words_some hm
      obtain ⟨x, hx⟩ := h3
      cases w with
      | nil => exact absurd rfl (hne _ h1)
      | cons d w =>
        rw [List.cons_append] at hx
        injection hx with e1 e2
        subst e1
        subst e2
        have hk : (w ++ x).drop (k - 1) = x := by
          rw [h2, List.length_cons, Nat.add_sub_cancel, List.drop_left]
        rw [hk]
        have hl : x.length ≤ n := by
          have := h
          rw [List.length_cons, List.length_append] at this
          omega
        exact Done.word (w := d :: w) h1 (done_sub hne n x hl)

/-- No word is the beginning of another. -/
def Free (ws : List (Str × Str)) : Prop := ∀ p ∈ ws, p.1 ≠ [] ∧ ∀ q ∈ ws, p.1 <+: q.1 → p = q

theorem prefix_or {a b x y : Str} (h : a ++ x = b ++ y) : a <+: b ∨ b <+: a :=
  List.prefix_or_prefix_of_prefix ⟨x, h⟩ ⟨y, rfl⟩

/-- There is only one translation. -/
theorem done_unique {ws : List (Str × Str)} (hf : Free ws) : ∀ {s t : Str}, Done ws s t → ∀ {u}, Done ws s u → t = u := by
  intro s t h
  induction h with
  | nil =>
    intro u hu
    generalize hz : ([] : Str) = z at hu
    cases hu with
    | nil => rfl
    | word hw _ => exact absurd (List.append_eq_nil_iff.mp hz.symm).1 (hf _ hw).1
    | char _ _ => cases hz
  | @word w r s t hw _ ih =>
    intro u hu
    generalize hz : w ++ s = z at hu
    cases hu with
    | nil => exact absurd (List.append_eq_nil_iff.mp hz).1 (hf _ hw).1
    | @word w' r' s' t' hw' h' =>
      have he : (w, r) = (w', r') := by
        rcases prefix_or hz with hp | hp
        · exact (hf _ hw).2 _ hw' hp
        · exact ((hf _ hw').2 _ hw hp).symm
      cases he
      rw [List.append_cancel_left hz] at ih
      rw [ih h']
    | char hc _ => exact absurd ⟨s, hz⟩ (hc _ hw)
  | @char c s t hc _ ih =>
    intro u hu
    generalize hz : c :: s = z at hu
    cases hu with
    | nil => cases hz
    | word hw _ => exact absurd ⟨_, hz.symm⟩ (hc _ hw)
    | char _ h' => cases hz; rw [ih h']

theorem sub_iff {ws : List (Str × Str)} (hf : Free ws) (s t : Str) : sub (words ws) s = t ↔ Done ws s t :=
  ⟨fun h => h ▸ done_sub (fun p hp => (hf p hp).1) _ s (Nat.le_refl _),
   fun h => done_unique hf (done_sub (fun p hp => (hf p hp).1) _ s (Nat.le_refl _)) h⟩

theorem done_mem {ws vs : List (Str × Str)} (h : ∀ p, p ∈ ws ↔ p ∈ vs) {s t : Str} (hd : Done ws s t) : Done vs s t := by
  induction hd with
  | nil => exact .nil
  | word hw _ ih => exact .word ((h _).mp hw) ih
  | char hc _ ih => exact .char (fun p hp => hc p ((h p).mpr hp)) ih

/-! ### One replacement after another -/

/-- Words of the second replacement cannot be made or broken by the first, in any text but those listed. -/
structure Apart (ws vs : List (Str × Str)) (s : Str) : Prop where
  /-- No translation of the first ends with the beginning of a word of the second. -/
  ends : ∀ p ∈ ws, ∀ v ∈ vs, ∀ y x, p.2 = y ++ x → x ≠ [] → x <+: v.1 → x = v.1
  /-- No word of the second ends where a word of the first begins, before and after the first replacement. -/
  begins : ∀ p ∈ ws, ∀ v ∈ vs, ∀ y x, v.1 = y ++ x → y ≠ [] → x ≠ [] →
    (x <+: p.2 ∨ p.2 <+: x ∨ x <+: p.1 ∨ p.1 <+: x) → ¬ y ++ p.1 <:+: s

theorem Apart.mono {ws vs : List (Str × Str)} {s s' : Str} (h : Apart ws vs s) (hs : s' <:+: s) : Apart ws vs s' :=
  ⟨h.ends, fun p hp v hv y x e1 e2 e3 e4 e5 => h.begins p hp v hv y x e1 e2 e3 e4 (e5.trans hs)⟩

theorem done_append {vs : List (Str × Str)} (hf : Free vs) : ∀ (n : Nat) (a b u : Str), a.length ≤ n →
    (∀ v ∈ vs, ∀ y x, a = y ++ x → x ≠ [] → x <+: v.1 → x = v.1) → Done vs (a ++ b) u →
    ∃ u1 u2, u = u1 ++ u2 ∧ Done vs a u1 ∧ Done vs b u2
  | _, [], b, u, _, _, h => ⟨[], u, rfl, .nil, h⟩
  | 0, c :: a, b, u, hn, _, _ => absurd hn (by simp)
  | n + 1, c :: a, b, u, hn, hs, h => by
    generalize hz : c :: a ++ b = z at h
    cases h with
    | nil => cases hz
    | @word w r s t hw h =>
      have hwa : w <+: c :: a := by
        rcases prefix_or hz with hp | hp
        · rw [hs _ hw [] (c :: a) rfl (by simp) hp]
          exact List.prefix_refl _
        · exact hp
      obtain ⟨a2, ha2⟩ := hwa
      rw [← ha2, List.append_assoc] at hz
      have hst := List.append_cancel_left hz
      have hlen : a2.length ≤ n := by
        have h1 := congrArg List.length ha2
        have h2 : w.length ≠ 0 := fun e => (hf _ hw).1 (List.length_eq_zero_iff.mp e)
        rw [List.length_append, List.length_cons] at h1
        rw [List.length_cons] at hn
        omega
      rw [← hst] at h
      obtain ⟨u1, u2, e, d1, d2⟩ := done_append hf n a2 b t hlen (fun v hv y x e1 e2 e3 =>
        hs v hv (w ++ y) x (by rw [← ha2, e1, List.append_assoc]) e2 e3) h
      refine ⟨r ++ u1, u2, by rw [e, List.append_assoc], ?_, d2⟩
      rw [← ha2]
      exact .word hw d1
    | @char d s t hc h =>
      rw [List.cons_append] at hz
      injection hz with e1 e2
      subst e1
      subst e2
      obtain ⟨u1, u2, e, d1, d2⟩ := done_append hf n a b t (by simpa using hn) (fun v hv y x e1 e2 e3 =>
        hs v hv (c :: y) x (by rw [e1, List.cons_append]) e2 e3) h
      refine ⟨c :: u1, u2, by rw [e, List.cons_append], .char (fun p hp hpr => hc p hp ?_) d1, d2⟩
      exact hpr.trans ⟨b, by rw [List.cons_append]⟩

theorem done_back {ws : List (Str × Str)} {v s : Str} (hb : ∀ p ∈ ws, ∀ y x, v = y ++ x → y ≠ [] → x ≠ [] →
      (x <+: p.2 ∨ p.2 <+: x ∨ x <+: p.1 ∨ p.1 <+: x) → ¬ y ++ p.1 <:+: s) :
    ∀ (v1 y s1 t2 : Str), v = y ++ v1 → y ≠ [] → y ++ s1 <:+: s → Done ws s1 (v1 ++ t2) →
      ∃ s2, s1 = v1 ++ s2 ∧ Done ws s2 t2
  | [], _, s1, _, _, _, _, h => ⟨s1, rfl, h⟩
  | d :: v1, y, s1, t2, hv, hy, hs, h => by
    generalize hz : d :: v1 ++ t2 = z at h
    cases h with
    | nil => cases hz
    | @word w r s' t' hw h =>
      refine absurd ?_ (hb _ hw y (d :: v1) hv hy (by simp) ?_)
      · exact List.IsInfix.trans ⟨[], s', by simp⟩ hs
      · rcases prefix_or hz with hp | hp
        · exact .inl hp
        · exact .inr (.inl hp)
    | @char e s' t' hc h =>
      rw [List.cons_append] at hz
      injection hz with e1 e2
      subst e1
      subst e2
      obtain ⟨s2, h1, h2⟩ := done_back hb v1 (y ++ [d]) s' t2 (by rw [hv, List.append_assoc]; rfl) (by simp)
        (by rw [List.append_assoc]; exact hs) h
      exact ⟨s2, by rw [h1, List.cons_append], h2⟩

theorem done_forth {ws : List (Str × Str)} {v s : Str} (hb : ∀ p ∈ ws, ∀ y x, v = y ++ x → y ≠ [] → x ≠ [] →
      (x <+: p.2 ∨ p.2 <+: x ∨ x <+: p.1 ∨ p.1 <+: x) → ¬ y ++ p.1 <:+: s) :
    ∀ (v1 y s2 t1 : Str), v = y ++ v1 → y ≠ [] → y ++ (v1 ++ s2) <:+: s → Done ws (v1 ++ s2) t1 → v1 <+: t1
  | [], _, _, t1, _, _, _, _ => List.nil_prefix
  | d :: v1, y, s2, t1, hv, hy, hs, h => by
    generalize hz : d :: v1 ++ s2 = z at h hs
    cases h with
    | nil => cases hz
    | @word w r s' t' hw h =>
      refine absurd ?_ (hb _ hw y (d :: v1) hv hy (by simp) ?_)
      · exact List.IsInfix.trans ⟨[], s', by simp⟩ hs
      · rcases prefix_or hz with hp | hp
        · exact .inr (.inr (.inl hp))
        · exact .inr (.inr (.inr hp))
    | @char e s' t' hc h =>
      rw [List.cons_append] at hz
      injection hz with e1 e2
      subst e1
      subst e2
      obtain ⟨x, hx⟩ := done_forth hb v1 (y ++ [d]) s2 t' (by rw [hv, List.append_assoc]; rfl) (by simp)
        (by rw [List.append_assoc]; exact hs) h
      exact ⟨x, by rw [← hx, List.cons_append]⟩

/-- The words of two replacements, those of the first with what the second makes of their translations. -/
def both (ws vs : List (Str × Str)) : List (Str × Str) := ws.map (fun p => (p.1, sub (words vs) p.2)) ++ vs

/-- Two replacements one after the other are one replacement. -/
theorem done_both {ws vs : List (Str × Str)} (hw : ∀ p ∈ ws, p.1 ≠ []) (hf : Free vs) : ∀ (n : Nat) (s t u : Str),
    s.length ≤ n → Apart ws vs s → Done ws s t → Done vs t u → Done (both ws vs) s u
  | n, s, t, u, hn, ha, h1, h2 => by
    cases h1 with
    | nil =>
      generalize hz : ([] : Str) = z at h2
      cases h2 with
      | nil => exact .nil
      | word hm _ => exact absurd (List.append_eq_nil_iff.mp hz.symm).1 (hf _ hm).1
      | char _ _ => cases hz
    | @word w r s t hm h =>
      obtain ⟨u1, u2, e, d1, d2⟩ := done_append hf r.length r t u (Nat.le_refl _) (fun v hv y x => ha.ends _ hm v hv y x) h2
      have hw' : w ≠ [] := hw _ hm
      rw [e, ← (sub_iff hf r u1).mpr d1]
      cases n with
      | zero =>
        rw [Nat.le_zero, List.length_append] at hn
        exact absurd (List.length_eq_zero_iff.mp (by omega)) hw'
      | succ n =>
        refine .word (List.mem_append.mpr (.inl (List.mem_map.mpr ⟨_, hm, rfl⟩))) (done_both hw hf n s t u2 ?_ ?_ h d2)
        · have h2 : w.length ≠ 0 := fun e => hw' (List.length_eq_zero_iff.mp e)
          rw [List.length_append] at hn
          omega
        · exact ha.mono ⟨w, [], by simp⟩
    | @char c s t hc h =>
      cases n with
      | zero => exact absurd hn (by simp)
      | succ n =>
        have hs : s <:+: c :: s := ⟨[c], [], by simp⟩
        generalize hz : c :: t = z at h2
        cases h2 with
        | nil => cases hz
        | @word v q t2 u2 hv h2 =>
          cases v with
          | nil => exact absurd rfl (hf _ hv).1
          | cons d v1 =>
            rw [List.cons_append] at hz
            injection hz with e1 e2
            subst e1
            subst e2
            obtain ⟨s2, e, h3⟩ := done_back (v := c :: v1) (fun p hp y x => ha.begins p hp _ hv y x) v1 [c] s t2 rfl (by simp)
              (List.infix_refl _) h
            subst e
            have := done_both hw hf n s2 t2 u2 (by rw [List.length_cons, List.length_append] at hn; omega)
              (ha.mono ⟨c :: v1, [], by simp⟩) h3 h2
            exact Done.word (w := c :: v1) (List.mem_append.mpr (.inr hv)) this
        | @char d t' u' hc2 h2 =>
          cases hz
          refine .char (fun p hp hpr => ?_) (done_both hw hf n s t u' (by simpa using hn) (ha.mono hs) h h2)
          rcases List.mem_append.mp hp with hp | hp
          · obtain ⟨q, hq, e⟩ := List.mem_map.mp hp
            subst e
            exact hc q hq hpr
          · obtain ⟨v, q⟩ := p
            cases v with
            | nil => exact absurd rfl (hf _ hp).1
            | cons d v1 =>
              obtain ⟨x, hx⟩ := hpr
              rw [List.cons_append] at hx
              injection hx with e1 e2
              subst e1
              subst e2
              obtain ⟨x', hx'⟩ := done_forth (v := d :: v1) (fun p' hp' y x => ha.begins p' hp' _ hp y x) v1 [d] x t rfl (by simp)
                (List.infix_refl _) h
              exact hc2 _ hp ⟨x', by rw [← hx', List.cons_append]⟩

/-! ### Checking tables of words -/

def splits (v : Str) : List (Str × Str) := (List.range (v.length + 1)).map (fun i => (v.take i, v.drop i))

theorem mem_splits {v y x : Str} (h : v = y ++ x) : (y, x) ∈ splits v := by
  refine List.mem_map.mpr ⟨y.length, List.mem_range.mpr ?_, ?_⟩
  · rw [h, List.length_append]; omega
  · rw [h, List.take_left, List.drop_left]

def endsB (ws vs : List (Str × Str)) : Bool :=
  ws.all fun p => vs.all fun v => (splits p.2).all fun q => q.2.isEmpty || !(q.2.isPrefixOf v.1) || q.2 == v.1

def clashes (ws vs : List (Str × Str)) : List Str :=
  ws.flatMap fun p => vs.flatMap fun v => ((splits v.1).filter fun q =>
    !q.1.isEmpty && !q.2.isEmpty && (q.2.isPrefixOf p.2 || p.2.isPrefixOf q.2 || q.2.isPrefixOf p.1 || p.1.isPrefixOf q.2)).map
      fun q => q.1 ++ p.1

theorem apart_of {ws vs : List (Str × Str)} {s : Str} (h1 : endsB ws vs = true) (h2 : ∀ z ∈ clashes ws vs, ¬ z <:+: s) :
    Apart ws vs s := by
  refine ⟨fun p hp v hv y x e hx hpr => ?_, fun p hp v hv y x e hy hx hcl => h2 _ ?_⟩
  · have := List.all_eq_true.mp (List.all_eq_true.mp (List.all_eq_true.mp h1 p hp) v hv) (y, x) (mem_splits e)
    dsimp only at this
    rw [Bool.or_eq_true, Bool.or_eq_true, List.isEmpty_iff, Bool.not_eq_true', beq_iff_eq] at this
    rcases this with (h | h) | h
    · exact absurd h hx
    · rw [List.isPrefixOf_iff_prefix.mpr hpr] at h; cases h
    · exact h
  · refine List.mem_flatMap.mpr ⟨p, hp, List.mem_flatMap.mpr ⟨v, hv, List.mem_map.mpr ⟨(y, x), List.mem_filter.mpr
      ⟨mem_splits e, ?_⟩, rfl⟩⟩⟩
    dsimp only
    have hy' : y.isEmpty = false := by rw [Bool.eq_false_iff]; exact fun h => hy (List.isEmpty_iff.mp h)
    have hx' : x.isEmpty = false := by rw [Bool.eq_false_iff]; exact fun h => hx (List.isEmpty_iff.mp h)
    rw [hy', hx']
    rw [← List.isPrefixOf_iff_prefix, ← List.isPrefixOf_iff_prefix, ← List.isPrefixOf_iff_prefix,
      ← List.isPrefixOf_iff_prefix] at hcl
    rcases hcl with h | h | h | h <;> rw [h] <;> simp

def freeB (ws : List (Str × Str)) : Bool :=
  ws.all fun p => !p.1.isEmpty && ws.all fun q => !(p.1.isPrefixOf q.1) || p == q

theorem free_of {ws : List (Str × Str)} (h : freeB ws = true) : Free ws := by
  intro p hp
  have := List.all_eq_true.mp h p hp
  rw [Bool.and_eq_true, Bool.not_eq_true'] at this
  refine ⟨fun e => ?_, fun q hq hpr => ?_⟩
  · rw [List.isEmpty_iff.mpr e] at this; cases this.1
  · have h2 := List.all_eq_true.mp this.2 q hq
    rw [List.isPrefixOf_iff_prefix.mpr hpr] at h2
    simpa using h2

/-! ### Finding the probes -/

theorem find_drop (ws : List Str) : ∀ (n : Nat) (s : Str), findFrom ws n s = findFrom ws 0 (s.drop n)
  | 0, s => by rw [List.drop_zero]
  | n + 1, [] => by rw [List.drop_nil]; rfl
  | n + 1, c :: s => by rw [findFrom, List.drop_succ_cons]; exact find_drop ws n s

theorem find_mem {ws : List Str} {w : Str} : ∀ (n : Nat) (s : Str), w ∈ findFrom ws n s → w ∈ ws
  | 0, [], h => by cases h
  | n + 1, [], h => by cases h
  | n + 1, c :: s, h => find_mem n s h
  | 0, c :: s, h => by
    rw [findFrom] at h
    split at h
    · next v hv =>
      rcases List.mem_cons.mp h with rfl | h
      · exact List.mem_of_find?_eq_some hv
      · exact find_mem _ s h
    · exact find_mem 0 s h

/-- Words which do not overlap. -/
def NoOverlap (ws : List Str) : Prop := ∀ w ∈ ws, w ≠ [] ∧ ∀ v ∈ ws, (w <+: v → w = v) ∧
  ∀ y x, v = y ++ x → y ≠ [] → x ≠ [] → ¬ w <+: x ∧ ¬ x <+: w

theorem infix_skip {ws : List Str} (hn : NoOverlap ws) {w v : Str} (hw : w ∈ ws) (hv : v ∈ ws) {s2 : Str} :
    ∀ (a y : Str), v = y ++ a → y ≠ [] → w <:+: a ++ s2 → w <:+: s2
  | [], _, _, _, h => h
  | d :: a, y, e, hy, h => by
    rw [List.cons_append, List.infix_cons_iff] at h
    rcases h with h | h
    · have := ((hn w hw).2 v hv).2 y (d :: a) e hy (by simp)
      obtain ⟨z, hz⟩ := h
      rcases prefix_or (b := d :: a) (y := s2) (by rw [hz, List.cons_append]) with hp | hp
      · exact absurd hp this.1
      · exact absurd hp this.2
    · exact infix_skip hn hw hv a (y ++ [d]) (by rw [e, List.append_assoc]; rfl) (by simp) h

theorem find_complete {ws : List Str} (hn : NoOverlap ws) {w : Str} (hw : w ∈ ws) : ∀ (n : Nat) (s : Str), s.length ≤ n →
    w <:+: s → w ∈ findFrom ws 0 s
  | _, [], _, h => absurd (List.infix_nil.mp h) (hn w hw).1
  | 0, c :: s, h, _ => absurd h (by simp)
  | n + 1, c :: s, hl, h => by
    rw [findFrom]
    split
    · next v hv =>
      have hvm := List.mem_of_find?_eq_some hv
      have hvb : v.isPrefixOf (c :: s) = true := List.find?_some (p := fun w : Str => w.isPrefixOf (c :: s)) hv
      have hvp := List.isPrefixOf_iff_prefix.mp hvb
      rw [find_drop]
      rw [List.infix_cons_iff] at h
      obtain ⟨s2, hs2⟩ := hvp
      rcases h with h | h
      · obtain ⟨z, hz⟩ := h
        have : w = v := by
          rcases prefix_or (hz.trans hs2.symm) with hp | hp
          · exact ((hn w hw).2 v hvm).1 hp
          · exact (((hn v hvm).2 w hw).1 hp).symm
        rw [this]
        exact List.mem_cons_self
      · cases v with
        | nil => exact absurd rfl (hn _ hvm).1
        | cons d v1 =>
          rw [List.cons_append] at hs2
          injection hs2 with e1 e2
          subst e1
          subst e2
          refine List.mem_cons_of_mem _ ?_
          rw [List.length_cons, Nat.add_sub_cancel, List.drop_left]
          refine find_complete hn hw n s2 ?_ (infix_skip hn hw hvm v1 [d] rfl (by simp) h)
          rw [List.length_cons, List.length_append] at hl
          omega
    · next hnone =>
      rw [List.infix_cons_iff] at h
      rcases h with h | h
      · exact absurd (List.isPrefixOf_iff_prefix.mpr h) (List.find?_eq_none.mp hnone w hw)
      · exact find_complete hn hw n s (by simpa using hl) h

def noOverlapB (ws : List Str) : Bool :=
  ws.all fun w => !w.isEmpty && ws.all fun v => (!(w.isPrefixOf v) || w == v) && (splits v).all fun q =>
    q.1.isEmpty || q.2.isEmpty || (!(w.isPrefixOf q.2) && !(q.2.isPrefixOf w))

theorem noOverlap_of {ws : List Str} (h : noOverlapB ws = true) : NoOverlap ws := by
  intro w hw
  have := List.all_eq_true.mp h w hw
  rw [Bool.and_eq_true, Bool.not_eq_true'] at this
  refine ⟨fun e => ?_, fun v hv => ?_⟩
  · rw [List.isEmpty_iff.mpr e] at this; cases this.1
  · have h2 := List.all_eq_true.mp this.2 v hv
    rw [Bool.and_eq_true] at h2
    refine ⟨fun hp => ?_, fun y x e hy hx => ?_⟩
    · have h3 := h2.1
      rw [List.isPrefixOf_iff_prefix.mpr hp] at h3
      simpa using h3
    · have h3 := List.all_eq_true.mp h2.2 (y, x) (mem_splits e)
      dsimp only at h3
      have hy' : y.isEmpty = false := by rw [Bool.eq_false_iff]; exact fun h => hy (List.isEmpty_iff.mp h)
      have hx' : x.isEmpty = false := by rw [Bool.eq_false_iff]; exact fun h => hx (List.isEmpty_iff.mp h)
      rw [hy', hx', Bool.false_or, Bool.false_or, Bool.and_eq_true, Bool.not_eq_true', Bool.not_eq_true'] at h3
      refine ⟨fun hp => ?_, fun hp => ?_⟩
      · rw [List.isPrefixOf_iff_prefix.mpr hp] at h3; cases h3.1
      · rw [List.isPrefixOf_iff_prefix.mpr hp] at h3; cases h3.2

/-! ### Probes in the order of a set -/

def pairs (g : Str → Str) (l : List Str) : List (Str × Str) := l.map (fun p => (p, g p))

/-- What is needed of the translations of the probes. -/
structure Probes (d : Dict Str Str) (g : Str → Str) : Prop where
  has : ∀ p ∈ probeWords, d.lookup p = some (g p)
  apart : ∀ p ∈ probeWords, ∀ q ∈ probeWords, p ≠ q → endsB [(p, g p)] [(q, g q)] = true ∧
    clashes [(p, g p)] [(q, g q)] = [] ∧ sub (words [(q, g q)]) (g p) = g p

theorem free_one {q r : Str} (h : q ≠ []) : Free [(q, r)] := by
  intro p hp
  rw [List.mem_singleton] at hp
  subst hp
  exact ⟨h, fun q' hq' _ => (List.mem_singleton.mp hq').symm⟩

theorem probe_ne {p : Str} (h : p ∈ probeWords) : p ≠ [] := by
  rintro rfl
  revert h
  decide

theorem each_done {d : Dict Str Str} {g : Str → Str} (hd : Probes d g) : ∀ (l acc : List Str) (s0 s : Str),
    (acc ++ l).Nodup → (∀ x ∈ acc ++ l, x ∈ probeWords) → Done (pairs g acc) s0 s →
    ∃ t, replaceEach d l s = .ok t ∧ Done (pairs g (acc ++ l)) s0 t
  | [], acc, s0, s, _, _, h => ⟨s, rfl, by rw [List.append_nil]; exact h⟩
  | q :: l, acc, s0, s, hn, hm, h => by
    have hq : q ∈ probeWords := hm q (List.mem_append.mpr (.inr List.mem_cons_self))
    rw [replaceEach, hd.has q hq]
    dsimp only
    have hfq : Free [(q, g q)] := free_one (probe_ne hq)
    have h2 : Done [(q, g q)] s (replace q (g q) s) := (sub_iff hfq s _).mp rfl
    have hne : ∀ p ∈ pairs g acc, p.1 ≠ [] := by
      intro p hp
      obtain ⟨x, hx, rfl⟩ := List.mem_map.mp hp
      exact probe_ne (hm x (List.mem_append.mpr (.inl hx)))
    have hacc : ∀ x ∈ acc, x ∈ probeWords ∧ x ≠ q := fun x hx =>
      ⟨hm x (List.mem_append.mpr (.inl hx)), fun e => (List.nodup_append.mp hn).2.2 x hx q List.mem_cons_self e⟩
    have hap : Apart (pairs g acc) [(q, g q)] s0 := by
      have each : ∀ p ∈ pairs g acc, Apart [p] [(q, g q)] s0 := by
        intro p hp
        obtain ⟨x, hx, rfl⟩ := List.mem_map.mp hp
        obtain ⟨a1, a2, -⟩ := hd.apart x (hacc x hx).1 q hq (hacc x hx).2
        exact apart_of a1 (by rw [a2]; intro z hz; cases hz)
      exact ⟨fun p hp => (each p hp).ends p List.mem_cons_self, fun p hp => (each p hp).begins p List.mem_cons_self⟩
    have h3 := done_both hne hfq _ s0 s _ (Nat.le_refl _) hap h h2
    have hb : both (pairs g acc) [(q, g q)] = pairs g (acc ++ [q]) := by
      unfold both pairs
      rw [List.map_append, List.map_map]
      congr 1
      apply List.map_congr_left
      intro x hx
      show (x, sub (words [(q, g q)]) (g x)) = (x, g x)
      rw [(hd.apart x (hacc x hx).1 q hq (hacc x hx).2).2.2]
    rw [hb] at h3
    have hl : acc ++ [q] ++ l = acc ++ q :: l := by rw [List.append_assoc]; rfl
    obtain ⟨t, ht, hdn⟩ := each_done hd l (acc ++ [q]) s0 _ (by rw [hl]; exact hn) (by rw [hl]; exact hm) h3
    rw [hl] at hdn
    exact ⟨t, ht, hdn⟩

theorem done_all {g : Str → Str} {l : List Str} (hl : ∀ x ∈ l, x ∈ probeWords) {s t : Str} (h : Done (pairs g l) s t)
    (hs : ∀ w ∈ probeWords, w <:+: s → w ∈ l) : Done (pairs g probeWords) s t := by
  induction h with
  | nil => exact .nil
  | @word w r s t hw _ ih =>
    obtain ⟨x, hx, e⟩ := List.mem_map.mp hw
    exact .word (List.mem_map.mpr ⟨x, hl x hx, e⟩) (ih fun v hv hi => hs v hv (hi.trans ⟨w, [], by simp⟩))
  | @char c s t hc _ ih =>
    refine .char (fun p hp hpr => ?_) (ih fun v hv hi => hs v hv (hi.trans ⟨[c], [], by simp⟩))
    obtain ⟨x, hx, rfl⟩ := List.mem_map.mp hp
    exact hc _ (List.mem_map.mpr ⟨x, hs x hx hpr.isInfix, rfl⟩) hpr

theorem probes_apart : NoOverlap probeWords := noOverlap_of (by decide +kernel)

/-- The loop over the probes replaces all of them, whatever the order of the set is. -/
theorem loop_done {d : Dict Str Str} {g : Str → Str} (hd : Probes d g) {order : List Str → List Str} (ho : SetOrder order)
    (s : Str) : ∃ t, replaceEach d (order (findFrom probeWords 0 s)) s = .ok t ∧ Done (pairs g probeWords) s t := by
  obtain ⟨h1, h2⟩ := ho (findFrom probeWords 0 s)
  have hin : ∀ x ∈ order (findFrom probeWords 0 s), x ∈ probeWords := fun x hx => find_mem 0 s ((h2 x).mp hx)
  have h0 : Done (pairs g []) s s := by
    clear h1 h2 hin
    induction s with
    | nil => exact .nil
    | cons c s ih => exact .char (fun p hp => by cases hp) ih
  obtain ⟨t, ht, hdn⟩ := each_done hd (order (findFrom probeWords 0 s)) [] s s h1 hin h0
  exact ⟨t, ht, done_all hin hdn fun w hw hi => (h2 w).mpr (find_complete probes_apart hw _ s (Nat.le_refl _) hi)⟩

/-! ### Whole texts -/

def texOf (p : Str) : Str := (TeX.probeToTex.lookup p).getD []
def aliasOf (p : Str) : Str := (probeAlias.lookup p).getD []

theorem probes_tex : Probes TeX.probeToTex texOf := ⟨by decide +kernel, by decide +kernel⟩
theorem probes_alias : Probes probeAlias aliasOf := ⟨by decide +kernel, by decide +kernel⟩

def clPair : List (Str × Str) := [("Cl".toList, "C_{\\ell}".toList)]
def pkPair : List (Str × Str) := [("Pk".toList, "P_k".toList)]
def xcPair : List (Str × Str) := [("XC".toList, "\\mathrm{XC}".toList)]

theorem compose {ws vs : List (Str × Str)} {s t : Str} (hf1 : freeB ws = true) (hf : freeB vs = true) (he : endsB ws vs = true)
    (hc : ∀ z ∈ clashes ws vs, ¬ z <:+: s) (h : Done ws s t) : Done (both ws vs) s (sub (words vs) t) :=
  done_both (fun p hp => (free_of hf1 p hp).1) (free_of hf) _ s t _ (Nat.le_refl _) (apart_of he hc) h
    ((sub_iff (free_of hf) t _).mp rfl)

theorem compose' {ws vs : List (Str × Str)} {s t u : Str} (hf1 : freeB ws = true) (hf : freeB vs = true)
    (he : endsB ws vs = true) (hc : clashes ws vs = []) (h : Done ws s t) (h2 : Done vs t u) : Done (both ws vs) s u :=
  done_both (fun p hp => (free_of hf1 p hp).1) (free_of hf) _ s t _ (Nat.le_refl _)
    (apart_of he (by rw [hc]; intro z hz; cases hz)) h h2

theorem no_clash {l : List Str} (h : l = []) (s : Str) : ∀ z ∈ l, ¬ z <:+: s := by rw [h]; intro z hz; cases hz

theorem letters_done (text : Str) : Done (both clPair pkPair) text
    (replace "Pk".toList "P_k".toList (replace "Cl".toList "C_{\\ell}".toList text)) :=
  compose (ws := clPair) (vs := pkPair) (by decide +kernel) (by decide +kernel) (by decide +kernel)
    (no_clash (by decide +kernel) text) ((sub_iff (free_of (by decide +kernel)) text _).mp rfl)

/-- The table before the cross correlations are translated. -/
def beforeXC : List (Str × Str) := both (both clPair pkPair) (pairs texOf probeWords)

/-- Without aliases: first all but the cross correlations, then these. -/
theorem plot_names {order : List Str → List Str} (ho : SetOrder order) (text : Str) :
    ∃ s, Done beforeXC text s ∧ fisherNames order text false = .ok (sub (words xcPair) s) := by
  obtain ⟨t, ht, hd⟩ := loop_done probes_tex ho
    (replace "Pk".toList "P_k".toList (replace "Cl".toList "C_{\\ell}".toList text))
  refine ⟨t, compose' (by decide +kernel) (by decide +kernel) (by decide +kernel) (by decide +kernel) (letters_done text) hd, ?_⟩
  unfold fisherNames
  dsimp only
  rw [if_neg (by decide), ht]
  rfl

def fisherAliases : List (Str × Str) := both (both (both clPair pkPair) xcWords) (pairs aliasOf probeWords)

theorem alias_names {order : List Str → List Str} (ho : SetOrder order) (text : Str) :
    ∃ s, Done fisherAliases text s ∧ fisherNames order text true = .ok s := by
  have h1 := compose (ws := both clPair pkPair) (vs := xcWords) (by decide +kernel) (by decide +kernel) (by decide +kernel)
    (no_clash (by decide +kernel) text) (letters_done text)
  obtain ⟨t, ht, hd⟩ := loop_done probes_alias ho (sub (words xcWords)
    (replace "Pk".toList "P_k".toList (replace "Cl".toList "C_{\\ell}".toList text)))
  refine ⟨t, compose' (by decide +kernel) (by decide +kernel) (by decide +kernel) (by decide +kernel) h1 hd, ?_⟩
  unfold fisherNames
  dsimp only
  rw [if_pos rfl, ht]

/-- **C139, the order of the set.** The translation never raises an exception, and is the same for every order in which
Python has the probes of the text. -/
theorem translate_order (order order' : List Str → List Str) (ho : SetOrder order) (ho' : SetOrder order') (text : Str)
    (aliases : Bool) : ∃ t, translate order text aliases = .ok t ∧ translate order' text aliases = .ok t := by
  cases aliases with
  | false =>
    obtain ⟨s, h1, h2⟩ := plot_names ho text
    obtain ⟨s', h1', h2'⟩ := plot_names ho' text
    have := done_unique (free_of (by decide +kernel)) h1 h1'
    subst this
    unfold translate
    rw [h2, h2']
    exact ⟨_, rfl, rfl⟩
  | true =>
    obtain ⟨s, h1, h2⟩ := alias_names ho text
    obtain ⟨s', h1', h2'⟩ := alias_names ho' text
    have := done_unique (free_of (by decide +kernel)) h1 h1'
    subst this
    unfold translate
    rw [h2, h2']
    exact ⟨_, rfl, rfl⟩

theorem same_members {a b : List (Str × Str)} (h : (a.all fun p => b.contains p) && (b.all fun p => a.contains p)) (p : Str × Str) :
    p ∈ a ↔ p ∈ b := by
  rw [Bool.and_eq_true, List.all_eq_true, List.all_eq_true] at h
  exact ⟨fun hp => List.contains_iff_mem.mp (h.1 p hp), fun hp => List.contains_iff_mem.mp (h.2 p hp)⟩

/-- **C139, labels of plots (partial).** A text is translated word by word: each name of the table once, whatever stands
around it, and nothing else changes. Missing: texts with `XCl`, where two names share a letter. -/
theorem plot_text_partial (order : List Str → List Str) (ho : SetOrder order) (text : Str)
    (hx : ¬ "XCl".toList <:+: text) (t : Str) : translate order text false = .ok t ↔ Done plotTable text t := by
  obtain ⟨s, h1, h2⟩ := plot_names ho text
  have h3 := compose (ws := beforeXC) (vs := xcPair) (by decide +kernel) (by decide +kernel) (by decide +kernel) (s := text) (by
    have : clashes beforeXC xcPair = ["XCl".toList] := by decide +kernel
    rw [this]
    intro z hz
    rw [List.mem_singleton] at hz
    subst hz
    exact hx) h1
  have h4 := compose (ws := both beforeXC xcPair) (vs := columnPairs TeX.parToTex) (by decide +kernel) (by decide +kernel)
    (by decide +kernel) (no_clash (by decide +kernel) text) h3
  have h5 := done_mem (same_members (b := plotTable) (by decide +kernel)) h4
  have hr : translate order text false = .ok (sub (words (columnPairs TeX.parToTex)) (sub (words xcPair) s)) := by
    unfold translate
    rw [h2]
    rfl
  rw [hr]
  constructor
  · intro e; cases e; exact h5
  · intro h; rw [done_unique (free_of (by decide +kernel)) h5 h]

/-- **C139, texts of tables.** With aliases every text is translated word by word. -/
theorem alias_text (order : List Str → List Str) (ho : SetOrder order) (text t : Str) :
    translate order text true = .ok t ↔ Done aliasTable text t := by
  obtain ⟨s, h1, h2⟩ := alias_names ho text
  have h4 := compose (ws := fisherAliases) (vs := columnPairs parAlias) (by decide +kernel) (by decide +kernel)
    (by decide +kernel) (no_clash (by decide +kernel) text) h1
  have h5 := done_mem (same_members (b := aliasTable) (by decide +kernel)) h4
  have hr : translate order text true = .ok (sub (words (columnPairs parAlias)) s) := by
    unfold translate
    rw [h2]
    rfl
  rw [hr]
  constructor
  · intro e; cases e; exact h5
  · intro h; rw [done_unique (free_of (by decide +kernel)) h5 h]

/-- **C139, where two names share a letter.** `XCl` becomes the translation of `XC` with the rest of the translation of `Cl`,
which is no translation word by word. -/
theorem shared_letter (order : List Str → List Str) (ho : SetOrder order) :
    translate order "XCl".toList false = .ok "\\mathrm{XC}_{\\ell}".toList ∧
      ¬ Done plotTable "XCl".toList "\\mathrm{XC}_{\\ell}".toList := by
  constructor
  · obtain ⟨s, h1, h2⟩ := plot_names ho "XCl".toList
    have hs : s = "XC_{\\ell}".toList := by
      rw [← (sub_iff (free_of (by decide +kernel)) _ _).mpr h1]
      decide +kernel
    unfold translate
    rw [h2, hs]
    decide +kernel
  · rw [← sub_iff (free_of (by decide +kernel))]
    decide +kernel

theorem no_xcl {text : Str} (h : 'X' ∉ text) : ¬ "XCl".toList <:+: text := fun hi => h (hi.subset (by decide))

/-- **C139, names of parameters next to each other.** Of two names with one blank between them only the first is translated,
in plots and in tables. -/
theorem second_missed (order : List Str → List Str) (ho : SetOrder order) : ∀ v ∈ columnWords, ∀ w ∈ columnWords,
    translate order (" ".toList ++ v ++ " ".toList ++ w ++ " ".toList) true =
      .ok (" ".toList ++ (parAlias.lookup v).getD [] ++ " ".toList ++ w ++ " ".toList) ∧
    translate order (" ".toList ++ v ++ " ".toList ++ w ++ " ".toList) false =
      .ok (" ".toList ++ (TeX.parToTex.lookup v).getD [] ++ " ".toList ++ w ++ " ".toList) := by
  intro v hv w hw
  rw [alias_text order ho, plot_text_partial order ho]
  · rw [← sub_iff (free_of (by decide +kernel)), ← sub_iff (free_of (by decide +kernel))]
    revert w
    revert v
    decide +kernel
  · apply no_xcl
    revert w
    revert v
    decide +kernel

/-- **C139, a name alone.** A text which is the name of a parameter is not translated at all. -/
theorem alone_missed (order : List Str → List Str) (ho : SetOrder order) (aliases : Bool) : ∀ v ∈ columnWords,
    translate order v aliases = .ok v := by
  intro v hv
  cases aliases with
  | true =>
    rw [alias_text order ho, ← sub_iff (free_of (by decide +kernel))]
    revert v
    decide +kernel
  | false =>
    rw [plot_text_partial order ho, ← sub_iff (free_of (by decide +kernel))]
    · revert v
      decide +kernel
    · apply no_xcl
      revert v
      decide +kernel

/-! ### Rows of tables -/

/-- The words of a table are names of parameters between blanks, or begin with one of five letters. -/
def Heads (T : List (Str × Str)) : Prop := ∀ p ∈ T, (∃ w ∈ columnWords, p.1 = ' ' :: w ++ " ".toList) ∨
  ∃ c t, p.1 = c :: t ∧ c ∈ "XCPWG".toList

def headsB (T : List (Str × Str)) : Bool := T.all fun p => (columnWords.any fun w => p.1 == ' ' :: w ++ " ".toList) ||
  match p.1 with
  | c :: _ => "XCPWG".toList.contains c
  | [] => false

theorem heads_of {T : List (Str × Str)} (h : headsB T = true) : Heads T := by
  intro p hp
  have := List.all_eq_true.mp h p hp
  rw [Bool.or_eq_true] at this
  rcases this with h | h
  · obtain ⟨w, hw, e⟩ := List.any_eq_true.mp h
    exact .inl ⟨w, hw, beq_iff_eq.mp e⟩
  · cases hq : p.1 with
    | nil => rw [hq] at h; cases h
    | cons c t =>
      rw [hq] at h
      exact .inr ⟨c, t, rfl, List.contains_iff_mem.mp h⟩

theorem column_facts : ∀ w ∈ columnWords, w ≠ [] ∧ ' ' ∉ w ∧ '&' ∉ w := by decide +kernel

/-- Two texts without blanks, each followed by a blank. -/
theorem upto_blank {a b x y : Str} (ha : ' ' ∉ a) (hb : ' ' ∉ b) (h : a ++ ' ' :: x = b ++ ' ' :: y) : a = b := by
  induction a generalizing b with
  | nil =>
    cases b with
    | nil => rfl
    | cons d b =>
      rw [List.nil_append, List.cons_append] at h
      injection h with e _
      subst e
      exact absurd List.mem_cons_self hb
  | cons c a ih =>
    cases b with
    | nil =>
      rw [List.nil_append, List.cons_append] at h
      injection h with e _
      subst e
      exact absurd List.mem_cons_self ha
    | cons d b =>
      rw [List.cons_append, List.cons_append] at h
      injection h with e1 e2
      rw [e1, ih (fun hm => ha (List.mem_cons_of_mem _ hm)) (fun hm => hb (List.mem_cons_of_mem _ hm)) e2]

/-- A cell which is no name and has no letter with which names begin. -/
def Neutral (c : Str) : Prop := ' ' ∉ c ∧ c ∉ columnWords ∧ ∀ x ∈ c, x ∉ "XCPWG".toList

def rowOf (cells : List Str) : Str := (cells.map fun c => ' ' :: c ++ " &".toList).flatten

theorem neutral_chars {T : List (Str × Str)} (hT : Heads T) {s t : Str} (h : Done T s t) : ∀ c : Str,
    (∀ x ∈ c, x ≠ ' ' ∧ x ∉ "XCPWG".toList) → Done T (c ++ s) (c ++ t)
  | [], _ => h
  | x :: c, hc => by
    refine .char (fun p hp hpr => ?_) (neutral_chars hT h c fun y hy => hc y (List.mem_cons_of_mem _ hy))
    obtain ⟨h1, h2⟩ := hc x List.mem_cons_self
    obtain ⟨z, hz⟩ := hpr
    rcases hT p hp with ⟨w, -, e⟩ | ⟨d, u, e, hd⟩
    · rw [e] at hz
      injection hz with e1 _
      exact h1 e1.symm
    · rw [e] at hz
      injection hz with e1 _
      exact h2 (e1 ▸ hd)

theorem sep_done {T : List (Str × Str)} (hT : Heads T) {s t : Str} (h : Done T s t) : Done T (" &".toList ++ s) (" &".toList ++ t) := by
  have h1 : Done T ('&' :: s) ('&' :: t) := neutral_chars hT h ['&'] (by decide)
  refine Done.char (c := ' ') (fun p hp hpr => ?_) h1
  obtain ⟨z, hz⟩ := hpr
  rcases hT p hp with ⟨w, hw, e⟩ | ⟨d, u, e, hd⟩
  · obtain ⟨f1, f2, f3⟩ := column_facts w hw
    rw [e] at hz
    injection hz with _ hz
    cases w with
    | nil => exact f1 rfl
    | cons d w =>
      injection hz with e1 _
      exact f3 (e1 ▸ List.mem_cons_self)
  · rw [e] at hz
    injection hz with e1 _
    rw [e1] at hd
    revert hd
    decide

/-- **C139, rows of a table.** In a row of cells between `&`, every cell which is the name of a parameter is translated, and
other cells without names stay. -/
theorem row_done {T : List (Str × Str)} (hT : Heads T) (g : Str → Str)
    (hg : ∀ w ∈ columnWords, (' ' :: w ++ " ".toList, ' ' :: g w ++ " ".toList) ∈ T) : ∀ cells : List Str,
    (∀ c ∈ cells, c ∈ columnWords ∨ Neutral c) →
    Done T (rowOf cells) (rowOf (cells.map fun c => if c ∈ columnWords then g c else c))
  | [], _ => .nil
  | c :: cells, hc => by
    have ih := row_done hT g hg cells fun x hx => hc x (List.mem_cons_of_mem _ hx)
    have hstep : ∀ (d : Str) (l : List Str), rowOf (d :: l) = ' ' :: d ++ " ".toList ++ ('&' :: rowOf l) := by
      intro d l
      unfold rowOf
      rw [List.map_cons, List.flatten_cons]
      show (' ' :: d ++ " &".toList) ++ _ = _
      rw [List.append_assoc, List.append_assoc]
      rfl
    rw [List.map_cons, hstep, hstep]
    by_cases hm : c ∈ columnWords
    · rw [if_pos hm]
      exact .word (hg c hm) (neutral_chars hT ih ['&'] (by decide))
    · rw [if_neg hm]
      rcases hc c List.mem_cons_self with h | ⟨n1, n2, n3⟩
      · exact absurd h hm
      · have h1 : Done T (c ++ (" &".toList ++ rowOf cells)) (c ++ (" &".toList ++ rowOf (cells.map fun c => if c ∈ columnWords then g c else c))) :=
          neutral_chars hT (sep_done hT ih) c fun x hx => ⟨fun e => n1 (e ▸ hx), n3 x hx⟩
        have e : ∀ l, ' ' :: c ++ " ".toList ++ '&' :: rowOf l = ' ' :: (c ++ (" &".toList ++ rowOf l)) := by
          intro l
          rw [List.append_assoc]
          rfl
        rw [e, e]
        refine .char (fun p hp hpr => ?_) h1
        obtain ⟨z, hz⟩ := hpr
        rcases hT p hp with ⟨w, hw, e⟩ | ⟨d, u, e, hd⟩
        · rw [e, List.cons_append, List.cons_append] at hz
          injection hz with _ hz
          rw [List.append_assoc] at hz
          have := upto_blank (column_facts w hw).2.1 n1 hz
          exact n2 (this ▸ hw)
        · rw [e] at hz
          injection hz with e1 _
          rw [e1] at hd
          revert hd
          decide

theorem row_text (order : List Str → List Str) (ho : SetOrder order) (cells : List Str)
    (hc : ∀ c ∈ cells, c ∈ columnWords ∨ Neutral c) :
    translate order (rowOf cells) true =
      .ok (rowOf (cells.map fun c => if c ∈ columnWords then (parAlias.lookup c).getD [] else c)) :=
  (alias_text order ho _ _).mpr (row_done (heads_of (by decide +kernel)) (fun c => (parAlias.lookup c).getD []) (by decide +kernel)
    cells hc)

end Seyfert.TeXText
