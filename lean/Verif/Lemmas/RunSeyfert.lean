import Verif.Model.RunSeyfert
import Verif.Lemmas.PyDict
import Verif.Lemmas.PyNum
import Verif.Props.Orchestration
import Verif.Props.Names

/-!
Lemmas on the command line of `run_seyfert`.
-/

namespace Seyfert.RunS

open Orch (Pth pname stem)
open OrchIn (toPath)

/-- A path as `Path(text)` gives it. -/
def Norm (p : Pth) : Prop :=
  ∃ r, (p = r ∨ p = [] :: r) ∧ ∀ c ∈ r, c ≠ [] ∧ c ≠ ['.'] ∧ '/' ∉ c

theorem split_no_sep (c : Char) (s : Str) : ∀ p ∈ splitChar c s, c ∉ p := by
  induction s with
  | nil => intro p hp; simp [splitChar] at hp; subst hp; simp
  | cons a s ih =>
    rw [splitChar]
    by_cases h : a = c
    · rw [if_pos h]
      intro p hp
      rcases List.mem_cons.mp hp with rfl | hp
      · simp
      · exact ih p hp
    · rw [if_neg h]
      cases hs : splitChar c s with
      | nil => exact absurd hs (splitChar_ne_nil c s)
      | cons x l =>
        rw [hs] at ih
        intro p hp
        simp only [List.mem_cons] at hp
        rcases hp with rfl | hp
        · intro hc
          rcases List.mem_cons.mp hc with e | hc
          · exact h e.symm
          · exact ih x (by simp) hc
        · exact ih p (by simp [hp])

theorem norm_toPath (s : Str) : Norm (toPath s) := by
  have key : ∀ t : Str, ∀ c ∈ (splitChar '/' t).filter (fun p => decide (p ≠ [] ∧ p ≠ ['.'])),
      c ≠ [] ∧ c ≠ ['.'] ∧ '/' ∉ c := by
    intro t c hc
    rw [List.mem_filter] at hc
    have := of_decide_eq_true hc.2
    exact ⟨this.1, this.2, split_no_sep _ _ _ hc.1⟩
  unfold toPath
  split
  · exact ⟨_, Or.inr rfl, key _⟩
  · exact ⟨_, Or.inl rfl, key _⟩

theorem filter_comps (r : Pth) (h : ∀ c ∈ r, c ≠ [] ∧ c ≠ ['.'] ∧ '/' ∉ c) :
    r.filter (fun p => decide (p ≠ [] ∧ p ≠ ['.'])) = r := by
  rw [List.filter_eq_self]
  intro c hc
  exact decide_eq_true ⟨(h c hc).1, (h c hc).2.1⟩

/-- Writing a path and reading it back. -/
theorem toPath_pathText (p : Pth) (hp : Norm p) : toPath (pathText p) = p := by
  obtain ⟨r, hr, h⟩ := hp
  have sl : "/".toList = ['/'] := by decide
  by_cases e0 : p = []
  · subst e0; decide
  by_cases e1 : p = [[]]
  · subst e1; decide
  have ht : pathText p = joinStr ['/'] p := by
    unfold pathText; rw [if_neg e0, if_neg e1, sl]
  rw [ht]
  rcases hr with rfl | rfl
  · cases p with
    | nil => exact absurd rfl e0
    | cons a p =>
      have hs : splitChar '/' (joinStr ['/'] (a :: p)) = a :: p :=
        splitChar_join '/' _ (by simp) (fun q hq => (h q hq).2.2)
      have hh : ∀ x, joinStr ['/'] (a :: p) ≠ '/' :: x := by
        intro x hx
        have ha := h a (by simp)
        cases a with
        | nil => exact ha.1 rfl
        | cons b a =>
          have : b = '/' := by
            cases p with
            | nil => simp [joinStr] at hx; exact hx.1
            | cons q p => rw [joinStr_cons_cons] at hx; simp at hx; exact hx.1
          exact ha.2.2 (by simp [this])
      unfold toPath
      split
      · rename_i x hx; exact absurd hx (hh _)
      · rw [hs]; exact filter_comps _ h
  · cases r with
    | nil => exact absurd rfl e1
    | cons a r =>
      have hs : splitChar '/' (joinStr ['/'] ([] :: a :: r)) = [] :: a :: r := by
        apply splitChar_join '/' _ (by simp)
        intro q hq
        rcases List.mem_cons.mp hq with rfl | hq
        · simp
        · exact (h q hq).2.2
      have hj : joinStr ['/'] ([] :: a :: r) = '/' :: joinStr ['/'] (a :: r) := by
        rw [joinStr_cons_cons]; rfl
      rw [hj] at hs ⊢
      unfold toPath
      rw [hs, List.filter_cons]
      have : decide (([] : Str) ≠ [] ∧ ([] : Str) ≠ ['.']) = false := by decide
      rw [this]
      simp only [Bool.false_eq_true, if_false]
      rw [filter_comps _ h]

theorem parseInt_intText (n : Int) : parseInt (intText n) = some n := by
  cases n with
  | ofNat n =>
    show parseInt (decStr n) = _
    have hd : ∀ s, decStr n ≠ '-' :: s := by
      intro s hs
      have := decStr_digits n '-' (by rw [hs]; simp)
      revert this; decide
    unfold parseInt
    split
    · rename_i s hs; exact absurd hs (hd _)
    · rw [parseNat_decStr]; rfl
  | negSucc n =>
    show parseInt ('-' :: decStr (n + 1)) = _
    show (parseNat (decStr (n + 1))).map (fun (m : Nat) => -(m : Int)) = _
    rw [parseNat_decStr]
    rfl

/-! ### Words of a command line -/

/-- A text which is one word of the command line, and there taken for a value. -/
def Plain (s : Str) : Prop := s ≠ [] ∧ isValue s = true ∧ ∀ c ∈ s, safeChar c = true

theorem safe_not_space {c : Char} (h : safeChar c = true) : c ≠ ' ' := by
  rintro rfl; revert h; decide

theorem Plain.no_space {s : Str} (h : Plain s) : ' ' ∉ s := fun hc => safe_not_space (h.2.2 _ hc) rfl

theorem wordsEq (s : Str) : (splitChar ' ' s).filter (fun w => decide (w ≠ [])) = Orch.words s := by
  unfold Orch.words
  congr 1

theorem item_some {p : Str × Val} {s : Str} (h : item p = some s) :
    p.2 ≠ .none ∧ s = "--".toList ++ p.1 ++ " ".toList ++ p.2.str := by
  unfold item at h
  by_cases e : p.2 = .none
  · rw [if_pos e] at h; cases h
  · rw [if_neg e] at h; exact ⟨e, (Option.some.inj h).symm⟩

/-- The words of the options which have a value. -/
def optWords (d : Dict Str Val) : List (Str × List Str) :=
  d.filterMap fun p => if p.2 = .none then none else some ("--".toList ++ p.1, [p.2.str])

theorem shell_command (d : Dict Str Val) (hk : ∀ p ∈ d, ∀ c ∈ p.1, safeChar c = true)
    (hv : ∀ p ∈ d, p.2 ≠ .none → Plain p.2.str) :
    shell ("run_seyfert ".toList ++ joinStr " ".toList (d.filterMap item)) =
      some ("run_seyfert".toList :: (optWords d).flatMap fun g => g.1 :: g.2) := by
  have sp : " ".toList = [' '] := by decide
  have hd : "--".toList = ['-', '-'] := by decide
  have hsafe : ∀ c ∈ joinStr " ".toList (d.filterMap item), c = ' ' ∨ safeChar c = true := by
    intro c hc
    rcases mem_joinStr _ _ _ hc with hc | ⟨s, hs, hc⟩
    · rw [sp] at hc; left; simpa using hc
    · obtain ⟨p, hp, hps⟩ := List.mem_filterMap.mp hs
      obtain ⟨e, rfl⟩ := item_some hps
      rw [sp, hd] at hc
      simp only [List.mem_append, List.mem_cons, List.not_mem_nil, or_false] at hc
      rcases hc with ((h | h) | h) | h
      · right; rcases h with rfl | rfl <;> decide
      · right; exact hk p hp c h
      · left; exact h
      · right; exact (hv p hp e).2.2 c h
  unfold shell
  rw [if_pos]
  · congr 1
    rw [wordsEq]
    have js : "run_seyfert ".toList = "run_seyfert".toList ++ [' '] := by decide +kernel
    rw [js, List.append_assoc, List.cons_append, List.nil_append, Orch.words_app]
    have w0 : Orch.words "run_seyfert".toList = ["run_seyfert".toList] := by decide +kernel
    rw [w0, sp, Orch.words_join, List.cons_append, List.nil_append]
    congr 1
    clear hsafe w0 js
    induction d with
    | nil => rfl
    | cons p d ih =>
      unfold optWords at ih ⊢
      have ih' := ih (fun q hq => hk q (List.mem_cons_of_mem _ hq)) (fun q hq => hv q (List.mem_cons_of_mem _ hq))
      by_cases e : p.2 = .none
      · rw [List.filterMap_cons_none (by unfold item; rw [if_pos e]), ih',
          List.filterMap_cons_none (by rw [if_pos e])]
      · rw [List.filterMap_cons_some (b := "--".toList ++ p.1 ++ " ".toList ++ p.2.str)
          (by unfold item; rw [if_neg e]), List.flatMap_cons, ih',
          List.filterMap_cons_some (b := ("--".toList ++ p.1, [p.2.str])) (by rw [if_neg e]), List.flatMap_cons]
        congr 1
        have hs := hv p (by simp) e
        rw [sp, List.append_assoc, List.cons_append, List.nil_append, Orch.words_app,
          Orch.words_one _ _ (by rw [hd]; simp), Orch.words_one _ hs.no_space hs.1]
        · rfl
        · rw [hd]
          intro hc
          simp only [List.mem_append, List.mem_cons, List.not_mem_nil, or_false] at hc
          rcases hc with h | h
          · revert h; decide
          · exact safe_not_space (hk p (by simp) _ h) rfl
  · rw [List.all_eq_true]
    intro c hc
    rcases List.mem_append.mp hc with h | h
    · have : ∀ c ∈ "run_seyfert ".toList, (decide (c = ' ') || safeChar c) = true := by decide +kernel
      exact this c h
    · rcases hsafe c h with rfl | h
      · rfl
      · rw [h, Bool.or_true]

theorem group_words (l : List (Str × List Str)) (h : ∀ g ∈ l, isValue g.1 = false ∧ ∀ t ∈ g.2, isValue t = true) :
    group (l.flatMap fun g => g.1 :: g.2) = ([], l) := by
  have vals : ∀ ts : List Str, (∀ t ∈ ts, isValue t = true) → ∀ r, group (ts ++ r) = (ts ++ (group r).1, (group r).2) := by
    intro ts
    induction ts with
    | nil => intro _ r; rfl
    | cons t ts ih =>
      intro ht r
      rw [List.cons_append, group, if_pos (ht t (by simp)), ih (fun u hu => ht u (List.mem_cons_of_mem _ hu))]
      rfl
  induction l with
  | nil => rfl
  | cons g l ih =>
    have hg := h g (by simp)
    rw [List.flatMap_cons, List.cons_append, group, if_neg (by rw [hg.1]; decide), vals _ hg.2,
      ih (fun q hq => h q (List.mem_cons_of_mem _ hq))]
    simp

/-! ### Values of options -/

/-- A value which the parser can give to an option. -/
def HasKind : Kind → Val → Prop
  | .path, v => ∃ p, v = .path p ∧ Norm p
  | .int, v => ∃ n, v = .int n
  | .text, v => ∃ s, v = .text s
  | .flag, v => (∃ b, v = .bool b) ∨ ∃ s, v = .text s
  | .paths, v => ∃ l, v = .paths l ∧ ∀ p ∈ l, Norm p

theorem hasKind_ne_none {k : Kind} {v : Val} (h : HasKind k v) : v ≠ .none := by
  rintro rfl
  cases k <;> simp [HasKind] at h

theorem convert_kind {k : Kind} {ts : List Str} {v : Val} (h : convert k ts = .ok v) : HasKind k v := by
  unfold convert at h
  split at h
  · cases h; exact ⟨_, rfl, norm_toPath _⟩
  · split at h
    · cases h; exact ⟨_, rfl⟩
    · cases h
  · cases h; exact ⟨_, rfl⟩
  · cases h; exact Or.inl ⟨_, rfl⟩
  · cases h; exact Or.inr ⟨_, rfl⟩
  · cases h
    refine ⟨_, rfl, ?_⟩
    intro p hp
    obtain ⟨t, _, rfl⟩ := List.mem_map.mp hp
    exact norm_toPath t
  · cases h

/-- What is written on the command line is read back. -/
theorem convert_str {k : Kind} {v : Val} (h : HasKind k v) (hk : k = .path ∨ k = .int ∨ k = .text) :
    convert k [v.str] = .ok v := by
  rcases hk with rfl | rfl | rfl
  · obtain ⟨p, rfl, hp⟩ := h
    show Except.ok (Val.path (toPath (pathText p))) = _
    rw [toPath_pathText p hp]
  · obtain ⟨n, rfl⟩ := h
    show (match parseInt (intText n) with | some n => Except.ok (Val.int n) | none => Except.error Err.usage) = _
    rw [parseInt_intText]
  · obtain ⟨s, rfl⟩ := h
    rfl

theorem strip_dashes (k : Str) : stripPrefix "--".toList ("--".toList ++ k) = some k := stripPrefix_append _ _

theorem assign_cons (d : Dict Str Val) (k : Str) (ts : List Str) (gs : List (Str × List Str)) (kind : Kind) (v : Val)
    (h : options.lookup k = some kind) (hv : convert kind ts = .ok v) :
    assign d (("--".toList ++ k, ts) :: gs) = assign (PyDict.set d k v) gs := by
  rw [assign, strip_dashes]
  dsimp only
  rw [h]
  dsimp only
  rw [hv]

/-- A successful assignment has a known option and a good value in every place. -/
theorem assign_ok_cons {d d' : Dict Str Val} {o : Str} {ts : List Str} {gs : List (Str × List Str)}
    (h : assign d ((o, ts) :: gs) = .ok d') :
    ∃ k kind v, o = "--".toList ++ k ∧ options.lookup k = some kind ∧ convert kind ts = .ok v ∧
      assign (PyDict.set d k v) gs = .ok d' := by
  rw [assign] at h
  split at h
  · cases h
  · rename_i k hk
    split at h
    · cases h
    · rename_i kind hkind
      split at h
      · cases h
      · rename_i v hv
        exact ⟨k, kind, v, (stripPrefix_eq_some _ _ _).mp hk, hkind, hv, h⟩

/-- Every value is a default or a value of its kind. -/
theorem assign_values {gs : List (Str × List Str)} : ∀ {d d' : Dict Str Val}, assign d gs = .ok d' → ∀ k,
    d'.lookup k = d.lookup k ∨ ∃ kind v, options.lookup k = some kind ∧ HasKind kind v ∧ d'.lookup k = some v := by
  induction gs with
  | nil => intro d d' h k; cases h; exact Or.inl rfl
  | cons g gs ih =>
    intro d d' h k
    obtain ⟨k', kind, v, -, h1, h2, h3⟩ := assign_ok_cons h
    rcases ih h3 k with e | e
    · rw [PyDict.lookup_set] at e
      by_cases hk : k = k'
      · subst hk
        rw [if_pos rfl] at e
        exact Or.inr ⟨kind, v, h1, convert_kind h2, e⟩
      · rw [if_neg hk] at e
        exact Or.inl e
    · exact Or.inr e

theorem assign_keys {gs : List (Str × List Str)} : ∀ {d d' : Dict Str Val}, assign d gs = .ok d' →
    (∀ k kind, options.lookup k = some kind → k ∈ d.map (·.1)) → d'.map (·.1) = d.map (·.1) := by
  induction gs with
  | nil => intro d d' h _; cases h; rfl
  | cons g gs ih =>
    intro d d' h hd
    obtain ⟨k', kind, v, -, h1, h2, h3⟩ := assign_ok_cons h
    have hs : (PyDict.set d k' v).map (·.1) = d.map (·.1) := by
      rw [PyDict.keys_set, if_pos (hd _ _ h1)]
    rw [ih h3 (by rw [hs]; exact hd), hs]

/-- Reading back a command line: `vals` gives the values the parser makes of the written ones. -/
theorem assign_words (conv : Str → Val → Val) (d0 : Dict Str Val) :
    ∀ (l : Dict Str Val), (l.map (·.1)).Nodup →
    (∀ p ∈ l, p.2 ≠ .none → ∃ kind, options.lookup p.1 = some kind ∧ convert kind [p.2.str] = .ok (conv p.1 p.2)) →
    ∃ d', assign d0 (optWords l) = .ok d' ∧ ∀ k, d'.lookup k =
      match l.lookup k with
      | some v => if v = .none then d0.lookup k else some (conv k v)
      | none => d0.lookup k := by
  intro l
  induction l generalizing d0 with
  | nil => intro _ _; exact ⟨d0, rfl, fun k => rfl⟩
  | cons p l ih =>
    intro hn hv
    rw [List.map_cons, List.nodup_cons] at hn
    have hl : l.lookup p.1 = none := (PyDict.lookup_none_iff l p.1).mpr hn.1
    by_cases e : p.2 = .none
    · obtain ⟨d', h1, h2⟩ := ih d0 hn.2 (fun q hq => hv q (List.mem_cons_of_mem _ hq))
      refine ⟨d', ?_, ?_⟩
      · unfold optWords at h1 ⊢
        rw [List.filterMap_cons_none (by rw [if_pos e]), h1]
      · intro k
        rw [h2 k]
        by_cases hk : k = p.1
        · subst hk
          rw [hl, List.lookup_cons_self]
          dsimp only
          rw [if_pos e]
        · rw [show List.lookup k (p :: l) = List.lookup k l from by
            obtain ⟨a, b⟩ := p
            rw [List.lookup_cons]
            have : (k == a) = false := by simpa using hk
            rw [this]]
    · obtain ⟨kind, hk1, hk2⟩ := hv p (by simp) e
      obtain ⟨d', h1, h2⟩ := ih (PyDict.set d0 p.1 (conv p.1 p.2)) hn.2 (fun q hq => hv q (List.mem_cons_of_mem _ hq))
      refine ⟨d', ?_, ?_⟩
      · unfold optWords at h1 ⊢
        rw [List.filterMap_cons_some (b := ("--".toList ++ p.1, [p.2.str])) (by rw [if_neg e]),
          assign_cons _ _ _ _ _ _ hk1 hk2, h1]
      · intro k
        rw [h2 k]
        by_cases hk : k = p.1
        · subst hk
          rw [hl, List.lookup_cons_self]
          dsimp only
          rw [if_neg e, PyDict.lookup_set, if_pos rfl]
        · rw [show List.lookup k (p :: l) = List.lookup k l from by
            obtain ⟨a, b⟩ := p
            rw [List.lookup_cons]
            have : (k == a) = false := by simpa using hk
            rw [this]]
          rw [PyDict.lookup_set, if_neg hk]

end Seyfert.RunS
