import Verif.Model.Boltzmann
import Verif.Lemmas.PyDict
import Verif.Props.Batch

/-!
C51: ini files of CAMB.
-/

set_option linter.unusedSectionVars false

namespace Seyfert.Boltzmann

/-! ### Specification -/

/-- No blank at either end. -/
def Trimmed (s : Str) : Prop := (∀ c, s.head? = some c → isSpace c = false) ∧ (∀ c, s.getLast? = some c → isSpace c = false)

/-- No line break inside. -/
def OneLine (s : Str) : Prop := ∀ c ∈ s, isBreak c = false

/-- A name that can be written: not empty, on one line, without surrounding blanks, not a comment. -/
def GoodName (s : Str) : Prop := s ≠ [] ∧ OneLine s ∧ Trimmed s ∧ s.head? ≠ some '#'

/-- A value that can be written: on one line, without surrounding blanks, without equals sign. -/
def GoodValue (s : Str) : Prop := OneLine s ∧ Trimmed s ∧ '=' ∉ s

/-! ### Lemmas -/

theorem dropWhile_id {s : Str} (h : ∀ c, s.head? = some c → isSpace c = false) : s.dropWhile isSpace = s := by
  cases s with
  | nil => rfl
  | cons c s => rw [List.dropWhile_cons, if_neg (by rw [h c rfl]; decide)]

theorem strip_trimmed {s : Str} (h : Trimmed s) : strip s = s := by
  unfold strip
  rw [dropWhile_id h.1, dropWhile_id (by rw [List.head?_reverse]; exact h.2), List.reverse_reverse]

theorem dropWhile_head (s : Str) (c : Char) (h : (s.dropWhile isSpace).head? = some c) : isSpace c = false := by
  induction s with
  | nil => simp at h
  | cons x s ih =>
    rw [List.dropWhile_cons] at h
    split at h
    · exact ih h
    · rw [List.head?_cons, Option.some.injEq] at h
      rename_i hx
      rw [← h]
      simpa using hx

theorem dropWhile_suffix (s : Str) : ∃ p, s = p ++ s.dropWhile isSpace :=
  ⟨s.takeWhile isSpace, List.takeWhile_append_dropWhile.symm⟩

theorem strip_isTrimmed (s : Str) : Trimmed (strip s) := by
  unfold strip
  constructor
  · intro c h
    obtain ⟨p, hp⟩ := dropWhile_suffix (s.dropWhile isSpace).reverse
    generalize hy : (s.dropWhile isSpace).reverse.dropWhile isSpace = y at *
    have e : s.dropWhile isSpace = y.reverse ++ p.reverse := by
      have := congrArg List.reverse hp
      rwa [List.reverse_reverse, List.reverse_append] at this
    apply dropWhile_head s c
    rw [e]
    cases hr : y.reverse with
    | nil => rw [hr] at h; simp at h
    | cons a r =>
      rw [hr] at h
      exact h
  · intro c h
    rw [List.getLast?_reverse] at h
    exact dropWhile_head _ c h

theorem strip_mem {s : Str} {c : Char} (h : c ∈ strip s) : c ∈ s := by
  unfold strip at h
  rw [List.mem_reverse] at h
  have h1 := (List.dropWhile_suffix _).subset h
  rw [List.mem_reverse] at h1
  exact (List.dropWhile_suffix _).subset h1

/-- Blanks at the ends do not matter. -/
theorem strip_left (c : Char) (s : Str) (h : isSpace c = true) : strip (c :: s) = strip s := by
  unfold strip
  rw [List.dropWhile_cons, if_pos h]

theorem strip_right (s : Str) (c : Char) (h : isSpace c = true) : strip (s ++ [c]) = strip s := by
  unfold strip
  rw [List.dropWhile_append]
  by_cases he : (s.dropWhile isSpace).isEmpty
  · rw [if_pos he]
    rw [List.isEmpty_iff] at he
    rw [he, List.dropWhile_cons, if_pos h]
    rfl
  · rw [if_neg he, List.reverse_append, List.reverse_cons, List.reverse_nil, List.nil_append, List.cons_append,
      List.nil_append, List.dropWhile_cons, if_pos h]

theorem splitLines_line (l rest : Str) (h : OneLine l) (b : Char) (hb : isBreak b = true) :
    splitLines (l ++ b :: rest) = l :: splitLines rest := by
  induction l with
  | nil => rw [List.nil_append, splitLines, if_pos hb]
  | cons c l ih =>
    rw [List.cons_append, splitLines, if_neg (by rw [h c List.mem_cons_self]; decide),
      ih (fun x hx => h x (List.mem_cons_of_mem _ hx))]

theorem splitLines_oneLine (s l : Str) (h : l ∈ splitLines s) : OneLine l := by
  induction s generalizing l with
  | nil => simp [splitLines] at h
  | cons c s ih =>
    rw [splitLines] at h
    by_cases hb : isBreak c = true
    · rw [if_pos hb] at h
      rcases List.mem_cons.mp h with rfl | h
      · intro x hx
        simp at hx
      · exact ih l h
    · rw [if_neg hb] at h
      cases hs : splitLines s with
      | nil =>
        rw [hs] at h
        simp only [List.mem_singleton] at h
        subst h
        intro x hx
        rw [List.mem_singleton] at hx
        rw [hx]
        simpa using hb
      | cons g t =>
        rw [hs] at h ih
        simp only [List.mem_cons] at h
        rcases h with rfl | h
        · intro x hx
          rcases List.mem_cons.mp hx with rfl | hx
          · simpa using hb
          · exact ih g List.mem_cons_self x hx
        · exact ih l (List.mem_cons_of_mem _ h)

theorem splitLastEq_spec (n v : Str) (h : '=' ∉ v) : splitLastEq (n ++ '=' :: v) = some (n, v) := by
  unfold splitLastEq
  rw [List.reverse_append, List.reverse_cons, List.append_assoc, List.singleton_append,
    Batch.span_all (fun c => decide (c ≠ '=')) v.reverse
      (fun c hc => decide_eq_true (fun e => h (by rw [← e]; exact List.mem_reverse.mp hc))) ('=' :: n.reverse)
      (fun c hc => by
        rw [List.head?_cons, Option.mem_def, Option.some.injEq] at hc
        rw [← hc]
        decide)]
  simp only [List.reverse_reverse]

theorem splitLastEq_some (s n v : Str) (h : splitLastEq s = some (n, v)) : s = n ++ '=' :: v ∧ '=' ∉ v := by
  unfold splitLastEq at h
  have h1 := Batch.span_append (fun c => decide (c ≠ '=')) s.reverse
  have h2 := Batch.span_fst (fun c => decide (c ≠ '=')) s.reverse
  have h3 := Batch.span_head (fun c => decide (c ≠ '=')) s.reverse
  generalize Names.spanChars (fun c => decide (c ≠ '=')) s.reverse = q at *
  obtain ⟨a, b⟩ := q
  cases b with
  | nil => simp at h
  | cons c b =>
    simp only [Option.some.injEq, Prod.mk.injEq] at h
    obtain ⟨rfl, rfl⟩ := h
    have hc : c = '=' := by simpa using h3 c rfl
    subst hc
    constructor
    · have := congrArg List.reverse h1
      rw [List.reverse_reverse] at this
      rw [← this]
      simp
    · intro hm
      have := h2 '=' (List.mem_reverse.mp hm)
      simp at this

/-! ### Reading a line -/

theorem readLine_value (k a b : Str) (hk : GoodName k) (hb : '=' ∉ b)
    (hl : ∀ x, ('=' :: b).getLast? = some x → isSpace x = false) :
    readLine (k ++ a ++ '=' :: b) = some (strip (k ++ a), strip b) := by
  obtain ⟨c, k, rfl⟩ := List.exists_cons_of_ne_nil hk.1
  unfold readLine
  have hs : strip (c :: k ++ a ++ '=' :: b) = c :: k ++ a ++ '=' :: b := by
    apply strip_trimmed
    constructor
    · intro x hx
      exact hk.2.2.1.1 x hx
    · intro x hx
      apply hl x
      rw [List.getLast?_append] at hx
      cases hl : ('=' :: b).getLast? with
      | none => simp at hl
      | some y =>
        rw [hl] at hx
        exact hx
  rw [hs, List.cons_append, List.cons_append, matchLine, if_neg, splitLastEq_spec (k ++ a) b hb]
  · rfl
  · intro e
    exact hk.2.2.2 (by rw [e]; rfl)

/-- A line as it is written is read back. -/
theorem readLine_written (k v : Str) (hk : GoodName k) (hv : GoodValue v) :
    readLine (k ++ " = ".toList ++ v) = some (k, v) := by
  have hsp : isSpace ' ' = true := by decide
  have e : " = ".toList = ' ' :: '=' :: [' '] := by decide
  have hkk : strip (k ++ [' ']) = k := by rw [strip_right k ' ' hsp, strip_trimmed hk.2.2.1]
  rw [e]
  by_cases h0 : v = []
  · subst h0
    rw [List.append_nil]
    obtain ⟨c, k, rfl⟩ := List.exists_cons_of_ne_nil hk.1
    unfold readLine
    have hs : strip (c :: k ++ [' ', '=', ' ']) = c :: k ++ [' ', '='] := by
      have e2 : c :: k ++ [' ', '=', ' '] = (c :: k ++ [' ', '=']) ++ [' '] := by simp
      rw [e2, strip_right _ ' ' hsp, strip_trimmed]
      constructor
      · intro x hx
        exact hk.2.2.1.1 x hx
      · intro x hx
        rw [List.getLast?_append] at hx
        have : x = '=' := by simpa using hx.symm
        rw [this]
        decide
    have e3 : k ++ [' ', '='] = (k ++ [' ']) ++ '=' :: [] := by simp
    rw [hs, List.cons_append, matchLine, if_neg (fun e => hk.2.2.2 (by rw [e]; rfl)), e3,
      splitLastEq_spec (k ++ [' ']) [] (by simp)]
    have : strip (c :: (k ++ [' '])) = c :: k := by
      rw [← List.cons_append]
      exact hkk
    simp only [Option.map_some, this]
    rfl
  · have h := readLine_value k [' '] (' ' :: v) hk (by simp [hv.2.2]) (fun x hx => hv.2.1.2 x (by
      obtain ⟨y, w, rfl⟩ := List.exists_cons_of_ne_nil h0
      exact hx))
    have e2 : k ++ [' '] ++ '=' :: ' ' :: v = k ++ ' ' :: '=' :: [' '] ++ v := by simp
    rw [e2, hkk, strip_left ' ' v hsp, strip_trimmed hv.2.1] at h
    exact h

/-! ### C51 -/

theorem read_written (d : Dict Str Str) (h : ∀ p ∈ d, OneLine p.1 ∧ OneLine p.2) :
    splitLines (writeIni d) = d.map fun p => p.1 ++ " = ".toList ++ p.2 := by
  induction d with
  | nil => rfl
  | cons p d ih =>
    have hp := h p List.mem_cons_self
    have e : "\n".toList = ['\n'] := by decide
    have hsep : OneLine " = ".toList := by unfold OneLine; decide
    have e2 : writeIni (p :: d) = (p.1 ++ " = ".toList ++ p.2) ++ '\n' :: writeIni d := by
      unfold writeIni
      rw [List.flatMap_cons, e, List.append_assoc, List.singleton_append]
    rw [e2, splitLines_line _ _ ?_ '\n' (by decide), ih (fun q hq => h q (List.mem_cons_of_mem _ hq)), List.map_cons]
    intro c hc
    rcases List.mem_append.mp hc with hc | hc
    · rcases List.mem_append.mp hc with hc | hc
      · exact hp.1 c hc
      · exact hsep c hc
    · exact hp.2 c hc

/-- A dictionary of writable names and values comes back unchanged, in the same order. Names may contain equals signs;
what is missing of the claim is that values may not. -/
theorem round_trip_partial (d : Dict Str Str) (hd : (d.map (·.1)).Nodup) (h : ∀ p ∈ d, GoodName p.1 ∧ GoodValue p.2) :
    readIni (writeIni d) = d := by
  unfold readIni
  rw [read_written d (fun p hp => ⟨(h p hp).1.2.1, (h p hp).2.1⟩), List.filterMap_map]
  have : d.filterMap (readLine ∘ fun p => p.1 ++ " = ".toList ++ p.2) = d := by
    clear hd
    induction d with
    | nil => rfl
    | cons p d ih =>
      rw [List.filterMap_cons]
      have h1 := readLine_written p.1 p.2 (h p List.mem_cons_self).1 (h p List.mem_cons_self).2
      simp only [Function.comp_apply]
      rw [h1]
      simp only
      congr 1
      exact ih (fun q hq => h q (List.mem_cons_of_mem _ hq))
  rw [this, PyDict.ofItems_nodup d hd]

theorem readLine_good (l k v : Str) (hl : OneLine l) (h : readLine l = some (k, v)) : GoodName k ∧ GoodValue v := by
  unfold readLine at h
  cases hm : matchLine (strip l) with
  | none => rw [hm] at h; simp at h
  | some q =>
    obtain ⟨n, w⟩ := q
    rw [hm] at h
    simp only [Option.map_some, Option.some.injEq, Prod.mk.injEq] at h
    obtain ⟨rfl, rfl⟩ := h
    have ht := strip_isTrimmed l
    have ho : OneLine (strip l) := fun c hc => hl c (strip_mem hc)
    cases hs : strip l with
    | nil => rw [hs] at hm; simp [matchLine] at hm
    | cons c s =>
      rw [hs] at hm ht ho
      rw [matchLine] at hm
      by_cases hc : c = '#'
      · rw [if_pos hc] at hm; simp at hm
      · rw [if_neg hc] at hm
        cases he : splitLastEq s with
        | none => rw [he] at hm; simp at hm
        | some r =>
          rw [he] at hm
          simp only [Option.map_some, Option.some.injEq, Prod.mk.injEq] at hm
          obtain ⟨hn, hw⟩ := hm
          obtain ⟨h1, h2⟩ := splitLastEq_some s r.1 r.2 he
          have hcs : isSpace c = false := ht.1 c rfl
          have hd : (c :: r.1).dropWhile isSpace = c :: r.1 := dropWhile_id (fun x hx => by
            rw [List.head?_cons, Option.some.injEq] at hx
            rw [← hx]
            exact hcs)
          have hh : (strip (c :: r.1)).head? = some c := by
            unfold strip
            rw [hd, List.reverse_cons, List.dropWhile_append]
            split
            · rw [List.dropWhile_cons, if_neg (by rw [hcs]; decide)]
              rfl
            · simp
          rw [← hn, ← hw]
          refine ⟨⟨?_, ?_, strip_isTrimmed _, ?_⟩, ?_, strip_isTrimmed _, fun hm => h2 (strip_mem hm)⟩
          · intro e
            rw [e] at hh
            simp at hh
          · intro x hx
            apply ho x
            rw [h1]
            rcases List.mem_cons.mp (strip_mem hx) with rfl | hx
            · exact List.mem_cons_self
            · exact List.mem_cons_of_mem _ (List.mem_append_left _ hx)
          · rw [hh]
            simpa using hc
          · intro x hx
            apply ho x
            rw [h1]
            exact List.mem_cons_of_mem _ (List.mem_append_right _ (List.mem_cons_of_mem _ (strip_mem hx)))

theorem ofItems_mem {κ υ : Type} [DecidableEq κ] (P : κ × υ → Prop) (o d : List (κ × υ)) (ho : ∀ p ∈ o, P p)
    (hd : ∀ p ∈ d, P p) : ∀ p ∈ PyDict.update d o, P p := by
  unfold PyDict.update
  induction o generalizing d with
  | nil => exact hd
  | cons q o ih =>
    rw [List.foldl_cons]
    refine ih _ (fun p hp => ho p (List.mem_cons_of_mem _ hp)) ?_
    have hq := ho q List.mem_cons_self
    clear ih ho
    induction d with
    | nil =>
      intro p hp
      rw [PyDict.set, List.mem_singleton] at hp
      rw [hp]
      exact hq
    | cons a d ih =>
      intro p hp
      rw [PyDict.set] at hp
      split at hp
      · rename_i e
        rcases List.mem_cons.mp hp with rfl | hp
        · rw [e]
          exact hq
        · exact hd p (List.mem_cons_of_mem _ hp)
      · rcases List.mem_cons.mp hp with rfl | hp
        · exact hd _ List.mem_cons_self
        · exact ih (fun p hp => hd p (List.mem_cons_of_mem _ hp)) p hp

theorem readIni_good (t : Str) : ∀ p ∈ readIni t, GoodName p.1 ∧ GoodValue p.2 := by
  refine ofItems_mem (fun p => GoodName p.1 ∧ GoodValue p.2) _ [] (fun p hp => ?_) (by simp)
  obtain ⟨l, hl, h⟩ := List.mem_filterMap.mp hp
  exact readLine_good l p.1 p.2 (splitLines_oneLine t l hl) h

theorem readIni_nodup (t : Str) : ((readIni t).map (·.1)).Nodup := PyDict.nodup_update [] _ (by simp)

/-- Whatever the text of an ini file, writing what has been read and reading it again gives the same dictionary. -/
theorem reread (t : Str) : readIni (writeIni (readIni t)) = readIni t :=
  round_trip_partial _ (readIni_nodup t) (readIni_good t)

/-- The updated file: the parameters that are set have their new values, all others those of the reference file,
whatever its text. -/
theorem updated_file (ref : Str) (basis : Dict Str Str) (hb : ∀ p ∈ basis, GoodName p.1 ∧ GoodValue p.2)
    (hn : (basis.map (·.1)).Nodup) (k : Str) :
    (readIni (updatedIni ref basis)).lookup k = (basis.lookup k).or ((readIni ref).lookup k) := by
  unfold updatedIni
  rw [round_trip_partial _ (PyDict.nodup_update _ _ (readIni_nodup ref))
    (ofItems_mem (fun p => GoodName p.1 ∧ GoodValue p.2) _ _ hb (readIni_good ref)), PyDict.lookup_update]
  congr 1
  have hr : (basis.reverse.map (·.1)).Nodup := by
    rw [List.map_reverse]
    exact List.nodup_reverse.mpr hn
  cases h : basis.lookup k with
  | none =>
    rw [PyDict.lookup_none_iff] at h ⊢
    rwa [List.map_reverse, List.mem_reverse]
  | some v => exact PyDict.lookup_of_mem _ hr (p := (k, v)) (List.mem_reverse.mpr (PyDict.mem_of_lookup h))

/-- A value with an equals sign never comes back: the part up to its last equals sign is read as part of the name. -/
theorem value_with_equals (k a b : Str) (hk : GoodName k) (ha : OneLine a) (hb : OneLine b) (he : '=' ∉ b)
    (hl : ∀ x, ('=' :: b).getLast? = some x → isSpace x = false) :
    readIni (writeIni [(k, a ++ '=' :: b)]) = [(strip (k ++ (" = ".toList ++ a)), strip b)] ∧
    readIni (writeIni [(k, a ++ '=' :: b)]) ≠ [(k, a ++ '=' :: b)] := by
  have h : readIni (writeIni [(k, a ++ '=' :: b)]) = [(strip (k ++ (" = ".toList ++ a)), strip b)] := by
    unfold readIni
    rw [read_written _ (fun p hp => by
      rw [List.mem_singleton] at hp
      subst hp
      refine ⟨hk.2.1, fun c hc => ?_⟩
      rcases List.mem_append.mp hc with hc | hc
      · exact ha c hc
      · rcases List.mem_cons.mp hc with rfl | hc
        · decide
        · exact hb c hc)]
    have e : k ++ " = ".toList ++ (a ++ '=' :: b) = k ++ (" = ".toList ++ a) ++ '=' :: b := by
      rw [← List.append_assoc, ← List.append_assoc]
    simp only [List.map_cons, List.map_nil]
    rw [e, List.filterMap_cons, readLine_value k _ b hk he hl]
    rfl
  refine ⟨h, ?_⟩
  rw [h]
  intro e
  have e2 := (Prod.mk.inj (List.cons.inj e).1).2
  have : '=' ∈ strip b := by
    rw [e2]
    exact List.mem_append_right _ List.mem_cons_self
  exact he (strip_mem this)

/-- Names that start a comment and empty names are lost. -/
theorem unreadable_lost (k v : Str) (hk : OneLine k) (hv : OneLine v) (h : (∃ r, k = '#' :: r) ∨ (k = [] ∧ '=' ∉ v)) :
    readIni (writeIni [(k, v)]) = [] := by
  unfold readIni
  rw [read_written _ (fun p hp => by
    rw [List.mem_singleton] at hp
    subst hp
    exact ⟨hk, hv⟩)]
  have : readLine (k ++ " = ".toList ++ v) = none := by
    have e : " = ".toList = [' ', '=', ' '] := by decide
    unfold readLine
    rw [Option.map_eq_none_iff]
    rcases h with ⟨r, rfl⟩ | ⟨rfl, h⟩
    · have hh : ∃ w, strip ('#' :: r ++ " = ".toList ++ v) = '#' :: w := by
        unfold strip
        rw [List.cons_append, List.cons_append, List.dropWhile_cons, if_neg (by decide), List.reverse_cons,
          List.dropWhile_append]
        split
        · exact ⟨[], by rw [List.dropWhile_cons, if_neg (by decide)]; rfl⟩
        · exact ⟨_, by rw [List.reverse_append]; rfl⟩
      obtain ⟨w, hw⟩ := hh
      rw [hw, matchLine, if_pos rfl]
    · have hh : ∃ w, strip ([] ++ " = ".toList ++ v) = '=' :: w ∧ '=' ∉ w := by
        rw [e, List.nil_append, List.cons_append, strip_left ' ' _ (by decide)]
        unfold strip
        rw [List.cons_append, List.dropWhile_cons, if_neg (by decide), List.reverse_cons, List.dropWhile_append]
        split
        · exact ⟨[], by rw [List.dropWhile_cons, if_neg (by decide)]; rfl, by simp⟩
        · refine ⟨_, by rw [List.reverse_append]; rfl, ?_⟩
          intro hm
          change '=' ∈ (List.dropWhile isSpace ([' '] ++ v).reverse).reverse at hm
          rw [List.mem_reverse] at hm
          have := (List.dropWhile_suffix _).subset hm
          rw [List.mem_reverse] at this
          simp [h] at this
      obtain ⟨w, hw, hn⟩ := hh
      rw [hw, matchLine, if_neg (by decide)]
      cases he : splitLastEq w with
      | none => rfl
      | some q =>
        have := (splitLastEq_some w q.1 q.2 he).1
        exact absurd (by rw [this]; simp) hn
  simp only [List.map_cons, List.map_nil]
  rw [List.filterMap_cons, this]
  rfl

example : readIni (writeIni [("w".toList, "-1.0".toList), ("do_x[1]".toList, "".toList), ("a=b".toList, "T".toList)]) =
    [("w".toList, "-1.0".toList), ("do_x[1]".toList, "".toList), ("a=b".toList, "T".toList)] := by decide +kernel
example : readIni "# comment = 1\n  hubble =  70 \n\nomk=0\n hubble = 67".toList =
    [("hubble".toList, "67".toList), ("omk".toList, "0".toList)] := by decide +kernel
example : readIni (writeIni [("name".toList, "a=b".toList)]) = [("name = a".toList, "b".toList)] := by decide +kernel

end Seyfert.Boltzmann
