import Verif.Props.TeXText
import Mathlib.Data.List.Dedup

/-! Properties of the marks of numbers in tables. -/

namespace Seyfert.TeXText

/-- The expression matches nowhere in a text, whatever follows. -/
def Quiet (m : Matcher) (a : Str) : Prop := ∀ y c x, a = y ++ c :: x → ∀ b, m (c :: x ++ b) = none

theorem sub_quiet {m : Matcher} : ∀ {a : Str}, Quiet m a → ∀ b, sub m (a ++ b) = a ++ sub m b
  | [], _, b => rfl
  | c :: a, h, b => by
    have h0 := h [] c a rfl b
    rw [List.cons_append] at h0 ⊢
    rw [sub_none h0, List.cons_append,
      sub_quiet (a := a) (fun y d x e => h (c :: y) d x (by rw [e, List.cons_append])) b]

theorem quiet_append {m : Matcher} {a b : Str} (ha : ∀ y c x, a = y ++ c :: x → ∀ z, m (c :: x ++ b ++ z) = none)
    (hb : Quiet m b) : Quiet m (a ++ b) := by
  intro y c x e z
  rcases List.append_eq_append_iff.mp e with ⟨w, h1, h2⟩ | ⟨w, h1, h2⟩
  · exact hb w c x h2 z
  · cases w with
    | nil => exact hb [] c x (by rw [List.nil_append] at h2 ⊢; exact h2.symm) z
    | cons d w =>
      rw [List.cons_append] at h2
      injection h2 with e1 e2
      subst e1
      subst e2
      have := ha y c w h1 z
      rwa [List.cons_append] at this

theorem percent_none {sign : Char} {cmd : Str} {c : Char} {t : Str} (h : c ≠ sign ∨ ∃ d z, t = d :: z ∧ numChar d = false) :
    percentMatch sign cmd (c :: t) = none := by
  show (if _ then _ else _) = _
  rw [if_neg]
  rintro ⟨h1, h2, -⟩
  rcases h with h | ⟨d, z, rfl, hd⟩
  · exact h h1
  · apply h2
    unfold spanNumber
    have : (isDigit d || decide (d = '.')) = false := hd
    dsimp only
    rw [List.takeWhile_cons, if_neg]
    rw [this]
    exact Bool.false_ne_true

theorem quiet_sign {sign : Char} {cmd a : Str} (h : Signless sign a) : Quiet (percentMatch sign cmd) a := by
  intro y c x e b
  rw [List.cons_append]
  by_cases hc : c = sign
  · subst hc
    obtain ⟨d, z, hx, hd⟩ := h y x e
    exact percent_none (.inr ⟨d, z ++ b, by rw [hx, List.cons_append], hd⟩)
  · exact percent_none (.inl hc)

theorem span_number {d : Str} (hd : ∀ c ∈ d, numChar c = true) (b : Str) :
    spanNumber (d ++ '\\' :: b) = (d, '\\' :: b) := by
  have hn : (isDigit '\\' || decide ('\\' = '.')) = false := by decide
  show ((d ++ '\\' :: b).takeWhile numChar, (d ++ '\\' :: b).dropWhile numChar) = _
  have hn : numChar '\\' = false := hn
  rw [List.takeWhile_append_of_pos hd, List.dropWhile_append_of_pos hd, List.takeWhile_cons, List.dropWhile_cons, hn]
  simp

theorem percent_some {sign : Char} {cmd d : Str} (hd : ∀ c ∈ d, numChar c = true) (hne : d ≠ []) (b : Str) :
    percentMatch sign cmd (sign :: d ++ "\\%".toList ++ b) =
      some (d.length + 3, cmd ++ "{".toList ++ sign :: d ++ "\\%}".toList) := by
  have e : sign :: d ++ "\\%".toList ++ b = sign :: (d ++ '\\' :: ('%' :: b)) := by
    rw [List.append_assoc, List.cons_append]
    rfl
  rw [e]
  show (if _ then _ else _) = _
  rw [span_number hd]
  dsimp only
  rw [if_pos ⟨rfl, hne, by rfl⟩]

theorem sub_percent {sign : Char} {cmd d : Str} (hd : ∀ c ∈ d, numChar c = true) (hne : d ≠ []) (b : Str) :
    sub (percentMatch sign cmd) (sign :: d ++ "\\%".toList ++ b) =
      cmd ++ "{".toList ++ sign :: d ++ "\\%}".toList ++ sub (percentMatch sign cmd) b := by
  have hp := percent_some (sign := sign) (cmd := cmd) hd hne b
  have e : sign :: d ++ "\\%".toList ++ b = sign :: (d ++ ("\\%".toList ++ b)) := by
    rw [List.append_assoc, List.cons_append]
  rw [e] at hp ⊢
  rw [sub_some hp]
  congr 1
  have h2 : d.length + 3 - 1 = (d ++ "\\%".toList).length := by
    rw [List.length_append]; rfl
  rw [h2, ← List.append_assoc, List.drop_left]


theorem signless_of {sign : Char} {a : Str} (h : sign ∉ a) : Signless sign a := by
  intro y x e
  exact absurd (e ▸ List.mem_append.mpr (.inr List.mem_cons_self)) h

theorem sub_word {w r : Str} (hw : w ≠ []) (b : Str) : sub (words [(w, r)]) (w ++ b) = r ++ sub (words [(w, r)]) b := by
  refine (sub_iff (free_one hw) _ _).mpr (.word List.mem_cons_self ((sub_iff (free_one hw) _ _).mp rfl))

theorem word_none {w r : Str} {s : Str} (h : ¬ w <+: s) : words [(w, r)] s = none :=
  words_none.mpr fun p hp => by rw [List.mem_singleton] at hp; subst hp; exact h

/-- A word is not found in a text without its first letter. -/
theorem quiet_head {d : Char} {w r a : Str} (h : d ∉ a) : Quiet (words [(d :: w, r)]) a := by
  intro y c x e b
  refine word_none fun hp => ?_
  obtain ⟨z, hz⟩ := hp
  rw [List.cons_append, List.cons_append] at hz
  injection hz with e1 _
  exact h (e ▸ List.mem_append.mpr (.inr (e1 ▸ List.mem_cons_self)))

/-- Two texts up to a character which neither has. -/
theorem upto_char {k : Char} {a b x y : Str} (ha : k ∉ a) (hb : k ∉ b) (h : a ++ k :: x = b ++ k :: y) : a = b := by
  induction a generalizing b with
  | nil =>
    cases b with
    | nil => rfl
    | cons d b =>
      rw [List.nil_append, List.cons_append] at h
      injection h with e _
      subst e
      exact absurd List.mem_cons_self hb
  | cons c a ih =>
    cases b with
    | nil =>
      rw [List.nil_append, List.cons_append] at h
      injection h with e _
      subst e
      exact absurd List.mem_cons_self ha
    | cons d b =>
      rw [List.cons_append, List.cons_append] at h
      injection h with e1 e2
      rw [e1, ih (fun hm => ha (List.mem_cons_of_mem _ hm)) (fun hm => hb (List.mem_cons_of_mem _ hm)) e2]

theorem not_num {d : Str} (hd : ∀ c ∈ d, numChar c = true) {k : Char} (hk : numChar k = false) : k ∉ d := fun h => by
  rw [hd k h] at hk
  cases hk

theorem not_mem_percent {d : Str} (hd : ∀ c ∈ d, numChar c = true) {k : Char} (hk : numChar k = false)
    (h2 : k ≠ '\\' ∧ k ≠ '%') : k ∉ d ++ "\\%".toList := by
  intro h
  rcases List.mem_append.mp h with h | h
  · exact not_num hd hk h
  · rcases List.mem_cons.mp h with h | h
    · exact h2.1 h
    · exact h2.2 (List.mem_singleton.mp h)

abbrev binsM : Matcher := words [("n\\_bins".toList, "\\GCsp\\, \\text{bins}".toList)]
abbrev zeroM : Matcher := words [("+0.00\\%".toList, "\\text{--}".toList)]
abbrev gainM : Matcher := percentMatch '+' "\\positive".toList
abbrev lossM : Matcher := percentMatch '-' "\\negative".toList

/-- The cell after each of the first three steps. -/
def one : Cell → Str
  | .bins => "\\GCsp\\, \\text{bins}".toList
  | c => c.raw

def two : Cell → Str
  | .gain d => if d = "0.00".toList then "\\text{--}".toList else '+' :: d ++ "\\%".toList
  | c => one c

def three : Cell → Str
  | .gain d => if d = "0.00".toList then "\\text{--}".toList else "\\positive{+".toList ++ d ++ "\\%}".toList
  | c => one c

theorem quiet_sep_bins : Quiet binsM " & ".toList := quiet_head (by decide)
theorem quiet_sep_zero : Quiet zeroM " & ".toList := quiet_head (by decide)
theorem quiet_sep_gain : Quiet gainM " & ".toList := quiet_sign (signless_of (by decide))
theorem quiet_sep_loss : Quiet lossM " & ".toList := quiet_sign (signless_of (by decide))

theorem through {m : Matcher} {a b : Str} (hs : Quiet m " & ".toList) (h : ∀ z, sub m (a ++ z) = b ++ sub m z) (z : Str) :
    sub m (a ++ (" & ".toList ++ z)) = b ++ (" & ".toList ++ sub m z) := by
  rw [h, sub_quiet hs]

theorem rows_step {m : Matcher} {f g : Cell → Str} {P : Cell → Prop}
    (h : ∀ c, P c → ∀ z, sub m (f c ++ (" & ".toList ++ z)) = g c ++ (" & ".toList ++ sub m z)) :
    ∀ cells : List Cell, (∀ c ∈ cells, P c) → sub m (rowText f cells) = rowText g cells
  | [], _ => rfl
  | c :: cells, hp => by
    have ih := rows_step h cells fun x hx => hp x (List.mem_cons_of_mem _ hx)
    unfold rowText at ih ⊢
    rw [List.map_cons, List.flatten_cons, List.map_cons, List.flatten_cons, List.append_assoc, h c (hp c List.mem_cons_self), ih,
      List.append_assoc]

theorem step_bins (c : Cell) (h : c.Fine) (z : Str) :
    sub binsM (c.raw ++ (" & ".toList ++ z)) = one c ++ (" & ".toList ++ sub binsM z) := by
  cases c with
  | bins => exact through quiet_sep_bins (fun z => sub_word (by decide) z) z
  | gain d =>
    refine through quiet_sep_bins (fun z => sub_quiet (quiet_head ?_) z) z
    intro hm
    rcases List.mem_cons.mp hm with e | hm
    · exact absurd e (by decide)
    · exact not_mem_percent h.2 (by decide) (by decide) hm
  | loss d =>
    refine through quiet_sep_bins (fun z => sub_quiet (quiet_head ?_) z) z
    intro hm
    rcases List.mem_cons.mp hm with e | hm
    · exact absurd e (by decide)
    · exact not_mem_percent h.2 (by decide) (by decide) hm
  | other a =>
    show sub binsM (a ++ (" & ".toList ++ z)) = a ++ (" & ".toList ++ sub binsM z)
    rw [← List.append_assoc, ← List.append_assoc]
    refine sub_quiet (quiet_append (fun y c x e z => word_none fun hp => ?_) quiet_sep_bins) z
    obtain ⟨u, hu⟩ := hp
    have hu' : "n\\_bins".toList ++ u = (c :: x) ++ (' ' :: '&' :: ' ' :: z) := by
      rw [hu, List.append_assoc]
      rfl
    rcases List.append_eq_append_iff.mp hu' with ⟨w, h1, h2⟩ | ⟨w, h1, h2⟩
    · exact h.2.2 ⟨y, w, by rw [e, h1, List.append_assoc]⟩
    · cases w with
      | nil => exact h.2.2 ⟨y, [], by rw [e, h1, List.append_nil, List.append_nil]⟩
      | cons k w =>
        rw [List.cons_append] at h2
        injection h2 with e1 _
        have : ' ' ∈ "n\\_bins".toList := by
          rw [h1, e1]
          exact List.mem_append.mpr (.inr List.mem_cons_self)
        exact absurd this (by decide)

theorem zero_quiet {a : Str} (h : Signless '+' a) : Quiet zeroM a := by
  intro y c x e b
  refine word_none fun hp => ?_
  obtain ⟨z, hz⟩ := hp
  have hz' : '+' :: '0' :: (".00\\%".toList ++ z) = c :: (x ++ b) := hz
  injection hz' with e1 e2
  subst e1
  obtain ⟨d, u, hx, hd⟩ := h y x e
  rw [hx, List.cons_append] at e2
  injection e2 with e2 _
  subst e2
  revert hd
  decide

theorem step_zero (c : Cell) (h : c.Fine) (z : Str) :
    sub zeroM (one c ++ (" & ".toList ++ z)) = two c ++ (" & ".toList ++ sub zeroM z) := by
  cases c with
  | bins => exact through quiet_sep_zero (fun z => sub_quiet (quiet_head (by decide)) z) z
  | loss d =>
    refine through quiet_sep_zero (fun z => sub_quiet (quiet_head ?_) z) z
    intro hm
    rcases List.mem_cons.mp hm with e | hm
    · exact absurd e (by decide)
    · exact not_mem_percent h.2 (by decide) (by decide) hm
  | other a => exact through quiet_sep_zero (fun z => sub_quiet (zero_quiet h.1) z) z
  | gain d =>
    by_cases hd : d = "0.00".toList
    · subst hd
      exact through quiet_sep_zero (fun z => sub_word (w := "+0.00\\%".toList) (by decide) z) z
    · have e2 : two (.gain d) = '+' :: d ++ "\\%".toList := if_neg hd
      rw [e2]
      refine through quiet_sep_zero (fun z => ?_) z
      show sub zeroM ('+' :: (d ++ "\\%".toList) ++ z) = '+' :: (d ++ "\\%".toList) ++ sub zeroM z
      rw [List.cons_append, List.cons_append]
      have hnone : zeroM ('+' :: (d ++ "\\%".toList ++ z)) = none := by
        refine word_none fun hp => ?_
        obtain ⟨u, hu⟩ := hp
        have hu' : '+' :: ("0.00".toList ++ '\\' :: ('%' :: u)) = '+' :: (d ++ '\\' :: ('%' :: z)) := by
          rw [List.append_assoc] at hu
          exact hu
        injection hu' with _ hu'
        exact hd (upto_char (by decide) (not_num h.2 (by decide)) hu').symm
      rw [sub_none hnone]
      congr 1
      exact sub_quiet (quiet_head (not_mem_percent h.2 (by decide) (by decide))) z

theorem step_gain (c : Cell) (h : c.Fine) (z : Str) :
    sub gainM (two c ++ (" & ".toList ++ z)) = three c ++ (" & ".toList ++ sub gainM z) := by
  cases c with
  | bins => exact through quiet_sep_gain (fun z => sub_quiet (quiet_sign (signless_of (by decide))) z) z
  | loss d =>
    refine through quiet_sep_gain (fun z => sub_quiet (quiet_sign (signless_of ?_)) z) z
    intro hm
    rcases List.mem_cons.mp hm with e | hm
    · exact absurd e (by decide)
    · exact not_mem_percent h.2 (by decide) (by decide) hm
  | other a => exact through quiet_sep_gain (fun z => sub_quiet (quiet_sign h.1) z) z
  | gain d =>
    by_cases hd : d = "0.00".toList
    · have e2 : two (.gain d) = "\\text{--}".toList := if_pos hd
      have e3 : three (.gain d) = "\\text{--}".toList := if_pos hd
      rw [e2, e3]
      exact through quiet_sep_gain (fun z => sub_quiet (quiet_sign (signless_of (by decide))) z) z
    · have e2 : two (.gain d) = '+' :: d ++ "\\%".toList := if_neg hd
      have e3 : three (.gain d) = "\\positive{+".toList ++ d ++ "\\%}".toList := if_neg hd
      rw [e2, e3]
      refine through quiet_sep_gain (fun z => ?_) z
      rw [sub_percent h.2 h.1]
      rfl

theorem signless_dash : Signless '-' "\\text{--}".toList := by
  have key : ∀ q ∈ splits "\\text{--}".toList, q.2.head? = some '-' →
      ∃ d, (q.2.drop 1).head? = some d ∧ numChar d = false := by
    intro q hq hh
    have : (match (q.2.drop 1).head? with | some d => !numChar d | none => false) = true := by
      revert hh
      revert q
      decide +kernel
    cases hd : (q.2.drop 1).head? with
    | none => rw [hd] at this; cases this
    | some d => rw [hd] at this; exact ⟨d, rfl, by simpa using this⟩
  intro y x e
  obtain ⟨d, h1, h2⟩ := key (y, '-' :: x) (mem_splits e) rfl
  cases x with
  | nil => cases h1
  | cons a x =>
    have : a = d := by simpa using h1
    exact ⟨a, x, rfl, this ▸ h2⟩

theorem step_loss (c : Cell) (h : c.Fine) (z : Str) :
    sub lossM (three c ++ (" & ".toList ++ z)) = c.marked ++ (" & ".toList ++ sub lossM z) := by
  cases c with
  | bins => exact through quiet_sep_loss (fun z => sub_quiet (quiet_sign (signless_of (by decide))) z) z
  | other a => exact through quiet_sep_loss (fun z => sub_quiet (quiet_sign h.2.1) z) z
  | loss d =>
    refine through quiet_sep_loss (fun z => ?_) z
    show sub lossM ('-' :: d ++ "\\%".toList ++ z) = _
    rw [sub_percent h.2 h.1]
    rfl
  | gain d =>
    show sub lossM (three (.gain d) ++ _) = three (.gain d) ++ _
    refine through quiet_sep_loss (fun z => sub_quiet (quiet_sign ?_) z) z
    by_cases hd : d = "0.00".toList
    · have e3 : three (.gain d) = "\\text{--}".toList := if_pos hd
      rw [e3]
      exact signless_dash
    · have e3 : three (.gain d) = "\\positive{+".toList ++ d ++ "\\%}".toList := if_neg hd
      rw [e3]
      refine signless_of fun hm => ?_
      rcases List.mem_append.mp hm with hm | hm
      · rcases List.mem_append.mp hm with hm | hm
        · revert hm; decide
        · exact not_num h.2 (by decide) hm
      · revert hm; decide

/-- **C139, marks of a table.** In a row of cells, every gain and loss in percent gets its mark, a gain of `0.00` becomes a
dash, the name of the bins is translated, and all other cells stay. -/
theorem marks_row (cells : List Cell) (h : ∀ c ∈ cells, c.Fine) :
    tableMarks (rowText Cell.raw cells) = rowText Cell.marked cells := by
  unfold tableMarks replace
  rw [rows_step (P := Cell.Fine) step_bins cells h, rows_step (P := Cell.Fine) step_zero cells h,
    rows_step (P := Cell.Fine) step_gain cells h, rows_step (P := Cell.Fine) step_loss cells h]

/-- **C139, a loss of zero.** A loss which is rounded to zero is marked as a loss, although a gain of zero is a dash. -/
theorem zero_loss : tableMarks (rowText Cell.raw [.gain "0.00".toList, .loss "0.00".toList]) =
    "\\text{--} & \\negative{-0.00\\%} & ".toList := by decide +kernel

/-- **C139, tables.** A table is translated word by word and then marked, in whatever order Python has the probes. -/
theorem table_text (order : List Str → List Str) (ho : SetOrder order) (text u : Str) :
    table order text true = .ok u ↔ ∃ t, Done aliasTable (sub clineMatch text) t ∧ u = tableMarks t := by
  unfold table
  obtain ⟨t, ht, -⟩ := translate_order order order ho ho (sub clineMatch text) true
  rw [ht]
  constructor
  · intro e
    cases e
    exact ⟨t, (alias_text order ho _ _).mp ht, rfl⟩
  · rintro ⟨t', h1, rfl⟩
    have h2 := (alias_text order ho _ _).mpr h1
    rw [ht] at h2
    cases h2
    rfl

theorem span_range {d : Str} (hd : ∀ c ∈ d, (isDigit c || c = '-') = true) (b : Str) :
    spanRange (d ++ '}' :: b) = (d, '}' :: b) := by
  have hn : (isDigit '}' || decide ('}' = '-')) = false := by decide
  unfold spanRange
  rw [List.takeWhile_append_of_pos hd, List.dropWhile_append_of_pos hd, List.takeWhile_cons, List.dropWhile_cons, hn]
  simp

/-- **C139, lines of a table.** A line over some columns becomes a line over all. -/
theorem cline_rule {d : Str} (hne : d ≠ []) (hd : ∀ c ∈ d, (isDigit c || c = '-') = true) (b : Str) :
    sub clineMatch ("cline{".toList ++ d ++ '}' :: b) = "midrule".toList ++ sub clineMatch b := by
  have hm : clineMatch ("cline{".toList ++ d ++ '}' :: b) = some (d.length + 7, "midrule".toList) := by
    unfold clineMatch
    rw [List.append_assoc, stripPrefix_append]
    dsimp only
    rw [span_range hd]
    dsimp only
    rw [if_neg hne, if_pos (show ('}' :: b).head? = some '}' from rfl)]
  have e : "cline{".toList ++ d ++ '}' :: b = 'c' :: (("line{".toList ++ d ++ ['}']) ++ b) := by
    rw [List.append_assoc, List.append_assoc, List.append_assoc]
    rfl
  rw [e] at hm ⊢
  rw [sub_some hm]
  congr 1
  have h2 : d.length + 7 - 1 = ("line{".toList ++ d ++ ['}']).length := by
    rw [List.length_append, List.length_append]
    show d.length + 7 - 1 = 5 + d.length + 1
    omega
  rw [h2, List.drop_left]

/-- **C139, legends.** The labels of a legend are translated one by one, each between dollars, and none is lost; this fails for
no label. -/
theorem legend_text_partial (order : List Str → List Str) (ho : SetOrder order) (labels : List Str)
    (hx : ∀ l ∈ labels, ¬ "XCl".toList <:+: l) :
    ∃ ts, legend order labels = .ok ts ∧ List.Forall₂ (fun l t => ∃ u, Done plotTable l u ∧ t = "$".toList ++ u ++ "$".toList) labels ts := by
  induction labels with
  | nil => exact ⟨[], rfl, .nil⟩
  | cons l ls ih =>
    obtain ⟨ts, h1, h2⟩ := ih fun x hm => hx x (List.mem_cons_of_mem _ hm)
    obtain ⟨u, hu, -⟩ := translate_order order order ho ho l false
    refine ⟨("$".toList ++ u ++ "$".toList) :: ts, ?_, .cons ⟨u, (plot_text_partial order ho l (hx l List.mem_cons_self) u).mp hu, rfl⟩ h2⟩
    unfold legend
    rw [hu]
    dsimp only
    rw [h1]
    rfl

/-! ### Examples -/

def exOrder (l : List Str) : List Str := l.dedup
theorem exOrder_set : SetOrder exOrder := fun l => ⟨l.nodup_dedup, fun _ => List.mem_dedup⟩
def exOrder' (l : List Str) : List Str := l.dedup.reverse
theorem exOrder'_set : SetOrder exOrder' := fun l =>
  ⟨List.nodup_reverse.mpr l.nodup_dedup, fun _ => List.mem_reverse.trans List.mem_dedup⟩

example : (translate exOrder "[GCph+WL+XC(GCph,WL)] + GCsp(Pk)".toList true).toOption =
    some "[\\GCph+\\WL+\\xc{\\GCph}{\\WL}] + \\GCsp(P_k)".toList := by decide +kernel
example : (translate exOrder' "XC(WL,GCsp)".toList false).toOption =
    some "\\mathrm{XC}(\\mathrm{WL},\\mathrm{GC_{sp}})".toList := by decide +kernel
example : (legend exOrder ["GCph".toList, "WL + XC".toList]).toOption =
    some ["$\\mathrm{GC_{ph}}$".toList, "$\\mathrm{WL} + \\mathrm{XC}$".toList] := by decide +kernel
example : ¬ "XCl".toList <:+: "XC(WL,GCsp)".toList := by decide +kernel
example : ∀ c ∈ ["FoM".toList, "Omm".toList, "0.25".toList], c ∈ columnWords ∨ Neutral c := by
  intro c hc
  rcases List.mem_cons.mp hc with rfl | hc
  · exact .inl (by decide)
  rcases List.mem_cons.mp hc with rfl | hc
  · exact .inl (by decide)
  · rcases List.mem_singleton.mp hc with rfl
    exact .inr ⟨by decide, by decide, by decide⟩
example : (translate exOrder (rowOf ["FoM".toList, "Omm".toList, "0.25".toList]) true).toOption =
    some " \\FoM & \\Omm & 0.25 &".toList := by decide +kernel
example : tableMarks (rowText Cell.raw [.bins, .other "[\\WL + \\GCph]".toList, .gain "3.20".toList, .loss "1.5".toList]) =
    "\\GCsp\\, \\text{bins} & [\\WL + \\GCph] & \\positive{+3.20\\%} & \\negative{-1.5\\%} & ".toList := by
  decide +kernel
example : (Cell.gain "3.20".toList).Fine := ⟨by decide, by decide⟩
example : sub clineMatch "\\cline{1-2} x".toList = "\\midrule x".toList := by decide +kernel

end Seyfert.TeXText
