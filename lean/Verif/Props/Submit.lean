import Verif.Model.Submit
import Verif.Props.Batch
import Verif.Props.Names
import Verif.Props.Compare

/-!
C100: submission of batch jobs. C101: times and names read back from logs.
-/

set_option linter.unusedSectionVars false

namespace Seyfert.Submit

open Names (spanChars DateTime stampStr daysIn)
open Batch (isSpace)

/-! ### The command -/

/-- The options after calls of `setOptions` with queue, cores and memory, on a new interface. -/
def history (calls : List (Str × Nat × Nat)) : Dict Str Str :=
  calls.foldl (fun d c => setOptions d c.1 c.2.1 c.2.2) defaultOpts

theorem ne_Pq : "-P".toList ≠ "-q".toList := by decide
theorem ne_Pn : "-P".toList ≠ "-n".toList := by decide
theorem ne_PM : "-P".toList ≠ "-M".toList := by decide
theorem ne_Pe : "-P".toList ≠ "-e".toList := by decide
theorem ne_Po : "-P".toList ≠ "-o".toList := by decide
theorem ne_qn : "-q".toList ≠ "-n".toList := by decide
theorem ne_qM : "-q".toList ≠ "-M".toList := by decide
theorem ne_qe : "-q".toList ≠ "-e".toList := by decide
theorem ne_qo : "-q".toList ≠ "-o".toList := by decide
theorem ne_Mn : "-M".toList ≠ "-n".toList := by decide
theorem ne_Me : "-M".toList ≠ "-e".toList := by decide
theorem ne_Mo : "-M".toList ≠ "-o".toList := by decide
theorem ne_ne : "-n".toList ≠ "-e".toList := by decide
theorem ne_no : "-n".toList ≠ "-o".toList := by decide
theorem ne_nM : "-n".toList ≠ "-M".toList := by decide
theorem ne_eo : "-e".toList ≠ "-o".toList := by decide
theorem ne_Mq : "-M".toList ≠ "-q".toList := by decide
theorem ne_nq : "-n".toList ≠ "-q".toList := by decide

theorem setOpt_same (k v w : Str) (d : Dict Str Str) : setOpt ((k, v) :: d) k w = (k, w) :: d := by
  rw [setOpt, if_pos rfl]

theorem setOpt_skip {a k : Str} (h : a ≠ k) (v w : Str) (d : Dict Str Str) :
    setOpt ((a, v) :: d) k w = (a, v) :: setOpt d k w := by
  rw [setOpt, if_neg h]

theorem setOpt_nil (k w : Str) : setOpt [] k w = [(k, w)] := rfl

theorem lookup_skip {a k : Str} (h : (k == a) = false) (v : Str) (d : Dict Str Str) :
    List.lookup k ((a, v) :: d) = List.lookup k d := by
  rw [List.lookup_cons, h]

theorem lookup_same (k v : Str) (d : Dict Str Str) : List.lookup k ((k, v) :: d) = some v := by
  rw [List.lookup_cons, beq_self_eq_true]

/-- Options of an interface that has been used or not. -/
def Shape (d : Dict Str Str) : Prop :=
  ∃ q m : Str, d = [("-P".toList, "c7".toList), ("-q".toList, q), ("-M".toList, m)] ∨
    ∃ n : Str, d = [("-P".toList, "c7".toList), ("-q".toList, q), ("-M".toList, m), ("-n".toList, n)]

theorem setOptions_shape {d : Dict Str Str} (h : Shape d) (q : Str) (n m : Nat) :
    setOptions d q n m =
      [("-P".toList, "c7".toList), ("-q".toList, q), ("-M".toList, decStr m), ("-n".toList, decStr n)] := by
  unfold setOptions
  obtain ⟨q', m', rfl | ⟨n', rfl⟩⟩ := h
  · rw [setOpt_skip ne_Pq, setOpt_same, setOpt_skip ne_Pn, setOpt_skip ne_qn, setOpt_skip ne_Mn, setOpt_nil,
      setOpt_skip ne_PM, setOpt_skip ne_qM, setOpt_same]
  · rw [setOpt_skip ne_Pq, setOpt_same, setOpt_skip ne_Pn, setOpt_skip ne_qn, setOpt_skip ne_Mn, setOpt_same,
      setOpt_skip ne_PM, setOpt_skip ne_qM, setOpt_same]

theorem history_shape (calls : List (Str × Nat × Nat)) : Shape (history calls) := by
  unfold history
  have : ∀ d, Shape d → Shape (calls.foldl (fun d c => setOptions d c.1 c.2.1 c.2.2) d) := by
    induction calls with
    | nil => exact fun d h => h
    | cons c cs ih =>
      intro d h
      rw [List.foldl_cons]
      apply ih
      rw [setOptions_shape h]
      exact ⟨c.1, decStr c.2.2, Or.inr ⟨decStr c.2.1, rfl⟩⟩
  exact this _ ⟨"medium".toList, "2048".toList, Or.inl rfl⟩

theorem history_snoc (calls : List (Str × Nat × Nat)) (q : Str) (n m : Nat) :
    history (calls ++ [(q, n, m)]) =
      [("-P".toList, "c7".toList), ("-q".toList, q), ("-M".toList, decStr m), ("-n".toList, decStr n)] := by
  have h := setOptions_shape (history_shape calls) q n m
  unfold history at h ⊢
  rw [List.foldl_append]
  exact h

theorem assemble (sp P c q1 q M m n1 n e1 err o1 out R1 R2 R3 bs cmd A B C D E F G : Str)
    (hA : A = bs ++ (P ++ (sp ++ (c ++ (sp ++ (q1 ++ sp)))))) (hB : B = sp ++ (M ++ sp)) (hC : C = sp ++ (n1 ++ sp))
    (hD : D = sp ++ (e1 ++ sp)) (hE : E = sp ++ (o1 ++ sp)) (hF : F = sp ++ R1) (hG : G = R3 ++ sp) :
    bs ++ (joinStr sp ([(P, c), (q1, q), (M, m), (n1, n), (e1, err), (o1, out)].map fun x => x.1 ++ sp ++ x.2) ++
      sp ++ (R1 ++ m ++ R2 ++ m ++ R3)) ++ sp ++ cmd =
    A ++ q ++ B ++ m ++ C ++ n ++ D ++ err ++ E ++ out ++ F ++ m ++ R2 ++ m ++ G ++ cmd := by
  subst hA hB hC hD hE hF hG
  simp only [List.map, joinStr, List.append_assoc]

theorem assemble_default (sp P c q1 q M m e1 err o1 out R1 R2 R3 bs cmd A E G : Str)
    (hA : A = bs ++ (P ++ (sp ++ (c ++ (sp ++ (q1 ++ (sp ++ (q ++ (sp ++ (M ++ (sp ++ (m ++ (sp ++ (e1 ++ sp))))))))))))))
    (hE : E = sp ++ (o1 ++ sp)) (hG : G = sp ++ (R1 ++ (m ++ (R2 ++ (m ++ (R3 ++ sp)))))) :
    bs ++ (joinStr sp ([(P, c), (q1, q), (M, m), (e1, err), (o1, out)].map fun x => x.1 ++ sp ++ x.2) ++
      sp ++ (R1 ++ m ++ R2 ++ m ++ R3)) ++ sp ++ cmd =
    A ++ err ++ E ++ out ++ G ++ cmd := by
  subst hA hE hG
  simp only [List.map, joinStr, List.append_assoc]

/-- Whatever was asked of the interface before, a command has the queue, the cores and the memory of the last request, the two
logs, and reserves the same memory that it sets as limit. -/
theorem command_last_options (calls : List (Str × Nat × Nat)) (q : Str) (n m : Nat) (cmd err out : Str) :
    bsubCommand (history (calls ++ [(q, n, m)])) cmd err out =
      some ("bsub -P c7 -q ".toList ++ q ++ " -M ".toList ++ decStr m ++ " -n ".toList ++ decStr n ++
        " -e ".toList ++ err ++ " -o ".toList ++ out ++
        " -R\"select[avx && mem>".toList ++ decStr m ++ "] rusage[mem=".toList ++ decStr m ++ "]\" ".toList ++ cmd) := by
  rw [history_snoc]
  unfold bsubCommand optsString
  have hl : List.lookup "-M".toList
      [("-P".toList, "c7".toList), ("-q".toList, q), ("-M".toList, decStr m), ("-n".toList, decStr n)] =
        some (decStr m) := by
    rw [lookup_skip (by decide), lookup_skip (by decide), lookup_same]
  rw [hl]
  rw [setOpt_skip ne_Pe, setOpt_skip ne_qe, setOpt_skip ne_Me, setOpt_skip ne_ne, setOpt_nil,
    setOpt_skip ne_Po, setOpt_skip ne_qo, setOpt_skip ne_Mo, setOpt_skip ne_no, setOpt_skip ne_eo, setOpt_nil]
  rw [Option.map_some, Option.map_some]
  refine congrArg some ?_
  unfold resourceSpec
  exact assemble _ _ _ _ _ _ _ _ _ _ _ _ _ _ _ _ _ _ _ _ _ _ _ _ _ (by decide) (by decide) (by decide) (by decide)
    (by decide) (by decide) (by decide)

/-- Without any request, the number of cores is left out and 2048 MB are asked for. -/
theorem command_default (cmd err out : Str) :
    bsubCommand (history []) cmd err out =
      some ("bsub -P c7 -q medium -M 2048 -e ".toList ++ err ++ " -o ".toList ++ out ++
        " -R\"select[avx && mem>2048] rusage[mem=2048]\" ".toList ++ cmd) := by
  have e : history [] = [("-P".toList, "c7".toList), ("-q".toList, "medium".toList), ("-M".toList, "2048".toList)] := rfl
  rw [e]
  unfold bsubCommand optsString
  rw [lookup_skip (by decide), lookup_skip (by decide), lookup_same]
  rw [setOpt_skip ne_Pe, setOpt_skip ne_qe, setOpt_skip ne_Me, setOpt_nil,
    setOpt_skip ne_Po, setOpt_skip ne_qo, setOpt_skip ne_Mo, setOpt_skip ne_eo, setOpt_nil]
  rw [Option.map_some, Option.map_some]
  refine congrArg some ?_
  unfold resourceSpec
  exact assemble_default _ _ _ _ _ _ _ _ _ _ _ _ _ _ _ _ _ _ _ (by decide +kernel) (by decide) (by decide +kernel)

/-! ### The logs -/

theorem stamp_length {t : DateTime} (h : t.valid = true) : (stampStr '-' t).length = 19 := by
  have := Names.matchPat_length _ _ (Names.stamp_roundtrip '-' h).1
  rw [this]; rfl

theorem stamp_inj {t t' : DateTime} (h : t.valid = true) (h' : t'.valid = true)
    (e : stampStr '-' t = stampStr '-' t') : t = t' := by
  have a := (Names.stamp_roundtrip '-' h).2
  have b := (Names.stamp_roundtrip '-' h').2
  rw [e, b] at a
  exact (Option.some.inj a).symm

/-- Jobs that are started at different seconds or with different labels have different logs. -/
theorem logs_differ {t t' : DateTime} (h : t.valid = true) (h' : t'.valid = true) {s s' : Str}
    (e : (logNames true t s).1 = (logNames true t' s').1 ∨ (logNames true t s).2 = (logNames true t' s').2) :
    s = s' ∧ t = t' := by
  have key : ∀ p x : Str, p ++ s ++ "_".toList ++ stampStr '-' t ++ x = p ++ s' ++ "_".toList ++ stampStr '-' t' ++ x →
      s = s' ∧ t = t' := by
    intro p x e
    have e := List.append_cancel_right e
    have hl : (stampStr '-' t).length = (stampStr '-' t').length := by rw [stamp_length h, stamp_length h']
    have e2 := List.append_inj' e hl
    have e3 := List.append_cancel_right e2.1
    exact ⟨List.append_cancel_left e3, stamp_inj h h' e2.2⟩
  rcases e with e | e
  · exact key "out_".toList ".out".toList e
  · exact key "err_".toList ".err".toList e

/-- The log of errors is never the log of output, wherever they are put. -/
theorem logs_apart (logs : List Str) (sep add : Bool) (t : DateTime) (s : Str) :
    (logPaths logs sep add t s).1 ≠ (logPaths logs sep add t s).2 := by
  have hn : (logNames add t s).1 ≠ (logNames add t s).2 := by
    intro e
    have h : (logNames add t s).1.head? = (logNames add t s).2.head? := by rw [e]
    cases add
    · exact absurd h (by show ¬ (some 'o' = some 'e'); decide)
    · exact absurd h (by show ¬ (some 'o' = some 'e'); decide)
  unfold logPaths
  cases sep
  · intro e
    exact hn (List.cons.inj (List.append_cancel_left e)).1
  · intro e
    exact absurd (List.cons.inj (List.append_cancel_left e)).1 (by decide)

/-- Without the time in their names, two submissions with the same label write to the same logs. -/
theorem logs_shared (logs : List Str) (sep : Bool) (t t' : DateTime) (s : Str) :
    logPaths logs sep false t s = logPaths logs sep false t' s := rfl

/-! ### Submission -/

/-- A submission makes the directories of the logs. It runs the command built from the options with its own logs, unless it is a
test. The number returned is the one that the scheduler announces. -/
theorem submit_spec (calls : List (Str × Nat × Nat)) (answer : Str → Str) (cmd : Str) (add : Bool) (now : DateTime)
    (logs : List Str) (test : Bool) (start : Str) (sep : Bool) :
    ∃ s c : _, submitJob (history calls) answer cmd add now logs test start sep = some s ∧
      bsubCommand (history calls) cmd (pathStr (logPaths logs sep add now start).2)
        (pathStr (logPaths logs sep add now start).1) = some c ∧
      (logPaths logs sep add now start).1.dropLast ∈ s.made ∧ (logPaths logs sep add now start).2.dropLast ∈ s.made ∧
      s.ran = (if test then none else some c) ∧
      s.result = (if test then some none else (Batch.getJobID (answer c)).map some) := by
  have hd : ∃ c, bsubCommand (history calls) cmd (pathStr (logPaths logs sep add now start).2)
        (pathStr (logPaths logs sep add now start).1) = some c := by
    rcases List.eq_nil_or_concat calls with rfl | ⟨cs, ⟨q, n, m⟩, rfl⟩
    · exact ⟨_, command_default _ _ _⟩
    · rw [List.concat_eq_append]
      exact ⟨_, command_last_options _ _ _ _ _ _ _⟩
  obtain ⟨c, hc⟩ := hd
  cases test
  · refine ⟨⟨[(logPaths logs sep add now start).1.dropLast, (logPaths logs sep add now start).2.dropLast], some c, (Batch.getJobID (answer c)).map some⟩, c, ?_, hc, ?_, ?_, rfl, rfl⟩
    · unfold submitJob
      simp only [hc]
      rfl
    · exact List.mem_cons_self
    · exact List.mem_cons_of_mem _ List.mem_cons_self
  · refine ⟨⟨[(logPaths logs sep add now start).1.dropLast, (logPaths logs sep add now start).2.dropLast],
      none, some none⟩, c, ?_, hc, ?_, ?_, rfl, rfl⟩
    · unfold submitJob
      simp only [hc]
      rfl
    · exact List.mem_cons_self
    · exact List.mem_cons_of_mem _ List.mem_cons_self

/-- Directories of the logs: `out` and `err` apart, or the given directory for both. -/
theorem log_dirs (logs : List Str) (sep add : Bool) (t : DateTime) (s : Str) :
    (logPaths logs sep add t s).1.dropLast = (if sep then logs ++ ["out".toList] else logs) ∧
    (logPaths logs sep add t s).2.dropLast = (if sep then logs ++ ["err".toList] else logs) := by
  unfold logPaths
  cases sep
  · simp
  · constructor
    · show (logs ++ ["out".toList, _]).dropLast = logs ++ ["out".toList]
      rw [List.dropLast_append_of_ne_nil (by simp)]
      rfl
    · show (logs ++ ["err".toList, _]).dropLast = logs ++ ["err".toList]
      rw [List.dropLast_append_of_ne_nil (by simp)]
      rfl

/-- An answer of the scheduler without an announcement makes the submission raise, although the command has been run. -/
theorem submit_no_answer (calls : List (Str × Nat × Nat)) (cmd : Str) (add : Bool) (now : DateTime)
    (logs : List Str) (start : Str) (sep : Bool) :
    ∃ s : Submission, submitJob (history calls) (fun _ => []) cmd add now logs false start sep = some s ∧
      s.ran.isSome = true ∧ s.result = none := by
  obtain ⟨s, c, h1, -, -, -, h2, h3⟩ := submit_spec calls (fun _ => []) cmd add now logs false start sep
  exact ⟨s, h1, by rw [h2]; rfl, by rw [h3]; rfl⟩

/-! ### The calendar -/

/-- The day after. -/
def nextDay (t : DateTime) : DateTime :=
  if t.day < daysIn t.year t.month then { t with day := t.day + 1 }
  else if t.month < 12 then { t with month := t.month + 1, day := 1 }
  else { t with year := t.year + 1, month := 1, day := 1 }

theorem daysBeforeMonth_succ (y m : Nat) (h : 1 ≤ m) : daysBeforeMonth y (m + 1) = daysBeforeMonth y m + daysIn y m := by
  unfold daysBeforeMonth
  obtain ⟨k, rfl⟩ : ∃ k, m = k + 1 := ⟨m - 1, by omega⟩
  rw [show k + 1 + 1 - 1 = k + 1 by omega, show k + 1 - 1 = k by omega, List.range_succ, List.map_append, List.sum_append]
  simp

theorem daysBeforeMonth_one (y : Nat) : daysBeforeMonth y 1 = 0 := rfl

theorem year_days (y : Nat) : daysBeforeMonth y 12 + 31 = 365 + (if Names.isLeap y then 1 else 0) := by
  rw [show (12 : Nat) = 11 + 1 from rfl, daysBeforeMonth_succ _ 11 (by omega), show (11 : Nat) = 10 + 1 from rfl,
    daysBeforeMonth_succ _ 10 (by omega), show (10 : Nat) = 9 + 1 from rfl, daysBeforeMonth_succ _ 9 (by omega),
    show (9 : Nat) = 8 + 1 from rfl, daysBeforeMonth_succ _ 8 (by omega), show (8 : Nat) = 7 + 1 from rfl,
    daysBeforeMonth_succ _ 7 (by omega), show (7 : Nat) = 6 + 1 from rfl, daysBeforeMonth_succ _ 6 (by omega),
    show (6 : Nat) = 5 + 1 from rfl, daysBeforeMonth_succ _ 5 (by omega), show (5 : Nat) = 4 + 1 from rfl,
    daysBeforeMonth_succ _ 4 (by omega), show (4 : Nat) = 3 + 1 from rfl, daysBeforeMonth_succ _ 3 (by omega),
    show (3 : Nat) = 2 + 1 from rfl, daysBeforeMonth_succ _ 2 (by omega), show (2 : Nat) = 1 + 1 from rfl,
    daysBeforeMonth_succ _ 1 (by omega), daysBeforeMonth_one]
  have e : ∀ m, daysIn y m = if m = 2 then (if Names.isLeap y then 29 else 28)
      else if m = 4 ∨ m = 6 ∨ m = 9 ∨ m = 11 then 30 else 31 := fun _ => rfl
  rw [e 1, e 2, e 3, e 4, e 5, e 6, e 7, e 8, e 9, e 10, e 11]
  cases Names.isLeap y <;> rfl

/-- Seconds are counted along the calendar: one day later means 86400 more. -/
theorem seconds_next_day {t : DateTime} (h : t.valid = true) : seconds (nextDay t) = seconds t + 86400 := by
  unfold DateTime.valid at h
  rw [decide_eq_true_eq] at h
  obtain ⟨h1, -, h3, h4, h5, h6, -, -, -⟩ := h
  have key : ordinal (nextDay t) = ordinal t + 1 ∧ (nextDay t).hour = t.hour ∧ (nextDay t).minute = t.minute ∧
      (nextDay t).second = t.second := by
    unfold nextDay
    split
    · exact ⟨by unfold ordinal; simp only; omega, rfl, rfl, rfl⟩
    · rename_i hd
      have hd : t.day = daysIn t.year t.month := by omega
      split
      · refine ⟨?_, rfl, rfl, rfl⟩
        unfold ordinal
        simp only
        rw [daysBeforeMonth_succ _ _ h3, hd]
        omega
      · have hm : t.month = 12 := by omega
        refine ⟨?_, rfl, rfl, rfl⟩
        unfold ordinal
        simp only
        have hd31 : t.day = 31 := by rw [hd, hm]; rfl
        rw [daysBeforeMonth_one, hm, hd31]
        have hy := year_days t.year
        have hl : (if Names.isLeap t.year then 1 else 0) =
            if t.year % 4 = 0 ∧ (t.year % 100 ≠ 0 ∨ t.year % 400 = 0) then 1 else 0 := by
          unfold Names.isLeap
          simp only [decide_eq_true_eq]
        rw [hl] at hy
        obtain ⟨k, hk⟩ : ∃ k, t.year = k + 1 := ⟨t.year - 1, by omega⟩
        rw [hk] at hy ⊢
        rw [Nat.add_sub_cancel, Nat.add_sub_cancel, Nat.succ_div, Nat.succ_div, Nat.succ_div]
        have hb : k / 100 ≤ k / 4 := by omega
        generalize daysBeforeMonth (k + 1) 12 = D at hy ⊢
        generalize k / 100 = b at hb ⊢
        generalize k / 4 = a at hb ⊢
        generalize k / 400 = c
        have d4 : 4 ∣ k + 1 ↔ (k + 1) % 4 = 0 := Nat.dvd_iff_mod_eq_zero
        have d100 : 100 ∣ k + 1 ↔ (k + 1) % 100 = 0 := Nat.dvd_iff_mod_eq_zero
        have d400 : 400 ∣ k + 1 ↔ (k + 1) % 400 = 0 := Nat.dvd_iff_mod_eq_zero
        simp only [d4, d100, d400]
        have i1 : (k + 1) % 400 = 0 → (k + 1) % 100 = 0 := by omega
        have i2 : (k + 1) % 100 = 0 → (k + 1) % 4 = 0 := by omega
        generalize (k + 1) % 400 = x at hy i1 ⊢
        generalize (k + 1) % 100 = y at hy i1 i2 ⊢
        generalize (k + 1) % 4 = z at hy i2 ⊢
        by_cases hx : x = 0
        · have hy0 := i1 hx
          have hz := i2 hy0
          rw [if_pos ⟨hz, Or.inr hx⟩] at hy
          rw [if_pos hz, if_pos hy0, if_pos hx]
          omega
        · by_cases hy0 : y = 0
          · have hz := i2 hy0
            rw [if_neg (by rintro ⟨-, h | h⟩; exacts [h hy0, hx h])] at hy
            rw [if_pos hz, if_pos hy0, if_neg hx]
            omega
          · by_cases hz : z = 0
            · rw [if_pos ⟨hz, Or.inl hy0⟩] at hy
              rw [if_pos hz, if_neg hy0, if_neg hx]
              omega
            · rw [if_neg (fun h => hz h.1)] at hy
              rw [if_neg hz, if_neg hy0, if_neg hx]
              omega
  obtain ⟨k1, k2, k3, k4⟩ := key
  unfold seconds
  rw [k1, k2, k3, k4]
  push_cast
  omega

/-- Within a day, seconds are counted by the clock. -/
theorem seconds_clock (t : DateTime) (h m s : Nat) :
    seconds { t with hour := h, minute := m, second := s } =
      seconds { t with hour := 0, minute := 0, second := 0 } + (3600 * h + 60 * m + s) := by
  unfold seconds
  have : ordinal { t with hour := h, minute := m, second := s } = ordinal { t with hour := 0, minute := 0, second := 0 } :=
    rfl
  rw [this]
  push_cast
  omega

/-! ### Durations -/

/-- The duration of a job shorter than a day is the time between its start and its end. -/
theorem duration_partial {a b : DateTime} (h1 : seconds a ≤ seconds b) (h2 : seconds b < seconds a + 86400) :
    durationField a b = seconds b - seconds a := by
  unfold durationField
  omega

/-- Whole days are dropped from every duration, and a longer one is never shown. -/
theorem duration_drops_days (a b : DateTime) :
    (∃ k : Int, seconds b - seconds a = 86400 * k + durationField a b) ∧ 0 ≤ durationField a b ∧ durationField a b < 86400 := by
  unfold durationField
  exact ⟨⟨(seconds b - seconds a) / 86400, by omega⟩, by omega, by omega⟩

/-- A job that takes one day more has the same duration in the table. -/
theorem duration_day_longer {a b : DateTime} (h : b.valid = true) : durationField a (nextDay b) = durationField a b := by
  unfold durationField
  rw [seconds_next_day h]
  omega

/-! ### Names of the logs -/

theorem lastYear_none {s : Str} (h1 : ¬ "_2020".toList <:+: s) (h2 : ¬ "_2021".toList <:+: s) : lastYear s = none := by
  induction s with
  | nil => rfl
  | cons c s ih =>
    have a1 : ¬ "_2020".toList <:+: s := fun h => h1 (h.trans (List.suffix_cons c s).isInfix)
    have a2 : ¬ "_2021".toList <:+: s := fun h => h2 (h.trans (List.suffix_cons c s).isInfix)
    rw [lastYear, ih a1 a2]
    simp only
    have n1 : stripPrefix "_2020".toList (c :: s) = none := by
      cases hs : stripPrefix "_2020".toList (c :: s) with
      | none => rfl
      | some r => exact absurd ⟨[], r, by rw [(stripPrefix_eq_some _ _ _).mp hs]; rfl⟩ h1
    have n2 : stripPrefix "_2021".toList (c :: s) = none := by
      cases hs : stripPrefix "_2021".toList (c :: s) with
      | none => rfl
      | some r => exact absurd ⟨[], r, by rw [(stripPrefix_eq_some _ _ _).mp hs]; rfl⟩ h2
    rw [n1, n2]
    exact if_neg (by decide)

theorem lastYear_some {s r : Str} (h : lastYear s = some r) (p : Str) : lastYear (p ++ s) = some (p ++ r) := by
  induction p with
  | nil => exact h
  | cons c p ih =>
    rw [List.cons_append, lastYear, ih]
    rfl

theorem stamp_no_underscore (t : DateTime) : '_' ∉ stampStr '-' t := by
  intro h
  unfold stampStr at h
  have hd : ∀ w n, '_' ∉ padDec w n := fun w n h => absurd (padDec_digits w n _ h) (by decide)
  simp only [List.append_assoc, List.cons_append, List.mem_append, List.mem_cons] at h
  rcases h with h | h | h | h | h | h | h | h | h | h | h
  all_goals first
    | exact hd _ _ h
    | exact absurd h (by decide)

theorem infix_of_mem {w s : Str} {c : Char} (hc : c ∈ w) (hs : c ∉ s) : ¬ w <:+: s :=
  fun h => hs (h.subset hc)

theorem year_start {t : DateTime} (y : Str) (hy : padDec 4 t.year = y) : ∃ r, stampStr '-' t = y ++ r :=
  ⟨_, by unfold stampStr; rw [hy, List.append_assoc, List.append_assoc, List.append_assoc, List.append_assoc]⟩

/-- The stem of the log of output. -/
def outStem (t : DateTime) (s : Str) : Str := "out_".toList ++ s ++ "_".toList ++ stampStr '-' t

theorem outStem_spec (t : DateTime) (s : Str) : (logNames true t s).1 = outStem t s ++ ".out".toList := rfl

theorem nameOfLog_stem (t : DateTime) (s : Str) :
    nameOfLog (outStem t s) = lastYear (s ++ '_' :: stampStr '-' t) := by
  unfold nameOfLog outStem
  rw [List.append_assoc, List.append_assoc, stripPrefix_append]
  rfl

/-- The label of a job is read back from the name of its log if the job was submitted in 2020 or 2021. -/
theorem name_back_partial {t : DateTime} (hy : t.year = 2020 ∨ t.year = 2021) (s : Str) :
    nameOfLog (outStem t s) = some s := by
  rw [nameOfLog_stem]
  have hl : lastYear ('_' :: stampStr '-' t) = some [] := by
    have hn := stamp_no_underscore t
    rw [lastYear, lastYear_none (infix_of_mem (by decide) hn) (infix_of_mem (by decide) hn)]
    simp only
    apply if_pos
    rcases hy with hy | hy
    · left
      obtain ⟨r, hr⟩ := year_start (t := t) "2020".toList (by rw [hy]; decide +kernel)
      rw [hr, show '_' :: ("2020".toList ++ r) = "_2020".toList ++ r by rfl, stripPrefix_append]
      rfl
    · right
      obtain ⟨r, hr⟩ := year_start (t := t) "2021".toList (by rw [hy]; decide +kernel)
      rw [hr, show '_' :: ("2021".toList ++ r) = "_2021".toList ++ r by rfl, stripPrefix_append]
      rfl
  have := lastYear_some hl s
  rwa [List.append_nil] at this

theorem padDec_year_inj {a b : Nat} (h : padDec 4 a = padDec 4 b) : a = b := by
  rw [← decVal_padDec 4 a, ← decVal_padDec 4 b, h]

/-- In every other year the name is not recognised, and then there is no table at all. -/
theorem no_table {t : DateTime} (ht : t.valid = true) (hy : t.year ≠ 2020 ∧ t.year ≠ 2021) (s : Str)
    (hs : '_' ∉ s) (float : Str → Option ℚ) (text : Str) (before after : List (Str × Str)) :
    nameOfLog (outStem t s) = none ∧ usageTable float (before ++ (outStem t s, text) :: after) = none := by
  have hn : nameOfLog (outStem t s) = none := by
    rw [nameOfLog_stem]
    have hst := stamp_no_underscore t
    have hl : (padDec 4 t.year).length = 4 := by
      apply padDec_length (by decide)
      unfold DateTime.valid at ht
      rw [decide_eq_true_eq] at ht
      omega
    have key : ∀ y : Nat, ∀ Y : Str, padDec 4 y = Y → Y.length = 4 → '_' ∉ Y → t.year ≠ y →
        ¬ ('_' :: Y) <:+: (s ++ '_' :: stampStr '-' t) := by
      rintro y Y hY hlen hu hne ⟨a, b, e⟩
      have e1 : a ++ '_' :: (Y ++ b) = s ++ '_' :: stampStr '-' t := by
        rw [← e]; simp
      have hab : a = s ∧ Y ++ b = stampStr '-' t := by
        rcases List.append_eq_append_iff.mp e1 with ⟨u, hu1, hu2⟩ | ⟨u, hu1, hu2⟩
        · cases u with
          | nil => exact ⟨by simpa using hu1.symm, by simpa using (List.cons.inj hu2).2⟩
          | cons x u =>
            have : x = '_' := (List.cons.inj hu2).1.symm
            exact absurd (by rw [hu1, this]; simp) hs
        · cases u with
          | nil => exact ⟨by simpa using hu1, by simpa using (List.cons.inj hu2).2.symm⟩
          | cons x u =>
            have h2 : stampStr '-' t = u ++ '_' :: (Y ++ b) := (List.cons.inj hu2).2
            exact absurd (by rw [h2]; simp) hst
      obtain ⟨r, hr⟩ := year_start (t := t) _ rfl
      rw [hr] at hab
      have := (List.append_inj hab.2 (by rw [hlen, hl])).1
      exact hne (padDec_year_inj (by rw [hY, this]))
    exact lastYear_none (key 2020 _ (by decide +kernel) (by decide) (by decide) hy.1)
      (key 2021 _ (by decide +kernel) (by decide) (by decide) hy.2)
  refine ⟨hn, ?_⟩
  unfold usageTable
  induction before with
  | nil =>
    rw [List.nil_append, List.mapM_cons]
    have : usageRow float (outStem t s, text) = none := by
      unfold usageRow
      rw [hn]
      rfl
    rw [this]
    rfl
  | cons q before ih =>
    rw [List.cons_append, List.mapM_cons, ih]
    cases usageRow float q <;> rfl

/-! ### Dates -/

theorem search_skip {α : Type} (m : Str → Option α) (a s : Str) (h : ∀ u v, a = u ++ v → v ≠ [] → m (v ++ s) = none) :
    search m (a ++ s) = search m s := by
  induction a with
  | nil => rfl
  | cons c a ih =>
    rw [List.cons_append, search, ← List.cons_append, h [] (c :: a) rfl (by simp), Option.none_or]
    exact ih fun u v e hv => h (c :: u) v (by rw [e]; rfl) hv

theorem search_here {α : Type} (m : Str → Option α) {s : Str} {x : α} (h : m s = some x) : search m s = some x := by
  cases s with
  | nil => exact h
  | cons c s => rw [search, h]; rfl

/-- A literal is not found before its first occurrence. -/
theorem strip_before {P before : Str} (hP : P ≠ []) (hfirst : ¬ P <:+: before ++ P.dropLast) (s u v : Str)
    (e : before = u ++ v) (hv : v ≠ []) : stripPrefix P (v ++ (P ++ s)) = none := by
  cases hs : stripPrefix P (v ++ (P ++ s)) with
  | none => rfl
  | some r =>
    exfalso
    have h := (stripPrefix_eq_some _ _ _).mp hs
    apply hfirst
    have h1 : P <+: v ++ (P ++ s) := ⟨r, h.symm⟩
    have h2 : v ++ P.dropLast <+: v ++ (P ++ s) := by
      refine ⟨P.getLast hP :: s, ?_⟩
      have := List.dropLast_append_getLast hP
      rw [List.append_assoc]
      congr 1
      rw [show P.getLast hP :: s = [P.getLast hP] ++ s from rfl, ← List.append_assoc, this]
    have hlen : P.length ≤ (v ++ P.dropLast).length := by
      have : 0 < v.length := List.length_pos_iff.mpr hv
      rw [List.length_append, List.length_dropLast]
      omega
    have h3 : P <+: v ++ P.dropLast := List.prefix_of_prefix_length_le h1 h2 hlen
    obtain ⟨w, hw⟩ := h3
    exact ⟨u, w, by rw [List.append_assoc, hw, e, List.append_assoc]⟩

/-- The name of a month. -/
def monthName (m : Nat) : Str := months.getD (m - 1) []

/-- A date as the scheduler prints it, days below ten with a second space. -/
def logDate (weekday : Str) (t : DateTime) : Str :=
  weekday ++ ' ' :: (monthName t.month ++ ' ' :: ((if t.day < 10 then [' '] else []) ++ decStr t.day ++
    ' ' :: (padDec 2 t.hour ++ ':' :: (padDec 2 t.minute ++ ':' :: padDec 2 t.second) ++ ' ' :: padDec 4 t.year)))

theorem month_facts {m : Nat} (h1 : 1 ≤ m) (h2 : m ≤ 12) :
    monthName m ∈ months ∧ months.idxOf (monthName m) + 1 = m ∧ (monthName m).length = 3 ∧
      ∀ c ∈ monthName m, isLetter c = true := by
  have : ∀ k : Fin 12, monthName (k + 1) ∈ months ∧ months.idxOf (monthName (k + 1)) + 1 = k + 1 ∧
      (monthName (k + 1)).length = 3 ∧ ∀ c ∈ monthName (k + 1), isLetter c = true := by decide +kernel
  obtain ⟨k, rfl⟩ : ∃ k, m = k + 1 := ⟨m - 1, by omega⟩
  exact this ⟨k, by omega⟩

theorem space_not_letter {c : Char} (h : isSpace c = true) : isLetter c = false := by
  unfold isLetter
  rw [Batch.space_not_lower h, Batch.space_not_upper h]
  rfl

theorem digit_no_colon {s : Str} (h : ∀ c ∈ s, isDigit c = true) : ':' ∉ s := fun hc => absurd (h _ hc) (by decide)

theorem parseNat_padDec (w n : Nat) (hw : 0 < w) (h : n < 10 ^ w) : parseNat (padDec w n) = some n := by
  unfold parseNat
  rw [if_pos ⟨fun e => by
    have := padDec_length hw h
    rw [e] at this
    simp at this
    omega, List.all_eq_true.mpr (padDec_digits w n)⟩, decVal_padDec]

/-- The parts of a valid date give the date. -/
theorem mkDate_spec {t : DateTime} (h : t.valid = true) :
    mkDate (padDec 4 t.year) (monthName t.month) t.day
      (padDec 2 t.hour ++ ':' :: (padDec 2 t.minute ++ ':' :: padDec 2 t.second)) = some t := by
  have hv := h
  unfold DateTime.valid at h
  rw [decide_eq_true_eq] at h
  obtain ⟨h1, h2, h3, h4, h5, h6, h7, h8, h9⟩ := h
  obtain ⟨m1, m2, m3, m4⟩ := month_facts h3 h4
  unfold mkDate
  rw [splitChar_append _ _ _ (digit_no_colon (padDec_digits _ _)),
    splitChar_append _ _ _ (digit_no_colon (padDec_digits _ _)),
    splitChar_no_sep _ _ (digit_no_colon (padDec_digits _ _))]
  simp only
  rw [if_pos ⟨padDec_length (by decide) (by omega), m1⟩]
  have f2 : ∀ n, n < 100 → field2 (padDec 2 n) = some n := by
    intro n hn
    unfold field2
    rw [if_pos (by rw [padDec_length (by decide) (by omega)]), parseNat_padDec 2 n (by decide) (by omega)]
  rw [parseNat_padDec 4 _ (by decide) (by omega), f2 _ (by omega), f2 _ (by omega), f2 _ (by omega)]
  simp only [Option.bind_some]
  rw [m2, if_pos hv]

theorem matchPat_padDec {w n : Nat} (hw : 0 < w) (h : n < 10 ^ w) (p : List (Option Char)) (s : Str) :
    Names.matchPat (Names.dig w ++ p) (padDec w n ++ s) = Names.matchPat p s := by
  have hl := padDec_length hw h
  have hd := padDec_digits w n
  generalize padDec w n = x at hl hd
  clear h hw
  induction w generalizing x with
  | zero => rw [List.length_eq_zero_iff.mp hl]; rfl
  | succ w ih =>
    cases x with
    | nil => exact absurd hl (by simp)
    | cons c x =>
      show (isDigit c && Names.matchPat (Names.dig w ++ p) (x ++ s)) = _
      rw [hd c List.mem_cons_self, Bool.true_and]
      exact ih x (by simpa using hl) fun d hdm => hd d (List.mem_cons_of_mem _ hdm)

theorem matchDate_core {wd M S D T Y : Str} (hne : wd ≠ []) (hw : ∀ c ∈ wd, isLetter c = true)
    (hM : M.length = 3) (hMl : ∀ c ∈ M, isLetter c = true) (hS : S ≠ []) (hSs : ∀ c ∈ S, isSpace c = true)
    (hD : D ≠ []) (hDd : ∀ c ∈ D, isDigit c = true) (hT : T.length = 8) (hTd : ∀ c ∈ T.head?, isDigit c = true)
    (hTp : Names.matchPat (Names.dig 2 ++ some ':' :: Names.dig 2 ++ some ':' :: Names.dig 2) T = true)
    (hY : Y.length = 4) (hYd : ∀ c ∈ Y.head?, isDigit c = true) (hYp : Names.matchPat (Names.dig 4) Y = true)
    (pre after : Str) :
    matchDate pre ((pre ++ " ".toList) ++
      (wd ++ ' ' :: (M ++ (S ++ (D ++ ' ' :: (T ++ ' ' :: (Y ++ after))))))) = some (M, D, T, Y) := by
  have sp : ∀ (p : Char → Bool) (s : Str), p ' ' = false → ∀ c ∈ (' ' :: s).head?, p c = false := by
    intro p s hp c hc
    have : c = ' ' := by simpa using hc.symm
    rw [this]; exact hp
  have e1 := Batch.span_all isLetter wd hw (' ' :: (M ++ (S ++ (D ++ ' ' :: (T ++ ' ' :: (Y ++ after))))))
    (sp _ _ (by decide))
  have e2 := Batch.span_all isLetter M hMl (S ++ (D ++ ' ' :: (T ++ ' ' :: (Y ++ after)))) (by
    cases S with
    | nil => exact absurd rfl hS
    | cons x S =>
      intro c hc
      have : c = x := by simpa using hc.symm
      rw [this]
      exact space_not_letter (hSs x List.mem_cons_self))
  have e3 := Batch.span_all isSpace S hSs (D ++ ' ' :: (T ++ ' ' :: (Y ++ after))) (by
    cases D with
    | nil => exact absurd rfl hD
    | cons x D =>
      intro c hc
      have : c = x := by simpa using hc.symm
      rw [this]
      exact Batch.digit_not_space (hDd x List.mem_cons_self))
  have e4 := Batch.span_all isDigit D hDd (' ' :: (T ++ ' ' :: (Y ++ after))) (sp _ _ (by decide))
  have e5 := Batch.span_all isSpace [' '] (by decide) (T ++ ' ' :: (Y ++ after)) (by
    cases T with
    | nil => exact absurd hT (by decide)
    | cons x T =>
      intro c hc
      have : c = x := by simpa using hc.symm
      rw [this]
      exact Batch.digit_not_space (hTd x rfl))
  have e6 := Batch.span_all isSpace [' '] (by decide) (Y ++ after) (by
    cases Y with
    | nil => exact absurd hY (by decide)
    | cons x Y =>
      intro c hc
      have : c = x := by simpa using hc.symm
      rw [this]
      exact Batch.digit_not_space (hYd x rfl))
  rw [List.singleton_append] at e5 e6
  have t1 : (T ++ ' ' :: (Y ++ after)).take 8 = T := List.take_left' hT
  have t2 : (T ++ ' ' :: (Y ++ after)).drop 8 = ' ' :: (Y ++ after) := List.drop_left' hT
  have t3 : (Y ++ after).take 4 = Y := List.take_left' hY
  unfold matchDate
  rw [stripPrefix_append, Option.bind_some]
  simp only [e1]
  rw [if_neg hne]
  have e0 : stripPrefix " ".toList (' ' :: (M ++ (S ++ (D ++ ' ' :: (T ++ ' ' :: (Y ++ after)))))) =
      some (M ++ (S ++ (D ++ ' ' :: (T ++ ' ' :: (Y ++ after))))) :=
    stripPrefix_append " ".toList _
  rw [e0, Option.bind_some]
  simp only [e2, e3, e4, e5, t1, t2, e6, t3, hTp, hYp]
  rw [if_neg (by rw [hM]; decide), if_neg (by
    rintro (h | h | h)
    · exact hS h
    · exact hD h
    · exact absurd h (by decide)), if_neg (by decide), if_neg (by decide), if_neg (by decide)]

theorem matchDate_here {t : DateTime} (h : t.valid = true) {wd : Str} (hne : wd ≠ [])
    (hw : ∀ c ∈ wd, isLetter c = true) (pre after : Str) :
    matchDate pre ((pre ++ " ".toList) ++ (logDate wd t ++ after)) =
      some (monthName t.month, decStr t.day,
        padDec 2 t.hour ++ ':' :: (padDec 2 t.minute ++ ':' :: padDec 2 t.second), padDec 4 t.year) := by
  unfold DateTime.valid at h
  rw [decide_eq_true_eq] at h
  obtain ⟨h1, h2, h3, h4, h5, h6, h7, h8, h9⟩ := h
  obtain ⟨m1, m2, m3, m4⟩ := month_facts h3 h4
  have hTp : Names.matchPat (Names.dig 2 ++ some ':' :: Names.dig 2 ++ some ':' :: Names.dig 2)
      (padDec 2 t.hour ++ ':' :: (padDec 2 t.minute ++ ':' :: padDec 2 t.second)) = true := by
    rw [show (Names.dig 2 ++ some ':' :: Names.dig 2 ++ some ':' :: Names.dig 2) =
      Names.dig 2 ++ (some ':' :: (Names.dig 2 ++ (some ':' :: (Names.dig 2 ++ [])))) by rfl]
    rw [matchPat_padDec (by decide) (by omega)]
    show (decide (':' = ':') && _) = true
    rw [matchPat_padDec (by decide) (by omega)]
    show (decide (':' = ':') && (decide (':' = ':') && _)) = true
    have := matchPat_padDec (w := 2) (n := t.second) (by decide) (by omega) [] []
    rw [List.append_nil (padDec 2 t.second)] at this
    rw [this]
    rfl
  have hYp : Names.matchPat (Names.dig 4) (padDec 4 t.year) = true := by
    have := matchPat_padDec (w := 4) (n := t.year) (by decide) (by omega) [] []
    rw [List.append_nil, List.append_nil] at this
    rw [this]
    rfl
  have hd : ∀ w n : Nat, ∀ c ∈ (padDec w n).head?, isDigit c = true :=
    fun w n c hc => padDec_digits w n c (List.mem_of_mem_head? hc)
  have hTd : ∀ c ∈ (padDec 2 t.hour ++ ':' :: (padDec 2 t.minute ++ ':' :: padDec 2 t.second)).head?,
      isDigit c = true := by
    intro c hc
    have hl := padDec_length (w := 2) (n := t.hour) (by decide) (by omega)
    have hd := hd 2 t.hour c
    cases hx : padDec 2 t.hour with
    | nil => rw [hx] at hl; exact absurd hl (by decide)
    | cons a b =>
      rw [hx] at hc hd
      exact hd (by simpa using hc)
  have hTl : (padDec 2 t.hour ++ ':' :: (padDec 2 t.minute ++ ':' :: padDec 2 t.second)).length = 8 := by
    simp [padDec_length (w := 2) (n := t.hour) (by decide) (by omega),
      padDec_length (w := 2) (n := t.minute) (by decide) (by omega),
      padDec_length (w := 2) (n := t.second) (by decide) (by omega)]
  have e : logDate wd t ++ after = wd ++ ' ' :: (monthName t.month ++ ((' ' :: if t.day < 10 then [' '] else []) ++
      (decStr t.day ++ ' ' :: ((padDec 2 t.hour ++ ':' :: (padDec 2 t.minute ++ ':' :: padDec 2 t.second)) ++
        ' ' :: (padDec 4 t.year ++ after))))) := by
    unfold logDate
    simp only [List.append_assoc, List.cons_append]
  rw [e]
  exact matchDate_core hne hw m3 m4 (by simp) (by split <;> decide) (decStr_ne_nil _) (decStr_digits _) hTl hTd hTp
    (padDec_length (by decide) (by omega)) (hd _ _) hYp pre after

/-- The date after the first occurrence of a phrase is read from a log. -/
theorem date_back {t : DateTime} (h : t.valid = true) {wd : Str} (hne : wd ≠ []) (hw : ∀ c ∈ wd, isLetter c = true)
    (phrase before after : Str) (hfirst : ¬ (phrase ++ " ".toList) <:+: before ++ phrase) :
    extractDate (before ++ (phrase ++ " ".toList) ++ logDate wd t ++ after) phrase = some t := by
  unfold extractDate
  rw [List.append_assoc, List.append_assoc, search_skip _ before, search_here _ (matchDate_here h hne hw phrase after)]
  · rw [Option.bind_some]
    simp only
    rw [decVal_decStr]
    exact mkDate_spec h
  · intro u v e hv
    have hd : (phrase ++ " ".toList).dropLast = phrase := List.dropLast_concat
    have := strip_before (P := phrase ++ " ".toList) (by simp) (by rw [hd]; exact hfirst) (logDate wd t ++ after) u v e hv
    unfold matchDate
    rw [this]
    rfl

/-- The row of a log: label, times, duration and numbers, if the log is from 2020 or 2021 and all the numbers are there. -/
theorem row_partial {a b now : DateTime} (hy : now.year = 2020 ∨ now.year = 2021) (s text : Str) (float : Str → Option ℚ) (ns : List ℚ)
    (h1 : extractDate text "Started at".toList = some a) (h2 : extractDate text "Results reported on".toList = some b)
    (hn : labels.mapM (fun l => (search (matchNum l) text).bind float) = some ns)
    (h3 : seconds a ≤ seconds b) (h4 : seconds b < seconds a + 86400) :
    usageRow float (outStem now s, text) = some ⟨s, a, b, seconds b - seconds a, ns⟩ := by
  unfold usageRow
  rw [name_back_partial hy, Option.bind_some, h1, Option.bind_some, h2, Option.bind_some, hn, Option.map_some,
    duration_partial h3 h4]

theorem num_not_space {c : Char} (h : isNum c = true) : isSpace c = false := by
  unfold isNum at h
  rcases Bool.or_eq_true_iff.mp h with h | h
  · exact Batch.digit_not_space h
  · have : c = '.' := by simpa using h
    rw [this]; decide

/-- The number after the first occurrence of its label is read from a log. -/
theorem number_back {label before sp1 sp2 num after : Str} (hl : label ≠ [])
    (hfirst : ¬ label <:+: before ++ label.dropLast) (h1 : ∀ c ∈ sp1, isSpace c = true)
    (h2 : sp2 ≠ [] ∧ ∀ c ∈ sp2, isSpace c = true) (h3 : num ≠ [] ∧ ∀ c ∈ num, isNum c = true)
    (h4 : ∀ c ∈ after.head?, isNum c = false) :
    search (matchNum label) (before ++ (label ++ (sp1 ++ ':' :: (sp2 ++ (num ++ after))))) = some num := by
  rw [search_skip _ before, search_here _ (x := num)]
  · have e1 := Batch.span_all isSpace sp1 h1 (':' :: (sp2 ++ (num ++ after))) (by
      intro c hc
      have : c = ':' := by simpa using hc.symm
      rw [this]; decide)
    have e2 := Batch.span_all isSpace sp2 h2.2 (num ++ after) (by
      cases num with
      | nil => exact absurd rfl h3.1
      | cons x num =>
        intro c hc
        have : c = x := by simpa using hc.symm
        rw [this]
        exact num_not_space (h3.2 x List.mem_cons_self))
    have e3 := Batch.span_all isNum num h3.2 after h4
    have e0 : stripPrefix ":".toList (':' :: (sp2 ++ (num ++ after))) = some (sp2 ++ (num ++ after)) :=
      stripPrefix_append ":".toList _
    unfold matchNum
    rw [stripPrefix_append, Option.bind_some, e1]
    simp only [e0, Option.bind_some, e2, e3]
    exact if_neg (by rintro (h | h); exacts [h2.1 h, h3.1 h])
  · intro u v e hv
    unfold matchNum
    rw [strip_before hl hfirst _ u v e hv]
    rfl

/-- The five numbers of a row, in the order of the columns: each is the one after its own label. -/
theorem row_columns {float : Str → Option ℚ} {stem text : Str} {u : Usage} (h : usageRow float (stem, text) = some u) :
    ∃ a b c d e : ℚ, u.numbers = [a, b, c, d, e] ∧
      (search (matchNum "CPU time".toList) text).bind float = some a ∧
      (search (matchNum "Max Memory".toList) text).bind float = some b ∧
      (search (matchNum "Average Memory".toList) text).bind float = some c ∧
      (search (matchNum "Total Requested Memory".toList) text).bind float = some d ∧
      (search (matchNum "Delta Memory".toList) text).bind float = some e := by
  have gen : ∀ (g : Str → Option ℚ) (l1 l2 l3 l4 l5 : Str) (ns : List ℚ), [l1, l2, l3, l4, l5].mapM g = some ns →
      ∃ a b c d e : ℚ, ns = [a, b, c, d, e] ∧ g l1 = some a ∧ g l2 = some b ∧ g l3 = some c ∧ g l4 = some d ∧ g l5 = some e := by
    intro g l1 l2 l3 l4 l5 ns h
    simp only [List.mapM_cons, List.mapM_nil, Option.bind_eq_bind, Option.bind_eq_some_iff, Option.pure_def, Option.some.injEq] at h
    obtain ⟨a, ha, _, ⟨b, hb, _, ⟨c, hc, _, ⟨d, hd, _, ⟨e, he, _, rfl, rfl⟩, rfl⟩, rfl⟩, rfl⟩, rfl⟩ := h
    exact ⟨a, b, c, d, e, rfl, ha, hb, hc, hd, he⟩
  unfold usageRow at h
  obtain ⟨n, -, h⟩ := Option.bind_eq_some_iff.mp h
  obtain ⟨x, -, h⟩ := Option.bind_eq_some_iff.mp h
  obtain ⟨y, -, h⟩ := Option.bind_eq_some_iff.mp h
  obtain ⟨ns, hn, h⟩ := Option.map_eq_some_iff.mp h
  subst h
  exact gen (fun l => (search (matchNum l) text).bind float) _ _ _ _ _ ns hn

/-- One log without one of the numbers, and there is no table. -/
theorem no_table_number {label text : Str} (hl : label ∈ labels) (hno : ¬ label <:+: text) (float : Str → Option ℚ)
    (stem : Str) (before after : List (Str × Str)) : usageTable float (before ++ (stem, text) :: after) = none := by
  have hs : search (matchNum label) text = none := by
    have := search_skip (matchNum label) text [] (by
      intro u v e hv
      rw [List.append_nil]
      cases h : stripPrefix label v with
      | none => unfold matchNum; rw [h]; rfl
      | some r =>
        exact absurd ⟨u, r, by rw [e, (stripPrefix_eq_some _ _ _).mp h, List.append_assoc]⟩ hno)
    rw [List.append_nil] at this
    rw [this]
    show matchNum label [] = none
    unfold matchNum
    cases h : stripPrefix label [] with
    | none => rfl
    | some r =>
      have e := (stripPrefix_eq_some _ _ _).mp h
      have : label = [] := (List.append_eq_nil_iff.mp e.symm).1
      exact absurd (by rw [this]; exact ⟨[], text, rfl⟩) hno
  have hr : usageRow float (stem, text) = none := by
    have hm : labels.mapM (fun l => (search (matchNum l) text).bind float) = none := by
      cases hx : labels.mapM (fun l => (search (matchNum l) text).bind float) with
      | none => rfl
      | some ns =>
        obtain ⟨a, b, e⟩ := List.append_of_mem hl
        rw [e, List.mapM_append] at hx
        rw [List.mapM_cons, hs] at hx
        cases h : List.mapM (fun l => (search (matchNum l) text).bind float) a with
        | none => rw [h] at hx; exact absurd hx (by simp)
        | some w => rw [h] at hx; exact absurd hx (by simp)
    unfold usageRow
    simp only [hm]
    cases nameOfLog stem with
    | none => rfl
    | some n =>
      cases extractDate text "Started at".toList with
      | none => rfl
      | some a => cases extractDate text "Results reported on".toList <;> rfl
  unfold usageTable
  induction before with
  | nil => rw [List.nil_append, List.mapM_cons, hr]; rfl
  | cons q before ih =>
    rw [List.cons_append, List.mapM_cons, ih]
    cases usageRow float q <;> rfl

/-! ### Cases meeting the hypotheses -/

def exTime : DateTime := ⟨2020, 2, 28, 23, 59, 58⟩

example : exTime.valid = true := by decide
example : seconds (nextDay (nextDay exTime)) = seconds exTime + 172800 := by decide
example : logDate "Fri".toList exTime = "Fri Feb 28 23:59:58 2020".toList := by decide +kernel
example : (logNames true exTime "wlwl".toList).1 = "out_wlwl_2020-02-28T23-59-58.out".toList := by decide +kernel
example : bsubCommand (history [("long".toList, 2, 4000), ("short".toList, 8, 10000)]) "./job.sh".toList
    "e".toList "o".toList =
      some "bsub -P c7 -q short -M 10000 -n 8 -e e -o o -R\"select[avx && mem>10000] rusage[mem=10000]\" ./job.sh".toList := by
  decide +kernel

def exText : Str :=
  "Job done.\nStarted at Fri Feb 28 23:59:58 2020\nResults reported on Sat Feb 29 00:10:00 2020\n    CPU time :   12.5 sec.\n    Max Memory : 3 MB\n    Average Memory : 2 MB\n    Total Requested Memory : 4000 MB\n    Delta Memory : 1 MB\n".toList

example : extractDate exText "Started at".toList = some exTime := by decide +kernel
example : extractDate exText "Results reported on".toList = some ⟨2020, 2, 29, 0, 10, 0⟩ := by decide +kernel
example : labels.mapM (fun l => search (matchNum l) exText) =
    some ["12.5".toList, "3".toList, "2".toList, "4000".toList, "1".toList] := by decide +kernel
example : durationField exTime ⟨2020, 2, 29, 0, 10, 0⟩ = 602 := by decide

end Seyfert.Submit
