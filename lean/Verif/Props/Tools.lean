import Verif.Lemmas.Tools

/-! Properties of the small programs around the runs. -/

namespace Seyfert.Tools

/-! ### Stopping runs -/

/-- **C140, what is stopped.** The program ends, in the order of the list of processes and each by its own number, the processes
which name one of the two programs and whose user is shown by letters only. -/
theorem kills_spec (header : Str) (hh : '\n' ∉ header) (ps : List Proc) (h : ∀ p ∈ ps, p.Valid) :
    kills (psOutput header ps) = (ps.filter (fun p => decide (Short p.user ∧ Named p.cmd))).map (·.pid) := by
  unfold kills psOutput
  have e : header ++ "\n".toList ++ ps.flatMap (fun p => p.line ++ "\n".toList) =
      header ++ '\n' :: ps.flatMap (fun p => p.line ++ "\n".toList) := by
    rw [List.append_assoc]
    rfl
  rw [e, splitChar_append _ _ _ hh, List.tail_cons, split_lines ps h, List.map_append, List.filterMap_append]
  have e2 : ([[]].map strip).filterMap matchPid = [] := by decide
  rw [e2, List.append_nil]
  clear e e2
  induction ps with
  | nil => rfl
  | cons p ps ih =>
    have ih := ih fun q hq => h q (List.mem_cons_of_mem _ hq)
    obtain ⟨m1, m2⟩ := match_proc p (h p List.mem_cons_self)
    rw [List.map_cons, List.map_cons, List.filter_cons]
    by_cases hp : Short p.user ∧ Named p.cmd
    · rw [List.filterMap_cons_some (m1 hp), if_pos (decide_eq_true hp), List.map_cons, ih]
    · rw [List.filterMap_cons_none (m2 hp), if_neg (by simpa using hp), ih]

/-- **C140, own runs.** Every run of a user with at most eight letters is ended. -/
theorem runs_stopped_partial (header : Str) (hh : '\n' ∉ header) (ps : List Proc) (h : ∀ p ∈ ps, p.Valid) (p : Proc) (hp : p ∈ ps)
    (hs : Short p.user) (hn : Named p.cmd) : p.pid ∈ kills (psOutput header ps) := by
  rw [kills_spec header hh ps h]
  exact List.mem_map.mpr ⟨p, List.mem_filter.mpr ⟨hp, decide_eq_true ⟨hs, hn⟩⟩, rfl⟩

/-- **C140, nothing else.** A process of another number than those of all which name the programs is not ended. -/
theorem others_spared (header : Str) (hh : '\n' ∉ header) (ps : List Proc) (h : ∀ p ∈ ps, p.Valid) (p : Proc)
    (hp : ∀ q ∈ ps, q.pid = p.pid → ¬ Named q.cmd) : p.pid ∉ kills (psOutput header ps) := by
  rw [kills_spec header hh ps h]
  intro hm
  obtain ⟨q, hq, e⟩ := List.mem_map.mp hm
  obtain ⟨h1, h2⟩ := List.mem_filter.mp hq
  exact hp q h1 e (of_decide_eq_true h2).2

/-- **C140, the message.** The program says that it has found nothing exactly if it has ended nothing. -/
theorem says_iff (header : Str) (hh : '\n' ∉ header) (ps : List Proc) (h : ∀ p ∈ ps, p.Valid) :
    saysNone (psOutput header ps) = true ↔ ∀ p ∈ ps, ¬ (Short p.user ∧ Named p.cmd) := by
  unfold saysNone
  rw [decide_eq_true_eq, kills_spec header hh ps h, List.map_eq_nil_iff, List.filter_eq_nil_iff]
  exact ⟨fun h p hp hc => h p hp (decide_eq_true hc), fun h p hp hc => h p hp (of_decide_eq_true hc)⟩

/-- **C140, other names.** Runs of a user with more than eight letters, or with any other character in the name, are never ended,
and if there are no other runs the program says that there are none. -/
theorem long_names_spared (header : Str) (hh : '\n' ∉ header) (ps : List Proc) (h : ∀ p ∈ ps, p.Valid)
    (hu : ∀ p ∈ ps, Named p.cmd → 8 < p.user.length ∨ ∃ c ∈ p.user, isLetter c = false) :
    kills (psOutput header ps) = [] ∧ saysNone (psOutput header ps) = true := by
  have hs : saysNone (psOutput header ps) = true := by
    rw [says_iff header hh ps h]
    rintro p hp ⟨h1, h2⟩
    rcases hu p hp h2 with h3 | ⟨c, hc, h3⟩
    · exact absurd h1.1 (by omega)
    · rw [h1.2 c hc] at h3
      cases h3
  exact ⟨of_decide_eq_true hs, hs⟩

/-- **C140, the program itself.** The program does not end itself, wherever it is installed without an underscore in the path. -/
theorem itself_spared (dir : Str) (h : '_' ∉ dir) : ¬ Named ("python3 ".toList ++ dir ++ "/kill_job_submitter".toList) := by
  rw [← mentions_named]
  have e : ' ' :: ("python3 ".toList ++ dir ++ "/kill_job_submitter".toList) =
      (" python3 ".toList ++ dir) ++ '/' :: "kill_job_submitter".toList := rfl
  rw [e, mentions_skip _ (by decide)]
  · decide
  · intro hm
    rcases List.mem_append.mp hm with hm | hm
    · revert hm; decide
    · exact h hm

/-- **C140, files.** A program which only reads or writes a file whose name begins with that of one of the programs is ended as
well, in whatever directory the file is. -/
theorem editor_stopped (header : Str) (hh : '\n' ∉ header) (ps : List Proc) (h : ∀ p ∈ ps, p.Valid) (p : Proc) (hp : p ∈ ps)
    (hs : Short p.user) (dir rest : Str) (hc : p.cmd = "vim ".toList ++ dir ++ "/job_submitter".toList ++ rest) :
    p.pid ∈ kills (psOutput header ps) := by
  refine runs_stopped_partial header hh ps h p hp hs ⟨_, List.mem_cons_self, .inr ⟨'/', .inr rfl, ?_⟩⟩
  rw [hc]
  exact ⟨"vim ".toList ++ dir, rest, rfl⟩

/-- **C140, runs of one process.** Runs by the third program are not ended: its command does not name the other two, unless an
argument does. -/
theorem interactive_spared (dir args : Str) (hd : '_' ∉ dir) (ha : ∀ w ∈ ["job_submitter".toList, "orchestrate_run".toList], ¬ w <:+: args) :
    ¬ Named ("python3 ".toList ++ dir ++ "/run_seyfert ".toList ++ args) := by
  rw [← mentions_named]
  have e : ' ' :: ("python3 ".toList ++ dir ++ "/run_seyfert ".toList ++ args) =
      (" python3 ".toList ++ dir) ++ '/' :: ("run_seyfert ".toList ++ args) := by
    rw [List.append_assoc]
    rfl
  rw [e, mentions_skip _ (by decide)]
  · rw [mentions_iff]
    rintro ⟨w, hw, c, hc, y, z, hz⟩
    have hz' : y ++ c :: (w ++ z) = '/' :: ("run_seyfert".toList ++ ' ' :: args) := by
      rw [List.append_assoc] at hz
      exact hz
    have hm : mentions ('/' :: ("run_seyfert".toList ++ ' ' :: args)) = mentions args := by
      have t : mentions (' ' :: args) = mentions args := by
        conv => lhs; unfold mentions
        have : runWords.any (fun w => w.isPrefixOf args) = false := by
          rw [List.any_eq_false]
          intro w hw hp
          exact ha w hw (List.isPrefixOf_iff_prefix.mp hp).isInfix
        rw [this, Bool.and_false, Bool.false_or]
      rw [← t]
      rfl
    have h1 : mentions args = true := by
      rw [← hm, ← hz', mentions_iff]
      exact ⟨w, hw, c, hc, y, z, by rw [List.append_assoc]; rfl⟩
    obtain ⟨w', hw', c', -, h2⟩ := (mentions_iff args).mp h1
    exact ha w' hw' ((List.suffix_cons c' w').isInfix.trans h2)
  · intro hm
    rcases List.mem_append.mp hm with hm | hm
    · revert hm; decide
    · exact hd hm

/-! ### The report on batch jobs -/

/-- **C141, one log.** A log counts as success exactly if one of its lines is the message of the scheduler. -/
theorem jobDone_iff (text : Str) : jobDone text = true ↔ HasLine message text := by
  show _ ↔ HasLine completed text
  unfold jobDone HasLine
  rw [search_iff]
  constructor
  · rintro (⟨-, b, h1, h2⟩ | ⟨a, b, h1, h2⟩)
    · exact ⟨[], b, h1, .inl rfl, h2⟩
    · exact ⟨a ++ ['\n'], b, by rw [h1, List.append_assoc, List.append_assoc]; rfl, .inr ⟨a, rfl⟩, h2⟩
  · rintro ⟨a, b, h1, rfl | ⟨a', rfl⟩, h2⟩
    · exact .inl ⟨rfl, b, h1, h2⟩
    · exact .inr ⟨a', b, by rw [h1, List.append_assoc, List.append_assoc]; rfl, h2⟩

/-- **C141, the report.** All logs found are counted; those without the message are named, in order, and success is reported
exactly if there are none of them. -/
theorem report_spec (dirs : List RunDir) :
    (report dirs).1 = (outFiles dirs).length ∧
    (∀ n, n ∈ (report dirs).2.1 ↔ ∃ f ∈ outFiles dirs, f.1 = n ∧ ¬ HasLine message f.2) ∧
    ((report dirs).2.2 = true ↔ ∀ f ∈ outFiles dirs, HasLine message f.2) ∧
    ((report dirs).2.2 = true ↔ (report dirs).2.1 = []) := by
  refine ⟨rfl, ?_, ?_, ?_⟩
  · intro n
    show n ∈ ((outFiles dirs).filter (fun f => !jobDone f.2)).map (·.1) ↔ _
    rw [List.mem_map]
    constructor
    · rintro ⟨f, hf, rfl⟩
      obtain ⟨h1, h2⟩ := List.mem_filter.mp hf
      refine ⟨f, h1, rfl, fun h => ?_⟩
      rw [(jobDone_iff f.2).mpr h] at h2
      cases h2
    · rintro ⟨f, hf, rfl, h⟩
      refine ⟨f, List.mem_filter.mpr ⟨hf, ?_⟩, rfl⟩
      cases hj : jobDone f.2 with
      | true => exact absurd ((jobDone_iff f.2).mp hj) h
      | false => rfl
  · show (outFiles dirs).all (fun f => jobDone f.2) = true ↔ _
    rw [List.all_eq_true]
    exact ⟨fun h f hf => (jobDone_iff f.2).mp (h f hf), fun h f hf => (jobDone_iff f.2).mpr (h f hf)⟩
  · show (outFiles dirs).all (fun f => jobDone f.2) = true ↔ ((outFiles dirs).filter (fun f => !jobDone f.2)).map (·.1) = []
    rw [List.all_eq_true, List.map_eq_nil_iff, List.filter_eq_nil_iff]
    constructor
    · intro h f hf hn
      rw [h f hf] at hn
      cases hn
    · intro h f hf
      have := h f hf
      cases hj : jobDone f.2 with
      | true => rfl
      | false => rw [hj] at this; exact absurd rfl this

/-- **C141, which logs.** The logs found are the files of the default pattern, each in its run. -/
theorem outFiles_iff (dirs : List RunDir) (f : Str × Str) : f ∈ outFiles dirs ↔ ∃ d ∈ dirs, f ∈ d.outs ∧
    (∃ x, d.name = "run_".toList ++ x) ∧ ∃ x, f.1 = "out".toList ++ x ++ ".out".toList := by
  have hg : ∀ pre suf n : Str, glob pre suf n = true ↔ ∃ x, n = pre ++ x ++ suf := by
    intro pre suf n
    unfold glob
    rw [Bool.and_eq_true, Bool.and_eq_true, decide_eq_true_eq, List.isPrefixOf_iff_prefix, List.isSuffixOf_iff_suffix]
    constructor
    · rintro ⟨⟨⟨t, rfl⟩, ⟨u, hu⟩⟩, hl⟩
      rw [List.length_append] at hl
      have hlen : pre.length ≤ u.length := by
        have := congrArg List.length hu
        rw [List.length_append, List.length_append] at this
        omega
      have hp : pre <+: u := List.prefix_of_prefix_length_le (l₃ := pre ++ t) ⟨t, rfl⟩ ⟨suf, hu⟩ hlen
      obtain ⟨x, rfl⟩ := hp
      exact ⟨x, hu.symm⟩
    · rintro ⟨x, rfl⟩
      refine ⟨⟨⟨x ++ suf, by rw [List.append_assoc]⟩, ⟨pre ++ x, rfl⟩⟩, ?_⟩
      rw [List.length_append, List.length_append]
      omega
  unfold outFiles
  rw [List.mem_flatMap]
  constructor
  · rintro ⟨d, hd, hf⟩
    obtain ⟨h1, h2⟩ := List.mem_filter.mp hd
    obtain ⟨h3, h4⟩ := List.mem_filter.mp hf
    obtain ⟨x, hx⟩ := (hg _ _ _).mp h2
    exact ⟨d, h1, h3, ⟨x, by rw [hx, List.append_nil]⟩, (hg _ _ _).mp h4⟩
  · rintro ⟨d, h1, h3, ⟨x, hx⟩, h4⟩
    exact ⟨d, List.mem_filter.mpr ⟨h1, (hg _ _ _).mpr ⟨x, by rw [hx, List.append_nil]⟩⟩, List.mem_filter.mpr ⟨h3, (hg _ _ _).mpr h4⟩⟩

/-- **C141, logs of submitted jobs.** The log of a job of `run_seyfert` (`seyfert_core.py` L218-232, `bsub_utils.py` L99-107) is
found, whatever the configuration and time. -/
theorem submitted_found (dirs : List RunDir) (stem version time now text : Str) (conf : Str) (d : RunDir) (hd : d ∈ dirs)
    (hn : d.name = "run_".toList ++ stem ++ "_".toList ++ version ++ "_".toList ++ time)
    (ho : ("out_".toList ++ conf ++ "_".toList ++ now ++ ".out".toList, text) ∈ d.outs) :
    ("out_".toList ++ conf ++ "_".toList ++ now ++ ".out".toList, text) ∈ outFiles dirs := by
  refine (outFiles_iff _ _).mpr ⟨d, hd, ho, ⟨stem ++ "_".toList ++ version ++ "_".toList ++ time, ?_⟩, ⟨"_".toList ++ conf ++ "_".toList ++ now, ?_⟩⟩
  · rw [hn]
    simp only [List.append_assoc]
  · simp only [List.append_assoc]
    rfl

/-- **C141, jobs without a log.** A run whose job has not written its log, as it waits or was killed, is not noticed: the report
is that without the run. In particular success is reported if there is nothing at all. -/
theorem waiting_unnoticed (before rest : List RunDir) (name : Str) :
    report (before ++ ⟨name, []⟩ :: rest) = report (before ++ rest) ∧ (report [⟨name, []⟩]).2.2 = true := by
  have e : outFiles (before ++ ⟨name, []⟩ :: rest) = outFiles (before ++ rest) := by
    unfold outFiles
    rw [List.filter_append, List.filter_cons, List.filter_append]
    split
    · rw [List.flatMap_append, List.flatMap_append, List.flatMap_cons]
      rfl
    · rfl
  constructor
  · unfold report
    rw [e]
  · have e := e
    unfold report
    have e2 : outFiles [⟨name, []⟩] = [] := by
      unfold outFiles
      rw [List.filter_cons]
      split <;> rfl
    rw [e2]
    rfl

/-- **C141, later failures.** The scheduler adds to a log which exists: a job which fails after a success in the same log counts
as a success. -/
theorem later_failure_hidden (first second : Str) (h : HasLine message first) : jobDone (first ++ '\n' :: second) = true := by
  rw [jobDone_iff]
  obtain ⟨a, b, h1, h2, h3⟩ := h
  refine ⟨a, b ++ '\n' :: second, by rw [h1, List.append_assoc _ b], h2, ?_⟩
  rcases h3 with rfl | ⟨b', rfl⟩
  · exact .inr ⟨second, rfl⟩
  · exact .inr ⟨b' ++ '\n' :: second, rfl⟩

/-! ### Versions in the integration test -/

/-- **C142, refusal.** The test stops before a change exactly if no branch is checked out, or one whose name does not begin with
a small letter. -/
theorem integ_refused_iff (r : Repo) (h : r.Valid) (v : Str) :
    integRun r v = none ↔ (∃ x, r.head = .detached x) ∨ ∃ b, r.head = .branch b ∧ b.takeWhile isLower = [] := by
  unfold integRun
  cases hh : r.head with
  | detached x =>
    rw [current_detached h hh]
    exact ⟨fun _ => .inl ⟨x, rfl⟩, fun _ => rfl⟩
  | branch b =>
    rw [current_branch h hh]
    by_cases hb : b.takeWhile isLower = []
    · rw [if_pos hb]
      exact ⟨fun _ => .inr ⟨b, rfl, hb⟩, fun _ => rfl⟩
    · rw [if_neg hb]
      refine ⟨nofun, ?_⟩
      rintro (⟨x, hx⟩ | ⟨b', hx, hb'⟩)
      · cases hx
      · cases hx
        exact absurd hb' hb

theorem run_of {r : Repo} (h : r.Valid) {b : Str} (hb : r.head = .branch b) (hp : b.takeWhile isLower ≠ []) (v : Str) :
    integRun r v = some ((checkout r v).head, checkout (checkout r v) (b.takeWhile isLower)) := by
  unfold integRun
  rw [current_branch h hb, if_neg hp]

theorem lower_self {b : Str} (hl : ∀ c ∈ b, isLower c = true) : b.takeWhile isLower = b := by
  have := (takeWhile_span (p := isLower) (a := b) (b := []) hl nofun).1
  rwa [List.append_nil] at this

/-- **C142, one run.** From a branch of small letters, a run is made with the version asked for, and the branch is checked out
again; an unknown version is passed over, and the run made with what was checked out before. -/
theorem integ_run (r : Repo) (h : r.Valid) (b : Str) (hb : r.head = .branch b) (hne : b ≠ []) (hl : ∀ c ∈ b, isLower c = true)
    (v : Str) : (Known r v → integRun r v = some (target r v, r)) ∧ (¬ Known r v → integRun r v = some (r.head, r)) := by
  have hm := h.current b hb
  have hs := lower_self hl
  rw [run_of h hb (by rw [hs]; exact hne) v, hs]
  have back : ∀ x : Head, checkout { r with head := x } b = r := by
    intro x
    unfold checkout
    rw [if_pos hm, ← hb]
  constructor
  · intro hk
    rw [checkout_known hk, back]
  · intro hk
    rw [checkout_unknown hk]
    have := back r.head
    rw [this]

/-- **C142, both runs.** From a branch of small letters, the two runs are made with the versions asked for, in this order, and at
the end the repository is as before. -/
theorem integ_ok_partial (r : Repo) (h : r.Valid) (b : Str) (hb : r.head = .branch b) (hne : b ≠ []) (hl : ∀ c ∈ b, isLower c = true)
    (v1 v2 : Str) (h1 : Known r v1) (h2 : Known r v2) : integTest r v1 v2 = ([target r v1, target r v2], r, true) := by
  unfold integTest
  rw [(integ_run r h b hb hne hl v1).1 h1]
  dsimp only
  rw [(integ_run r h b hb hne hl v2).1 h2]

/-- **C142, unknown versions.** Two unknown versions are not reported: both runs are made with the branch checked out, and
compared with each other. -/
theorem unknown_versions (r : Repo) (h : r.Valid) (b : Str) (hb : r.head = .branch b) (hne : b ≠ []) (hl : ∀ c ∈ b, isLower c = true)
    (v1 v2 : Str) (h1 : ¬ Known r v1) (h2 : ¬ Known r v2) : integTest r v1 v2 = ([.branch b, .branch b], r, true) := by
  unfold integTest
  rw [(integ_run r h b hb hne hl v1).2 h1]
  dsimp only
  rw [(integ_run r h b hb hne hl v2).2 h2, hb]

/-- **C142, other branches.** If the name of the branch goes on after its first small letters, and these are no version, the
repository is left with the version tested. -/
theorem branch_lost (r : Repo) (h : r.Valid) (b : Str) (hb : r.head = .branch b) (hp : b.takeWhile isLower ≠ [])
    (hk : ¬ Known r (b.takeWhile isLower)) (v : Str) (hv : Known r v) :
    integRun r v = some (target r v, { r with head := target r v }) := by
  rw [run_of h hb hp, checkout_known hv, checkout_unknown (r := { r with head := target r v }) hk]

/-- **C142, branches with a common beginning.** If the first small letters are another branch, that is checked out at the end. -/
theorem branch_changed (r : Repo) (h : r.Valid) (b : Str) (hb : r.head = .branch b) (hp : b.takeWhile isLower ≠ [])
    (hk : b.takeWhile isLower ∈ r.branches) (v : Str) (hv : Known r v) :
    integRun r v = some (target r v, { r with head := .branch (b.takeWhile isLower) }) := by
  rw [run_of h hb hp, checkout_known hv]
  unfold checkout
  rw [if_pos hk]

/-- **C142, the second run.** From such a branch and with a tag as first version, the second run is never made, and the tag stays
checked out. -/
theorem second_fails (r : Repo) (h : r.Valid) (b : Str) (hb : r.head = .branch b) (hp : b.takeWhile isLower ≠ [])
    (hk : ¬ Known r (b.takeWhile isLower)) (v1 v2 : Str) (hs : '*' ∉ v1) (ht : v1 ∈ r.tags) (hn : v1 ∉ r.branches) :
    integTest r v1 v2 = ([.detached v1], { r with head := .detached v1 }, false) := by
  have ht1 : target r v1 = .detached v1 := if_neg hn
  have hv' : ({ r with head := .detached v1 } : Repo).Valid := ⟨h.names, h.once, nofun, fun v e => by cases e; exact hs⟩
  unfold integTest
  rw [branch_lost r h b hb hp hk v1 (.inr ht), ht1]
  dsimp only
  rw [(integ_refused_iff { r with head := .detached v1 } hv' v2).mpr (.inl ⟨v1, rfl⟩)]

/-! ### Examples -/

def exProc : Proc := ⟨"luca".toList, "4711".toList, "  ".toList, "1  0 06:34 pts/0    00:00:12".toList, "python3 /usr/bin/job_submitter -ex batch".toList⟩
def exLong : Proc := { exProc with user := "lucapaganin".toList, pid := "4712".toList }
def exEdit : Proc := { exProc with pid := "4713".toList, cmd := "vim /home/luca/job_submitter_notes.txt".toList }
def exSelf : Proc := { exProc with pid := "4714".toList, cmd := "python3 /usr/bin/kill_job_submitter".toList }
def exHeader : Str := "UID          PID    PPID  C STIME TTY          TIME CMD".toList
example : kills (psOutput exHeader [exProc, exLong, exEdit, exSelf]) = ["4711".toList, "4713".toList] := by decide +kernel
theorem exValid : exProc.Valid := ⟨by decide, by decide, by decide, by decide, by decide, by decide, by decide, by decide⟩
example : exLong.Valid := ⟨by decide, by decide, by decide, by decide, by decide, by decide, by decide, by decide⟩
example : Short exProc.user ∧ ¬ Short exLong.user ∧ Named exLong.cmd := by decide
example : saysNone (psOutput exHeader [exLong, exSelf]) = true := by decide +kernel

def exLog : Str := "Sender: LSF\n\nSuccessfully completed.\n\nResource usage".toList
def exFail : Str := "Sender: LSF\n\nExited with exit code 1.\n".toList
example : HasLine message exLog := (jobDone_iff _).mp (by decide +kernel)
example : ¬ HasLine message exFail := fun h => by
  have h := (jobDone_iff _).mpr h
  revert h
  decide +kernel
example : report [⟨"run_a_1.2.0".toList, [("out_a_1.out".toList, exLog)]⟩, ⟨"run_b_1.2.0".toList, [("out_b_1.out".toList, exFail)]⟩,
    ⟨"run_c_1.2.0".toList, []⟩] = (2, ["out_b_1.out".toList], false) := by decide +kernel

def exRepo (b : Str) : Repo := ⟨["develop".toList, b, "master".toList], ["v1".toList], .branch b⟩
theorem exRepo_valid : (exRepo "feature-x".toList).Valid :=
  ⟨by decide, by decide, fun b e => by cases e; exact .tail _ (.head _), nofun⟩
example : ¬ Known (exRepo "feature-x".toList) ("feature-x".toList.takeWhile isLower) := by
  rintro (h | h) <;> revert h <;> decide
example : "feature-x".toList.takeWhile isLower ≠ [] := by decide
example : ("master-two".toList.takeWhile isLower) ∈ (exRepo "master-two".toList).branches := by decide
example : Known (exRepo "test".toList) "v1".toList ∧ ¬ Known (exRepo "test".toList) "v7".toList :=
  ⟨.inr (by decide), by rintro (h | h) <;> revert h <;> decide⟩

/-- The processes above are possible lines of `ps`. -/
theorem exValid_all : ∀ p ∈ [exProc, exLong, exEdit, exSelf], p.Valid := by
  intro p hp
  simp only [List.mem_cons, List.not_mem_nil, or_false] at hp
  rcases hp with rfl | rfl | rfl | rfl <;>
    exact ⟨by decide, by decide, by decide, by decide, by decide, by decide, by decide, by decide⟩

example : exProc.pid ∈ kills (psOutput exHeader [exProc, exLong, exEdit, exSelf]) :=
  runs_stopped_partial _ (by decide) _ exValid_all exProc (.head _) (by decide) (by decide)
example : exSelf.pid ∉ kills (psOutput exHeader [exProc, exLong, exEdit, exSelf]) :=
  others_spared _ (by decide) _ exValid_all exSelf (by decide)
example : kills (psOutput exHeader [exLong, exSelf]) = [] ∧ saysNone (psOutput exHeader [exLong, exSelf]) = true :=
  long_names_spared _ (by decide) _ (fun p hp => exValid_all p (by
    simp only [List.mem_cons, List.not_mem_nil, or_false] at hp
    rcases hp with rfl | rfl
    · exact .tail _ (.head _)
    · exact .tail _ (.tail _ (.tail _ (.head _))))) (by decide)
example : exEdit.pid ∈ kills (psOutput exHeader [exProc, exLong, exEdit, exSelf]) :=
  editor_stopped _ (by decide) _ exValid_all exEdit (.tail _ (.tail _ (.head _))) (by decide) "/home/luca".toList
    "_notes.txt".toList (by decide)
example : ¬ Named "python3 /usr/bin/run_seyfert -i".toList :=
  interactive_spared "/usr/bin".toList "-i".toList (by decide) (by decide)
example : jobDone (exLog ++ '\n' :: exFail) = true := later_failure_hidden _ _ ((jobDone_iff _).mp (by decide +kernel))
theorem exTest_valid : (exRepo "test".toList).Valid :=
  ⟨by decide, by decide, fun b e => by cases e; exact .tail _ (.head _), nofun⟩
example : integTest (exRepo "test".toList) "v1".toList "develop".toList =
    ([.detached "v1".toList, .branch "develop".toList], exRepo "test".toList, true) :=
  integ_ok_partial _ exTest_valid "test".toList rfl (by decide) (by decide) _ _ (.inr (by decide)) (.inl (by decide))
example : integTest (exRepo "test".toList) "v7".toList "v8".toList =
    ([.branch "test".toList, .branch "test".toList], exRepo "test".toList, true) :=
  unknown_versions _ exTest_valid "test".toList rfl (by decide) (by decide) _ _
    (by rintro (h | h) <;> revert h <;> decide) (by rintro (h | h) <;> revert h <;> decide)
example : integTest (exRepo "feature-x".toList) "v1".toList "develop".toList =
    ([.detached "v1".toList], { exRepo "feature-x".toList with head := .detached "v1".toList }, false) :=
  second_fails _ exRepo_valid "feature-x".toList rfl (by decide) (by rintro (h | h) <;> revert h <;> decide) _ _
    (by decide) (by decide) (by decide)

end Seyfert.Tools
