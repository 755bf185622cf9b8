import Verif.Model.JobRuns
import Verif.Lemmas.RunSeyfert
import Verif.Lemmas.PyDict

/-!
Lemmas on the jobs of a run: what the shell makes of a script, and jobs which do not touch each other's files.
-/

namespace Seyfert.Job

open Orch (Pth pname)
open OrchIn (toPath)
open RunS (Val pathText shell resolve safeChar isValue group)

/-! ### Words of a script -/

/-- A component of a path which the shell leaves alone. -/
def PlainPart (c : Str) : Prop := c ≠ [] ∧ c ≠ ['.'] ∧ '/' ∉ c ∧ ∀ x ∈ c, safeChar x = true

/-- An absolute path of such components. -/
def AbsPlain (p : Pth) : Prop := ∃ r, r ≠ [] ∧ p = [] :: r ∧ ∀ c ∈ r, PlainPart c

/-- The name of a file which the shell leaves alone, and which does not look like an option. -/
def PlainName (c : Str) : Prop := PlainPart c ∧ isValue c = true

theorem AbsPlain.norm {p : Pth} (h : AbsPlain p) : RunS.Norm p := by
  obtain ⟨r, _, e, h⟩ := h
  exact ⟨r, Or.inr e, fun c hc => ⟨(h c hc).1, (h c hc).2.1, (h c hc).2.2.1⟩⟩

theorem AbsPlain.append {p l : Pth} (h : AbsPlain p) (hl : ∀ c ∈ l, PlainPart c) : AbsPlain (p ++ l) := by
  obtain ⟨r, h0, e, h⟩ := h
  refine ⟨r ++ l, by simp [h0], by rw [e]; rfl, fun c hc => ?_⟩
  rcases List.mem_append.mp hc with hc | hc
  · exact h c hc
  · exact hl c hc

theorem AbsPlain.text {p : Pth} (h : AbsPlain p) : RunS.Plain (pathText p) := by
  obtain ⟨r, h0, e, h⟩ := h
  have sl : "/".toList = ['/'] := by decide
  cases r with
  | nil => exact absurd rfl h0
  | cons a r =>
    have ht : pathText p = '/' :: joinStr ['/'] (a :: r) := by
      unfold pathText
      rw [e, if_neg (by simp), if_neg (by simp), sl, joinStr_cons_cons]
      rfl
    rw [ht]
    refine ⟨by simp, ?_, ?_⟩
    · unfold isValue
      split
      · next heq => exact absurd (List.cons.inj heq).1 (by decide)
      · rfl
    · intro x hx
      rcases List.mem_cons.mp hx with rfl | hx
      · decide
      · rcases mem_joinStr _ _ _ hx with hx | ⟨c, hc, hx⟩
        · rw [List.mem_singleton.mp hx]; decide
        · exact (h c hc).2.2.2 x hx

theorem AbsPlain.resolve {p : Pth} (h : AbsPlain p) (cwd : Pth) : resolve cwd p = p := by
  obtain ⟨r, _, e, _⟩ := h
  rw [e]; rfl

theorem AbsPlain.back {p : Pth} (h : AbsPlain p) : toPath (pathText p) = p := RunS.toPath_pathText p h.norm

theorem PlainName.plain {c : Str} (h : PlainName c) : RunS.Plain c := ⟨h.1.1, h.2, h.1.2.2.2⟩

theorem PlainName.path {c : Str} (h : PlainName c) : toPath c = [c] := by
  have hn : RunS.Norm [c] := ⟨[c], Or.inl rfl, by
    intro x hx; rw [List.mem_singleton.mp hx]; exact ⟨h.1.1, h.1.2.1, h.1.2.2.1⟩⟩
  have := RunS.toPath_pathText [c] hn
  have ht : pathText [c] = c := by
    unfold pathText
    rw [if_neg (by simp), if_neg (by simpa using h.1.1)]
    rfl
  rwa [ht] at this

theorem shell_safe {s : Str} (h : ∀ c ∈ s, c = ' ' ∨ safeChar c = true) : shell s = some (Orch.words s) := by
  unfold shell
  rw [if_pos]
  · rw [RunS.wordsEq]
  · rw [List.all_eq_true]
    intro c hc
    rcases h c hc with rfl | h
    · rfl
    · rw [h, Bool.or_true]

theorem shell_some {s : Str} {ws : List Str} (h : shell s = some ws) : ws = Orch.words s := by
  unfold shell at h
  split at h
  · rw [RunS.wordsEq] at h; exact (Option.some.inj h).symm
  · cases h

theorem words_params (l : List (Str × Str)) (a : Str)
    (hl : ∀ q ∈ l, (∀ c ∈ q.1, safeChar c = true) ∧ RunS.Plain q.2) :
    Orch.words (a ++ l.flatMap fun q => " --".toList ++ q.1 ++ " ".toList ++ q.2) =
      Orch.words a ++ l.flatMap fun q => ["--".toList ++ q.1, q.2] := by
  have s1 : " --".toList = ' ' :: "--".toList := by decide
  have s2 : " ".toList = [' '] := by decide
  have hd : "--".toList = ['-', '-'] := by decide
  induction l generalizing a with
  | nil => simp
  | cons q l ih =>
    obtain ⟨hk, hv⟩ := hl q (by simp)
    have e : (a ++ (q :: l).flatMap fun q => " --".toList ++ q.1 ++ " ".toList ++ q.2) =
        a ++ ' ' :: (("--".toList ++ q.1) ++ ' ' :: (q.2 ++ l.flatMap fun q => " --".toList ++ q.1 ++ " ".toList ++ q.2)) := by
      rw [List.flatMap_cons, s1, s2]
      simp only [List.cons_append, List.append_assoc, List.nil_append]
    rw [e, Orch.words_app, Orch.words_app, ih q.2 (fun r hr => hl r (List.mem_cons_of_mem _ hr)),
      Orch.words_one q.2 hv.no_space hv.1, Orch.words_one ("--".toList ++ q.1), List.flatMap_cons]
    · simp only [List.cons_append, List.nil_append]
    · rw [hd]
      intro hc
      simp only [List.mem_append, List.mem_cons, List.not_mem_nil, or_false] at hc
      rcases hc with h | h
      · revert h; decide
      · exact RunS.safe_not_space (hk _ h) rfl
    · rw [hd]; simp

theorem prog_safe (p : Prog) : ∀ c ∈ p.name, safeChar c = true := by cases p <;> decide +kernel

theorem log_plain (p : Prog) : RunS.Plain p.log := by
  refine ⟨?_, ?_, ?_⟩
  · cases p <;> decide +kernel
  · cases p <;> decide +kernel
  · cases p <;> decide +kernel

theorem params_plain {p : Prog} {jobdir run : Pth} {cfg : Str} (hj : RunS.Plain (pathText jobdir))
    (hr : RunS.Plain (pathText run)) (hc : RunS.Plain cfg) :
    ∀ q ∈ scriptParams p jobdir cfg run, (∀ c ∈ q.1, safeChar c = true) ∧ RunS.Plain q.2 := by
  have k1 : ∀ c ∈ "workdir".toList, safeChar c = true := by decide +kernel
  have k2 : ∀ c ∈ "logfile".toList, safeChar c = true := by decide +kernel
  have k3 : ∀ c ∈ "main_config".toList, safeChar c = true := by decide +kernel
  have k4 : ∀ c ∈ "rundir".toList, safeChar c = true := by decide +kernel
  intro q hq
  unfold scriptParams at hq
  rcases List.mem_cons.mp hq with rfl | hq
  · exact ⟨k1, hj⟩
  rcases List.mem_cons.mp hq with rfl | hq
  · exact ⟨k2, log_plain p⟩
  rcases List.mem_cons.mp hq with rfl | hq
  · exact ⟨k3, hc⟩
  · rw [List.mem_singleton.mp hq]; exact ⟨k4, hr⟩

/-- The words of the command in a script. -/
def argWords (p : Prog) (jobdir : Pth) (cfg : Str) (run : Pth) : List (Str × List Str) :=
  [("--workdir".toList, [pathText jobdir]), ("--logfile".toList, [p.log]), ("--main_config".toList, [cfg]),
   ("--rundir".toList, [pathText run])]

theorem shell_line {p : Prog} {jobdir run : Pth} {cfg : Str} (hj : RunS.Plain (pathText jobdir))
    (hr : RunS.Plain (pathText run)) (hc : RunS.Plain cfg) :
    shell (command p jobdir cfg run) =
      some (p.name :: (argWords p jobdir cfg run).flatMap fun g => g.1 :: g.2) := by
  have hp := params_plain (p := p) hj hr hc
  have s1 : " --".toList = [' ', '-', '-'] := by decide
  have s2 : " ".toList = [' '] := by decide
  rw [shell_safe]
  · unfold command
    rw [words_params _ _ hp, Orch.words_one p.name (fun h => RunS.safe_not_space (prog_safe p _ h) rfl)
      (by cases p <;> decide +kernel)]
    have e1 : "--".toList ++ "workdir".toList = "--workdir".toList := by decide +kernel
    have e2 : "--".toList ++ "logfile".toList = "--logfile".toList := by decide +kernel
    have e3 : "--".toList ++ "main_config".toList = "--main_config".toList := by decide +kernel
    have e4 : "--".toList ++ "rundir".toList = "--rundir".toList := by decide +kernel
    unfold scriptParams argWords
    simp only [List.flatMap_cons, List.flatMap_nil, e1, e2, e3, e4]
    rfl
  · intro c h
    unfold command at h
    rcases List.mem_append.mp h with h | h
    · exact Or.inr (prog_safe p c h)
    · obtain ⟨q, hq, h⟩ := List.mem_flatMap.mp h
      obtain ⟨hk, hv⟩ := hp q hq
      rw [s1, s2] at h
      simp only [List.mem_append, List.mem_cons, List.not_mem_nil, or_false] at h
      rcases h with ((h | h) | h) | h
      · rcases h with rfl | rfl | rfl
        · exact Or.inl rfl
        · exact Or.inr (by decide)
        · exact Or.inr (by decide)
      · exact Or.inr (hk c h)
      · exact Or.inl h
      · exact Or.inr (hv.2.2 c h)

theorem progOf_name (p : Prog) : progOf p.name = some p := by cases p <;> decide +kernel

theorem name_not_cd (p : Prog) : p.name ≠ "cd".toList := by cases p <;> decide +kernel

theorem name_head (p : Prog) (s : Str) : (p.name ++ s).head? ≠ some '#' := by
  have h : ∃ c r, p.name = c :: r ∧ c ≠ '#' := by
    cases p
    · exact ⟨'c', "ompute_pmm".toList, by decide +kernel, by decide⟩
    · exact ⟨'c', "ompute_cls".toList, by decide +kernel, by decide⟩
    · exact ⟨'c', "ompute_derivatives".toList, by decide +kernel, by decide⟩
  obtain ⟨c, r, e, hc⟩ := h
  rw [e, List.cons_append, List.head?_cons]
  intro h
  exact hc (Option.some.inj h)

/-- The call of a program by the script of a job. -/
theorem bash_script (venv : Option Pth) (home : Pth) {p : Prog} {jobdir run : Pth} {cfg : Str} (hj : AbsPlain jobdir)
    (hr : AbsPlain run) (hc : PlainName cfg) :
    bash home (script venv p jobdir cfg run) =
      some ⟨p, jobdir, (argWords p jobdir cfg run).flatMap fun g => g.1 :: g.2⟩ := by
  have s0 : "#!/bin/bash".toList = '#' :: "!/bin/bash".toList := by decide +kernel
  have last : ∀ cwd, bash cwd [command p jobdir cfg run] =
      some ⟨p, cwd, (argWords p jobdir cfg run).flatMap fun g => g.1 :: g.2⟩ := by
    intro cwd
    rw [bash, if_neg (by unfold command; exact name_head p _), shell_line hj.text hr.text hc.plain]
    simp only
    rw [if_neg (name_not_cd p), progOf_name]
  have src : ∀ cwd t ls, bash cwd (("source ".toList ++ t) :: ls) = bash cwd ls := by
    intro cwd t ls
    have e : "source ".toList ++ t = "source".toList ++ ' ' :: t := by
      have : "source ".toList = "source".toList ++ [' '] := by decide +kernel
      rw [this]; simp
    have hh : ("source ".toList ++ t).head? ≠ some '#' := by
      have : "source ".toList = 's' :: "ource ".toList := by decide +kernel
      rw [this, List.cons_append, List.head?_cons]
      intro h; exact absurd (Option.some.inj h) (by decide)
    rw [bash, if_neg hh]
    cases hs : shell ("source ".toList ++ t) with
    | none => rfl
    | some ws =>
      have hw := shell_some hs
      have w0 : Orch.words "source".toList = ["source".toList] := by decide +kernel
      rw [e, Orch.words_app, w0, List.cons_append] at hw
      rw [hw]
      simp only
      have n1 : "source".toList ≠ "cd".toList := by decide
      have n2 : progOf "source".toList = none := by decide +kernel
      rw [if_neg n1, n2]
  have cd : ∀ ls, bash home (("cd ".toList ++ pathText jobdir) :: ls) = bash jobdir ls := by
    intro ls
    have e : "cd ".toList ++ pathText jobdir = "cd".toList ++ ' ' :: pathText jobdir := by
      have : "cd ".toList = "cd".toList ++ [' '] := by decide +kernel
      rw [this]; simp
    have hh : ("cd ".toList ++ pathText jobdir).head? ≠ some '#' := by
      have : "cd ".toList = 'c' :: "d ".toList := by decide +kernel
      rw [this, List.cons_append, List.head?_cons]
      intro h; exact absurd (Option.some.inj h) (by decide)
    have hsafe : ∀ c ∈ "cd ".toList ++ pathText jobdir, c = ' ' ∨ safeChar c = true := by
      intro c hc
      rcases List.mem_append.mp hc with h | h
      · have : ∀ c ∈ "cd ".toList, c = ' ' ∨ safeChar c = true := by decide +kernel
        exact this c h
      · exact Or.inr (hj.text.2.2 c h)
    rw [bash, if_neg hh, shell_safe hsafe, e, Orch.words_app, Orch.words_one "cd".toList (by decide) (by decide),
      Orch.words_one _ hj.text.no_space hj.text.1]
    simp only [List.cons_append, List.nil_append]
    rw [if_pos trivial, hj.back, hj.resolve]
  have blank : ∀ ls, bash home ([] :: ls) = bash home ls := by
    intro ls
    rw [bash, if_neg (by simp)]
    have : shell [] = some [] := by decide
    rw [this]
  have hash : ∀ ls, bash home ("#!/bin/bash".toList :: ls) = bash home ls := by
    intro ls
    rw [s0, bash, if_pos (by simp)]
  unfold script
  simp only [List.cons_append, List.nil_append]
  rw [hash, blank, cd]
  cases venv with
  | none => simp only [List.nil_append]; exact last jobdir
  | some v => simp only [List.cons_append, List.nil_append]; rw [src]; exact last jobdir

/-! ### Arguments of the programs -/

theorem find_names (p : Prog) :
    (∃ r, Cli.find p.opts "--workdir".toList = some ⟨["--workdir".toList, "-wd".toList], "workdir".toList, .text, .none, r⟩) ∧
    (∃ r, Cli.find p.opts "--logfile".toList = some ⟨["--logfile".toList, "-lg".toList], "logfile".toList, .text, .none, r⟩) ∧
    (∃ r, Cli.find p.opts "--main_config".toList =
      some ⟨["--main_config".toList, "-mcfg".toList], "main_config".toList, .text, .none, r⟩) ∧
    (∃ r, Cli.find p.opts "--rundir".toList = some ⟨["--rundir".toList, "-rd".toList], "rundir".toList, .text, .none, r⟩) := by
  refine ⟨⟨false, ?_⟩, ⟨false, ?_⟩, ⟨true, ?_⟩, ⟨false, ?_⟩⟩ <;> cases p <;> decide +kernel

theorem required_given (p : Prog) : (p.opts.all fun x => !x.required ||
    (["--workdir".toList, "--logfile".toList, "--main_config".toList, "--rundir".toList] : List Str).any
      fun k => decide (k ∈ x.names)) = true := by
  cases p <;> decide +kernel

theorem parse_words {p : Prog} {jobdir run : Pth} {cfg : Str} (hj : RunS.Plain (pathText jobdir))
    (hr : RunS.Plain (pathText run)) (hc : RunS.Plain cfg) :
    ∃ d, Cli.parse p.opts ((argWords p jobdir cfg run).flatMap fun g => g.1 :: g.2) = some d ∧
      d.lookup "workdir".toList = some (.text (pathText jobdir)) ∧
      d.lookup "rundir".toList = some (.text (pathText run)) ∧
      d.lookup "main_config".toList = some (.text cfg) := by
  have v1 : isValue "--workdir".toList = false := by decide +kernel
  have v2 : isValue "--logfile".toList = false := by decide +kernel
  have v3 : isValue "--main_config".toList = false := by decide +kernel
  have v4 : isValue "--rundir".toList = false := by decide +kernel
  have hg : group ((argWords p jobdir cfg run).flatMap fun g => g.1 :: g.2) = ([], argWords p jobdir cfg run) := by
    apply RunS.group_words
    intro g h
    unfold argWords at h
    rcases List.mem_cons.mp h with rfl | h
    · exact ⟨v1, fun t ht => by rw [List.mem_singleton.mp ht]; exact hj.2.1⟩
    rcases List.mem_cons.mp h with rfl | h
    · exact ⟨v2, fun t ht => by rw [List.mem_singleton.mp ht]; exact (log_plain p).2.1⟩
    rcases List.mem_cons.mp h with rfl | h
    · exact ⟨v3, fun t ht => by rw [List.mem_singleton.mp ht]; exact hc.2.1⟩
    · rw [List.mem_singleton.mp h]
      exact ⟨v4, fun t ht => by rw [List.mem_singleton.mp ht]; exact hr.2.1⟩
  obtain ⟨⟨r1, f1⟩, ⟨r2, f2⟩, ⟨r3, f3⟩, ⟨r4, f4⟩⟩ := find_names p
  generalize hd0 : (p.opts.map fun x => (x.dest, x.default)) = d0
  have ha : Cli.assign p.opts d0 (argWords p jobdir cfg run) =
      some (PyDict.set (PyDict.set (PyDict.set (PyDict.set d0 "workdir".toList (.text (pathText jobdir)))
        "logfile".toList (.text p.log)) "main_config".toList (.text cfg)) "rundir".toList (.text (pathText run))) := by
    unfold argWords
    simp only [Cli.assign, f1, f2, f3, f4, Cli.convert]
  refine ⟨PyDict.set (PyDict.set (PyDict.set (PyDict.set d0 "workdir".toList (.text (pathText jobdir)))
        "logfile".toList (.text p.log)) "main_config".toList (.text cfg)) "rundir".toList (.text (pathText run)),
      ?_, ?_, ?_, ?_⟩
  · unfold Cli.parse
    simp only [hg, hd0, ha]
    rw [if_neg (by simp), if_pos]
    exact required_given p
  · have n1 : "workdir".toList ≠ "rundir".toList := by decide
    have n2 : "workdir".toList ≠ "main_config".toList := by decide
    have n3 : "workdir".toList ≠ "logfile".toList := by decide
    rw [PyDict.lookup_set, if_neg n1, PyDict.lookup_set, if_neg n2, PyDict.lookup_set, if_neg n3, PyDict.lookup_set,
      if_pos rfl]
  · rw [PyDict.lookup_set, if_pos rfl]
  · have n1 : "main_config".toList ≠ "rundir".toList := by decide
    rw [PyDict.lookup_set, if_neg n1, PyDict.lookup_set, if_pos rfl]

/-- The arguments of a job: its directory, the run directory and the configuration in its directory. -/
theorem args_script {p : Prog} {jobdir run : Pth} {cfg : Str} (hj : AbsPlain jobdir) (hr : AbsPlain run)
    (hc : PlainName cfg) :
    argsOf ⟨p, jobdir, (argWords p jobdir cfg run).flatMap fun g => g.1 :: g.2⟩ =
      some ⟨jobdir, pname jobdir, run, jobdir ++ [cfg]⟩ := by
  obtain ⟨d, h, h1, h2, h3⟩ := parse_words (p := p) hj.text hr.text hc.plain
  unfold argsOf
  simp only [h, h1, h2, h3, hj.back, hr.back, hj.resolve, hr.resolve, hc.path]
  have : resolve jobdir [cfg] = jobdir ++ [cfg] := by
    unfold resolve
    split
    · next heq => exact absurd (List.cons.inj heq).1 hc.1.1
    · rfl
  rw [this]

/-! ### Jobs with files of their own -/

section Indep

variable {I L P F : Type} [DecidableEq I]

/-- One process alone, for some steps. -/
def alone (step : L → (P → Option F) → L × (P → Option F)) : Nat → L → (P → Option F) → L × (P → Option F)
  | 0, l, d => (l, d)
  | n + 1, l, d => alone step n (step l d).1 (step l d).2

/-- Several processes in the order of a schedule. -/
def together (step : I → L → (P → Option F) → L × (P → Option F)) :
    List I → (I → L) → (P → Option F) → (I → L) × (P → Option F)
  | [], l, d => (l, d)
  | i :: s, l, d =>
    together step s (fun j => if j = i then (step i (l i) d).1 else l j) (step i (l i) d).2

/-- Processes `valid` that read the files in `shared`, which nobody writes, and files of their own, and write only the
latter. -/
structure Indep (step : I → L → (P → Option F) → L × (P → Option F)) (valid : I → Prop) (shared : P → Prop)
    (own : I → P → Prop) (good : I → L → Prop) (d0 : P → Option F) : Prop where
  disj : ∀ i j p, valid i → valid j → i ≠ j → own i p → ¬ own j p
  apart : ∀ i p, valid i → own i p → ¬ shared p
  keep : ∀ i l d, valid i → good i l → (∀ p, shared p → d p = d0 p) → good i (step i l d).1
  frame : ∀ i l d p, valid i → good i l → (∀ p, shared p → d p = d0 p) → ¬ own i p → (step i l d).2 p = d p
  local_ : ∀ i l d d', valid i → good i l → (∀ p, shared p → d p = d0 p) → (∀ p, shared p → d' p = d0 p) →
    (∀ p, own i p → d p = d' p) →
    (step i l d).1 = (step i l d').1 ∧ ∀ p, own i p → (step i l d).2 p = (step i l d').2 p

variable {step : I → L → (P → Option F) → L × (P → Option F)} {valid : I → Prop} {shared : P → Prop}
  {own : I → P → Prop} {good : I → L → Prop} {d0 : P → Option F}

theorem Indep.sharedKept (h : Indep step valid shared own good d0) {i : I} {l : L} {d : P → Option F} (hv : valid i)
    (hg : good i l) (hd : ∀ p, shared p → d p = d0 p) : ∀ p, shared p → (step i l d).2 p = d0 p := by
  intro p hp
  rw [h.frame i l d p hv hg hd (fun ho => h.apart i p hv ho hp)]
  exact hd p hp

theorem Indep.aloneCongr (h : Indep step valid shared own good d0) {i : I} (hv : valid i) (n : Nat) :
    ∀ (l : L) (d d' : P → Option F), good i l → (∀ p, shared p → d p = d0 p) → (∀ p, shared p → d' p = d0 p) →
      (∀ p, own i p → d p = d' p) →
      (alone (step i) n l d).1 = (alone (step i) n l d').1 ∧
        ∀ p, own i p → (alone (step i) n l d).2 p = (alone (step i) n l d').2 p := by
  induction n with
  | zero => intro l d d' _ _ _ ho; exact ⟨rfl, ho⟩
  | succ n ih =>
    intro l d d' hg hd hd' ho
    obtain ⟨h1, h2⟩ := h.local_ i l d d' hv hg hd hd' ho
    unfold alone
    rw [h1]
    exact ih _ _ _ (h1 ▸ h.keep i l d hv hg hd) (h.sharedKept hv hg hd) (h.sharedKept hv hg hd') h2

/-- However the steps of independent processes are mixed, each of them is where it would be alone after as many steps,
and so are its files; other files are as before. -/
theorem Indep.mixed (h : Indep step valid shared own good d0) (s : List I) :
    ∀ (l : I → L) (d : P → Option F), (∀ i ∈ s, valid i) → (∀ i, valid i → good i (l i)) →
      (∀ p, shared p → d p = d0 p) →
      (∀ i, valid i → (together step s l d).1 i = (alone (step i) (s.count i) (l i) d).1 ∧
        ∀ p, own i p → (together step s l d).2 p = (alone (step i) (s.count i) (l i) d).2 p) ∧
      ∀ p, (∀ i ∈ s, ¬ own i p) → (together step s l d).2 p = d p := by
  induction s with
  | nil => intro l d _ _ _; exact ⟨fun i _ => ⟨rfl, fun p _ => rfl⟩, fun p _ => rfl⟩
  | cons j s ih =>
    intro l d hs hg hd
    have hvj := hs j (by simp)
    obtain ⟨i1, i2⟩ := ih (fun k => if k = j then (step j (l j) d).1 else l k) (step j (l j) d).2
      (fun i hi => hs i (List.mem_cons_of_mem _ hi))
      (fun i hi => by
        by_cases e : i = j
        · subst e; simp only [if_true]; exact h.keep i _ _ hvj (hg i hvj) hd
        · simp only [e, if_false]; exact hg i hi)
      (h.sharedKept hvj (hg j hvj) hd)
    refine ⟨fun i hi => ?_, fun p hp => ?_⟩
    · obtain ⟨a1, a2⟩ := i1 i hi
      by_cases e : i = j
      · subst e
        rw [if_pos rfl] at a1 a2
        rw [List.count_cons_self]
        unfold together alone
        exact ⟨a1, a2⟩
      · rw [if_neg e] at a1 a2
        rw [List.count_cons_of_ne (Ne.symm e)]
        unfold together
        have hfr : ∀ p, own i p → (step j (l j) d).2 p = d p := fun p hp =>
          h.frame j (l j) d p hvj (hg j hvj) hd (fun ho => h.disj i j p hi hvj e hp ho)
        obtain ⟨c1, c2⟩ := h.aloneCongr hi (s.count i) (l i) (step j (l j) d).2 d (hg i hi)
          (h.sharedKept hvj (hg j hvj) hd) hd hfr
        exact ⟨a1.trans c1, fun p hp => (a2 p hp).trans (c2 p hp)⟩
    · unfold together
      rw [i2 p (fun i hi => hp i (List.mem_cons_of_mem _ hi))]
      exact h.frame j (l j) d p hvj (hg j hvj) hd (hp j (by simp))

end Indep

end Seyfert.Job
