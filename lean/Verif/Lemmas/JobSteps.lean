import Verif.Lemmas.JobRuns
import Verif.Spec.JobRuns
import Verif.Lemmas.Names

/-!
The programs of a task read files of earlier tasks and of their own directories, and write only in the latter.
-/

namespace Seyfert.Job

open Orch (Pth pname)
open RunS (resolve)
open Param (Coll Par central)
open ClDer (Cosmo Cls Store)

variable {K S C : Type} [Field K] [LinearOrder K]

/-- The arguments of the job in a directory. -/
def argsFor (p : Prog) (run : Pth) (cfgName : Str) (n : Str) : Args :=
  ⟨jobPath p run n, n, run, jobPath p run n ++ [cfgName]⟩

/-- A step of a job. -/
def stepOf (w : World K S C) (job : Str → Option (Prog × Args)) (n : Str) (l : Phase K S C) (d : Disk K S C) :
    Phase K S C × Disk K S C :=
  match job n with
  | none => (.failed, d)
  | some (p, a) => next w p a l d

theorem exec_together (w : World K S C) (job : Str → Option (Prog × Args)) (s : List Str) :
    ∀ st : State K S C, (exec w job st s).at_ = (together (stepOf w job) s st.at_ st.disk).1 ∧
      (exec w job st s).disk = (together (stepOf w job) s st.at_ st.disk).2 := by
  induction s with
  | nil => intro st; exact ⟨rfl, rfl⟩
  | cons n s ih =>
    intro st
    obtain ⟨h1, h2⟩ := ih (turn w job st n)
    have e : (turn w job st n).at_ = (fun j => if j = n then (stepOf w job n (st.at_ n) st.disk).1 else st.at_ j) ∧
        (turn w job st n).disk = (stepOf w job n (st.at_ n) st.disk).2 := by
      unfold turn stepOf
      cases job n with
      | none => exact ⟨rfl, rfl⟩
      | some pa => obtain ⟨p, a⟩ := pa; exact ⟨rfl, rfl⟩
    have u : exec w job st (n :: s) = exec w job (turn w job st n) s := rfl
    rw [u, h1, h2, e.1, e.2]
    exact ⟨rfl, rfl⟩

/-! ### Paths -/

/-- The files of a job. -/
def Own (p : Prog) (run : Pth) (n : Str) (q : Pth) : Prop := jobPath p run n <+: q

/-- The files outside of the directory of the task. -/
def Shared (p : Prog) (run : Pth) (q : Pth) : Prop := ¬ (run ++ [p.dir]) <+: q

theorem own_append (p : Prog) (run : Pth) (n : Str) (l : Pth) : Own p run n (jobPath p run n ++ l) :=
  List.prefix_append _ _

theorem own_not_shared {p : Prog} {run : Pth} {n : Str} {q : Pth} (h : Own p run n q) : ¬ Shared p run q := by
  intro hs
  apply hs
  refine List.IsPrefix.trans ?_ h
  unfold jobPath
  exact ⟨[n], by simp⟩

theorem own_disj {p : Prog} {run : Pth} {n m : Str} {q : Pth} (h : Own p run n q) (h' : Own p run m q) : n = m := by
  obtain ⟨a, ha⟩ := h
  obtain ⟨b, hb⟩ := h'
  have e := ha.trans hb.symm
  unfold jobPath at e
  rw [List.append_assoc, List.append_assoc] at e
  have := List.append_cancel_left e
  simp only [List.cons_append, List.nil_append, List.cons.injEq] at this
  exact this.2.1

theorem shared_of_first {p : Prog} {run : Pth} {x : Str} {l : Pth} (h : x ≠ p.dir) : Shared p run (run ++ x :: l) := by
  rintro ⟨a, ha⟩
  rw [List.append_assoc] at ha
  have := List.append_cancel_left ha
  simp only [List.cons_append, List.nil_append, List.cons.injEq] at this
  exact h this.1.symm

theorem dirs_differ : Prog.pmm.dir ≠ Prog.cls.dir ∧ Prog.pmm.dir ≠ Prog.der.dir ∧ Prog.cls.dir ≠ Prog.der.dir := by
  decide +kernel

theorem input_not_dir (p : Prog) : "input_files_dict.json".toList ≠ p.dir ∧ "input_files_dir".toList ≠ p.dir ∧
    "norm_densities.hdf5".toList ≠ p.dir := by
  cases p <;> decide +kernel

/-! ### Reading -/

theorem paramsOf_has {d : Disk K S C} {run : Pth} {c : Coll K} (h : HasParams d run c) : paramsOf d run = some c := by
  obtain ⟨l, h1, h2, h3⟩ := h
  unfold paramsOf
  rw [h1]
  simp only [h2]
  have e : resolve run ["input_files_dir".toList, "params.json".toList] =
      run ++ ["input_files_dir".toList, "params.json".toList] := by
    have hne : "input_files_dir".toList ≠ [] := by decide
    generalize "input_files_dir".toList = x at *
    unfold resolve
    split
    · next heq => exact absurd (List.cons.inj heq).1 hne
    · rfl
  rw [e, h3]

theorem HasParams.mono {d d' : Disk K S C} {run : Pth} {c : Coll K} (h : HasParams d run c) {p : Prog}
    (hd : ∀ q, Shared p run q → d' q = d q) : HasParams d' run c := by
  obtain ⟨l, h1, h2, h3⟩ := h
  refine ⟨l, ?_, h2, ?_⟩
  · rw [hd _ (shared_of_first (input_not_dir p).1)]; exact h1
  · rw [hd _ (shared_of_first (input_not_dir p).2.1)]; exact h3

theorem storeOf_congr {d d' : Disk K S C} {run : Pth} {vs : List (Str × Int)}
    (h : ∀ v ∈ vs, d (pmmFile run v) = d' (pmmFile run v)) : storeOf d run vs = storeOf d' run vs := by
  unfold storeOf
  apply List.filterMap_congr
  intro v hv
  rw [h v hv]

theorem clsOf_congr (w : World K S C) {d d' : Disk K S C} {run : Pth}
    (h : ∀ n ∈ w.dirs, d (run ++ [Prog.cls.dir, n, clName w.probes]) = d' (run ++ [Prog.cls.dir, n, clName w.probes])) :
    clsOf w d run = clsOf w d' run := by
  unfold clsOf
  apply List.filterMap_congr
  intro n hn
  rw [h n hn]

theorem write_same (d : Disk K S C) (q : Pth) (f : File K S C) : write d q f q = some f := by
  unfold write; rw [if_pos rfl]

theorem write_other (d : Disk K S C) {q q' : Pth} (f : File K S C) (h : q' ≠ q) : write d q f q' = d q' := by
  unfold write; rw [if_neg h]

theorem next_save (w : World K S C) (p : Prog) (a : Args) (q : Pth) (f : File K S C) (d : Disk K S C) :
    next w p a (.save true q f) d = if (d q).isSome then (.failed, d) else (.done, write d q f) := rfl

/-! ### Independence -/

/-- Where a job can be. -/
def Good (p : Prog) (run : Pth) (n : Str) : Phase K S C → Prop
  | .save _ q _ => Own p run n q
  | .spectra _ _ _ _ => p = .cls
  | _ => True

theorem pmmStart_good (w : World K S C) (p : Prog) (run : Pth) (cfgName n : Str) (d : Disk K S C) :
    Good p run n (pmmStart w (argsFor p run cfgName n) d) := by
  unfold pmmStart
  split
  · split
    · trivial
    · split
      · exact own_append _ _ _ _
      · trivial
  · trivial

theorem clsGo_good (w : World K S C) (p : Prog) (run : Pth) (cfgName n : Str) (c : Coll K) (dvar : Str) (s : Int)
    (cfg : C) (d : Disk K S C) : Good p run n (clsGo w (argsFor p run cfgName n) c dvar s cfg d) := by
  unfold clsGo
  dsimp only
  split
  · split
    · exact own_append _ _ _ _
    · trivial
  · trivial

theorem derStart_good (w : World K S C) (p : Prog) (run : Pth) (cfgName n : Str) (d : Disk K S C) :
    Good p run n (derStart w (argsFor p run cfgName n) d) := by
  unfold derStart
  split
  · split
    · exact own_append _ _ _ _
    · trivial
  · trivial

theorem next_good (w : World K S C) (p : Prog) (run : Pth) (cfgName n : Str) (l : Phase K S C) (d : Disk K S C) :
    Good p run n (next w p (argsFor p run cfgName n) l d).1 := by
  cases l with
  | start =>
    cases p with
    | pmm => exact pmmStart_good w _ _ _ _ _
    | der => exact derStart_good w _ _ _ _ _
    | cls =>
      show Good _ _ _ (clsStart _ _).1
      unfold clsStart
      split
      · split
        · trivial
        · rfl
      · trivial
  | spectra c dvar s cfg => exact clsGo_good w _ _ _ _ _ _ _ _ _
  | save new q f =>
    cases new with
    | true => rw [next_save]; split <;> trivial
    | false => trivial
  | done => trivial
  | failed => trivial

theorem next_frame (w : World K S C) (p : Prog) (run : Pth) (cfgName n : Str) {l : Phase K S C} (d : Disk K S C)
    (hl : Good p run n l) {q : Pth} (hq : ¬ Own p run n q) : (next w p (argsFor p run cfgName n) l d).2 q = d q := by
  cases l with
  | start =>
    cases p with
    | pmm => rfl
    | der => rfl
    | cls =>
      show (clsStart _ _).2 q = d q
      unfold clsStart
      split
      · split
        · rfl
        · refine write_other _ _ ?_
          rintro rfl
          exact hq (own_append _ _ _ _)
      · rfl
  | spectra c dvar s cfg => rfl
  | save new r f =>
    have hr : q ≠ r := fun e => hq (e ▸ hl)
    cases new with
    | true =>
      rw [next_save]
      split
      · rfl
      · exact write_other _ _ hr
    | false => exact write_other _ _ hr
  | done => rfl
  | failed => rfl

theorem write_congr {d d' : Disk K S C} {q r : Pth} {f : File K S C} (h : d r = d' r) : write d q f r = write d' q f r := by
  unfold write
  by_cases e : r = q
  · rw [if_pos e, if_pos e]
  · rw [if_neg e, if_neg e, h]

theorem next_local (w : World K S C) (p : Prog) (run : Pth) (cfgName n : Str) {l : Phase K S C} {d d' : Disk K S C}
    {c : Coll K} (hp : HasParams d run c) (hl : Good p run n l) (hs : ∀ q, Shared p run q → d' q = d q)
    (ho : ∀ q, Own p run n q → d q = d' q) :
    (next w p (argsFor p run cfgName n) l d).1 = (next w p (argsFor p run cfgName n) l d').1 ∧
      ∀ q, Own p run n q → (next w p (argsFor p run cfgName n) l d).2 q =
        (next w p (argsFor p run cfgName n) l d').2 q := by
  have hp1 := paramsOf_has hp
  have hp2 := paramsOf_has (hp.mono hs)
  have hcfg : d (argsFor p run cfgName n).cfg = d' (argsFor p run cfgName n).cfg := ho _ (own_append _ _ _ _)
  cases l with
  | start =>
    cases p with
    | pmm =>
      refine ⟨?_, ho⟩
      show pmmStart _ _ _ = pmmStart _ _ _
      unfold pmmStart
      rw [hcfg]
      have e : (argsFor Prog.pmm run cfgName n).run = run := rfl
      rw [e, hp1, hp2]
    | der =>
      refine ⟨?_, ho⟩
      show derStart _ _ _ = derStart _ _ _
      have e : (argsFor Prog.der run cfgName n).run = run := rfl
      have e1 : storeOf d run [(central, 0)] = storeOf d' run [(central, 0)] :=
        storeOf_congr fun v _ => (hs _ (shared_of_first dirs_differ.2.1)).symm
      have e2 : clsOf w d run = clsOf w d' run :=
        clsOf_congr w fun m _ => (hs _ (shared_of_first dirs_differ.2.2)).symm
      unfold derStart
      rw [e, hp1, hp2, e1, e2]
    | cls =>
      show (clsStart _ _).1 = (clsStart _ _).1 ∧ ∀ q, _ → (clsStart _ _).2 q = (clsStart _ _).2 q
      have e : (argsFor Prog.cls run cfgName n).run = run := rfl
      unfold clsStart
      rw [hcfg, e, hp1, hp2]
      split
      · split
        · exact ⟨rfl, ho⟩
        · exact ⟨rfl, fun q hq => write_congr (ho q hq)⟩
      · exact ⟨rfl, ho⟩
  | spectra c' dvar s cfg =>
    have hpc : p = .cls := hl
    subst hpc
    refine ⟨?_, ho⟩
    show clsGo _ _ _ _ _ _ _ = clsGo _ _ _ _ _ _ _
    have e : (argsFor Prog.cls run cfgName n).run = run := rfl
    have e1 : storeOf d run [(dvar, s), (central, 0)] = storeOf d' run [(dvar, s), (central, 0)] :=
      storeOf_congr fun v _ => (hs _ (shared_of_first dirs_differ.1)).symm
    have e2 : d (run ++ ["norm_densities.hdf5".toList]) = d' (run ++ ["norm_densities.hdf5".toList]) :=
      (hs _ (shared_of_first (input_not_dir _).2.2)).symm
    unfold clsGo
    rw [e, e1, e2]
  | save new r f =>
    have hr : d r = d' r := ho r hl
    cases new with
    | true =>
      rw [next_save, next_save, hr]
      split
      · exact ⟨rfl, ho⟩
      · exact ⟨rfl, fun q hq => write_congr (ho q hq)⟩
    | false => exact ⟨rfl, fun q hq => write_congr (ho q hq)⟩
  | done => exact ⟨rfl, ho⟩
  | failed => exact ⟨rfl, ho⟩

/-- The jobs of a task are independent. -/
theorem indep (w : World K S C) (p : Prog) (run : Pth) (cfgName : Str) {job : Str → Option (Prog × Args)}
    {jobs : List Str} (hj : ∀ n ∈ jobs, job n = some (p, argsFor p run cfgName n)) {d0 : Disk K S C} {c : Coll K}
    (hp : HasParams d0 run c) :
    Indep (stepOf w job) (· ∈ jobs) (Shared p run) (Own p run) (Good p run) d0 where
  disj i j q _ _ hne hi hj := hne (own_disj hi hj)
  apart i q _ hi := own_not_shared hi
  keep i l d hv _ _ := by
    unfold stepOf; rw [hj i hv]; exact next_good w p run cfgName i l d
  frame i l d q hv hg _ hq := by
    unfold stepOf; rw [hj i hv]; exact next_frame w p run cfgName i d hg hq
  local_ i l d d' hv hg hd hd' ho := by
    unfold stepOf; rw [hj i hv]
    exact next_local w p run cfgName i (hp.mono hd) hg (fun q hq => (hd' q hq).trans (hd q hq).symm) ho

/-! ### A job alone -/

/-- A job that has ended makes no more steps. -/
def Ended : Phase K S C → Prop
  | .done => True
  | .failed => True
  | _ => False

theorem alone_done (w : World K S C) (p : Prog) (a : Args) (k : Nat) (d : Disk K S C) :
    alone (next w p a) k .done d = (.done, d) := by
  induction k with
  | zero => rfl
  | succ k ih => exact ih

theorem alone_failed (w : World K S C) (p : Prog) (a : Args) (k : Nat) (d : Disk K S C) :
    alone (next w p a) k .failed d = (.failed, d) := by
  induction k with
  | zero => rfl
  | succ k ih => exact ih

/-- What saving leaves. -/
def saved (l : Phase K S C) (d : Disk K S C) : Disk K S C :=
  match l with
  | .save true q f => if (d q).isSome then d else write d q f
  | .save false q f => write d q f
  | _ => d

theorem next_saved (w : World K S C) (p : Prog) (a : Args) {l : Phase K S C} (h : ∀ c v s g, l ≠ .spectra c v s g)
    (h' : l ≠ .start) (k : Nat) (d : Disk K S C) :
    Ended (alone (next w p a) (k + 1) l d).1 ∧ (alone (next w p a) (k + 1) l d).2 = saved l d := by
  unfold alone
  cases l with
  | start => exact absurd rfl h'
  | spectra c v s g => exact absurd rfl (h c v s g)
  | done => rw [show next w p a .done d = (.done, d) from rfl, alone_done]; exact ⟨trivial, rfl⟩
  | failed => rw [show next w p a .failed d = (.failed, d) from rfl, alone_failed]; exact ⟨trivial, rfl⟩
  | save new q f =>
    cases new with
    | false =>
      rw [show next w p a (.save false q f) d = (.done, write d q f) from rfl, alone_done]
      exact ⟨trivial, rfl⟩
    | true =>
      by_cases e : (d q).isSome
      · rw [show next w p a (.save true q f) d = (.failed, d) by rw [next_save, if_pos e], alone_failed]
        exact ⟨trivial, by unfold saved; simp only; rw [if_pos e]⟩
      · rw [show next w p a (.save true q f) d = (.done, write d q f) by rw [next_save, if_neg e], alone_done]
        exact ⟨trivial, by unfold saved; simp only; rw [if_neg e]⟩

theorem pmmStart_shape (w : World K S C) (a : Args) (d : Disk K S C) :
    (∀ c v s g, pmmStart w a d ≠ .spectra c v s g) ∧ pmmStart w a d ≠ .start := by
  unfold pmmStart
  split
  · split
    · exact ⟨fun _ _ _ _ => nofun, nofun⟩
    · split <;> exact ⟨fun _ _ _ _ => nofun, nofun⟩
  · exact ⟨fun _ _ _ _ => nofun, nofun⟩

theorem clsGo_shape (w : World K S C) (a : Args) (c : Coll K) (dvar : Str) (s : Int) (cfg : C) (d : Disk K S C) :
    (∀ c1 v1 s1 g1, clsGo w a c dvar s cfg d ≠ .spectra c1 v1 s1 g1) ∧ clsGo w a c dvar s cfg d ≠ .start := by
  unfold clsGo
  dsimp only
  split
  · split <;> exact ⟨fun _ _ _ _ => nofun, nofun⟩
  · exact ⟨fun _ _ _ _ => nofun, nofun⟩

theorem derStart_shape (w : World K S C) (a : Args) (d : Disk K S C) :
    (∀ c v s g, derStart w a d ≠ .spectra c v s g) ∧ derStart w a d ≠ .start := by
  unfold derStart
  split
  · split <;> exact ⟨fun _ _ _ _ => nofun, nofun⟩
  · exact ⟨fun _ _ _ _ => nofun, nofun⟩

/-- The files after a job that ran alone. -/
def after (w : World K S C) (p : Prog) (a : Args) (d : Disk K S C) : Disk K S C :=
  match p with
  | .pmm => saved (pmmStart w a d) d
  | .der => saved (derStart w a d) d
  | .cls => match clsStart a d with
    | (.spectra c dvar s cfg, d') => saved (clsGo w a c dvar s cfg d') d'
    | (_, d') => d'

/-- After three steps every job has ended. -/
theorem alone_after (w : World K S C) (p : Prog) (a : Args) {k : Nat} (hk : 3 ≤ k) (d : Disk K S C) :
    Ended (alone (next w p a) k .start d).1 ∧ (alone (next w p a) k .start d).2 = after w p a d := by
  obtain ⟨j, rfl⟩ : ∃ j, k = j + 3 := ⟨k - 3, by omega⟩
  rw [show j + 3 = (j + 1 + 1) + 1 by omega, alone]
  cases p with
  | pmm =>
    have h := pmmStart_shape w a d
    exact next_saved w .pmm a h.1 h.2 (j + 1) d
  | der =>
    have h := derStart_shape w a d
    exact next_saved w .der a h.1 h.2 (j + 1) d
  | cls =>
    show Ended (alone _ _ (clsStart a d).1 (clsStart a d).2).1 ∧ (alone _ _ (clsStart a d).1 (clsStart a d).2).2 = _
    unfold after
    have shape : (∃ c v s g, (clsStart a d).1 = .spectra c v s g) ∨ (clsStart a d).1 = .failed := by
      unfold clsStart
      split
      · split
        · exact Or.inr rfl
        · exact Or.inl ⟨_, _, _, _, rfl⟩
      · exact Or.inr rfl
    generalize clsStart a d = r at *
    obtain ⟨l, d'⟩ := r
    rcases shape with ⟨c, v, s, g, rfl⟩ | rfl
    · simp only
      rw [alone]
      have h := clsGo_shape w a c v s g d'
      exact next_saved w .cls a h.1 h.2 j d'
    · simp only
      rw [alone_failed]
      exact ⟨trivial, rfl⟩

/-! ### A task -/

/-- The scripts of the jobs call the program with the directory of the job. -/
def Scripts (venv : Option Pth) (home : Pth) (p : Prog) (run : Pth) (cfgName : Str) (jobs : List Str) : Prop :=
  ∀ n ∈ jobs, jobOf venv home p run cfgName n = some (p, argsFor p run cfgName n)

theorem runTask_own (w : World K S C) {venv : Option Pth} {home : Pth} {p : Prog} {run : Pth} {cfgName : Str}
    {jobs : List Str} (hj : Scripts venv home p run cfgName jobs) {d : Disk K S C} {c : Coll K} (hp : HasParams d run c)
    {sched : List Str} (hs : ∀ n ∈ sched, n ∈ jobs) :
    (∀ n ∈ jobs, ∀ q, Own p run n q → runTask w venv home p run cfgName sched d q =
      (alone (next w p (argsFor p run cfgName n)) (sched.count n) .start d).2 q) ∧
    ∀ q, (∀ n ∈ sched, ¬ Own p run n q) → runTask w venv home p run cfgName sched d q = d q := by
  have hi := indep w p run cfgName hj hp
  obtain ⟨h1, h2⟩ := hi.mixed sched (fun _ => .start) d hs (fun _ _ => trivial) (fun _ _ => rfl)
  have e := (exec_together w (jobOf venv home p run cfgName) sched ⟨fun _ => .start, d⟩).2
  refine ⟨fun n hn q hq => ?_, fun q hq => ?_⟩
  · unfold runTask
    rw [e]
    have hst : stepOf w (jobOf venv home p run cfgName) n = next w p (argsFor p run cfgName n) := by
      funext l d
      unfold stepOf
      rw [hj n hn]
    rw [← hst, lawful_beq_subsingleton (List.instBEq : BEq Str) instBEqOfDecidableEq]
    exact (h1 n hn).2 q hq
  · unfold runTask
    rw [e]
    exact h2 q hq

theorem runTask_shared (w : World K S C) {venv : Option Pth} {home : Pth} {p : Prog} {run : Pth} {cfgName : Str}
    {jobs : List Str} (hj : Scripts venv home p run cfgName jobs) {d : Disk K S C} {c : Coll K} (hp : HasParams d run c)
    {sched : List Str} (hs : ∀ n ∈ sched, n ∈ jobs) {q : Pth} (hq : Shared p run q) :
    runTask w venv home p run cfgName sched d q = d q :=
  (runTask_own w hj hp hs).2 q fun _ _ ho => own_not_shared ho hq

theorem runTask_after (w : World K S C) {venv : Option Pth} {home : Pth} {p : Prog} {run : Pth} {cfgName : Str}
    {jobs : List Str} (hj : Scripts venv home p run cfgName jobs) {d : Disk K S C} {c : Coll K} (hp : HasParams d run c)
    {sched : List Str} (hs : Complete jobs sched) {n : Str} (hn : n ∈ jobs) {q : Pth} (hq : Own p run n q) :
    runTask w venv home p run cfgName sched d q = after w p (argsFor p run cfgName n) d q := by
  rw [(runTask_own w hj hp hs.1).1 n hn q hq, (alone_after w p _ (hs.2 n hn) d).2]

/-! ### Running a job again -/

theorem saved_idem (l : Phase K S C) (d : Disk K S C) : saved l (saved l d) = saved l d := by
  cases l with
  | start => rfl
  | spectra _ _ _ _ => rfl
  | done => rfl
  | failed => rfl
  | save new q f =>
    cases new with
    | false =>
      funext r
      show write (write d q f) q f r = write d q f r
      unfold write
      by_cases e : r = q
      · rw [if_pos e, if_pos e]
      · rw [if_neg e]
    | true =>
      unfold saved
      simp only
      by_cases e : (d q).isSome
      · simp only [e, if_true]
      · rw [if_neg e, write_same]
        simp

/-- Saving changes only the file to be saved. -/
theorem saved_other {l : Phase K S C} {d : Disk K S C} {r : Pth} (h : ∀ b q f, l = .save b q f → r ≠ q) :
    saved l d r = d r := by
  cases l with
  | start => rfl
  | spectra _ _ _ _ => rfl
  | done => rfl
  | failed => rfl
  | save new q f =>
    have hr := h new q f rfl
    cases new with
    | false => exact write_other _ _ hr
    | true =>
      unfold saved
      simp only
      split
      · rfl
      · exact write_other _ _ hr

theorem paramsOf_congr {d d' : Disk K S C} {run : Pth} {c : Coll K} {p : Prog} (hp : HasParams d run c)
    (h : ∀ q, Shared p run q → d' q = d q) : paramsOf d' run = paramsOf d run := by
  rw [paramsOf_has hp, paramsOf_has (hp.mono h)]

/-- The names of the files which a program writes. -/
def outNames (w : World K S C) (n : Str) : Prog → List Str
  | .pmm => ["p_mm.h5".toList]
  | .cls => ["params.json".toList, clName w.probes]
  | .der => [derName n w.probes]

theorem pmmStart_save {w : World K S C} {a : Args} {d : Disk K S C} {b : Bool} {q : Pth} {f : File K S C}
    (h : pmmStart w a d = .save b q f) : b = true ∧ q = a.work ++ ["p_mm.h5".toList] := by
  unfold pmmStart at h
  split at h
  · split at h
    · cases h
    · split at h
      · cases h; exact ⟨rfl, rfl⟩
      · cases h
  · cases h

theorem clsGo_save {w : World K S C} {a : Args} {c : Coll K} {v : Str} {s : Int} {g : C} {d : Disk K S C} {b : Bool} {q : Pth}
    {f : File K S C} (h : clsGo w a c v s g d = .save b q f) : b = true ∧ q = a.work ++ [clName w.probes] := by
  unfold clsGo at h
  dsimp only at h
  split at h
  · split at h
    · cases h; exact ⟨rfl, rfl⟩
    · cases h
  · cases h

theorem derStart_save {w : World K S C} {a : Args} {d : Disk K S C} {b : Bool} {q : Pth} {f : File K S C}
    (h : derStart w a d = .save b q f) : b = false ∧ q = a.work ++ [derName a.name w.probes] := by
  unfold derStart at h
  split at h
  · split at h
    · cases h; exact ⟨rfl, rfl⟩
    · cases h
  · cases h

theorem clName_not_params (probes : List Str) : clName probes ≠ "params.json".toList := by
  intro h
  unfold clName at h
  have h1 : "cl_".toList = 'c' :: "l_".toList := by decide
  have h2 : "params.json".toList = 'p' :: "arams.json".toList := by decide
  rw [h1, h2, List.cons_append] at h
  exact absurd (List.cons.inj h).1 (by decide)

theorem work_ne {p : Pth} {x y : Str} (h : x ≠ y) : p ++ [x] ≠ p ++ [y] := by
  intro e
  exact h (List.cons.inj (List.append_cancel_left e)).1

theorem clsStart_eq (a : Args) {d : Disk K S C} {l : Phase K S C} {d1 : Disk K S C} (h : clsStart a d = (l, d1)) :
    (l = .failed ∧ d1 = d) ∨ ∃ c v s g, l = .spectra c v s g ∧ d1 = write d (a.work ++ ["params.json".toList]) (.params c) := by
  unfold clsStart at h
  split at h
  · split at h
    · cases h; exact Or.inl ⟨rfl, rfl⟩
    · cases h; exact Or.inr ⟨_, _, _, _, rfl, rfl⟩
  · cases h; exact Or.inl ⟨rfl, rfl⟩

theorem clsStart_again (a : Args) {d d' : Disk K S C} (hc : d' a.cfg = d a.cfg) (hp : paramsOf d' a.run = paramsOf d a.run) :
    (clsStart a d').1 = (clsStart a d).1 := by
  unfold clsStart
  rw [hc, hp]
  split
  · split
    · rfl
    · rfl
  · rfl

theorem clsGo_again (w : World K S C) (run : Pth) (cfgName n : Str) (c : Coll K) (v : Str) (s : Int) (g : C) {d d' : Disk K S C}
    (hs : ∀ q, Shared .cls run q → d' q = d q) :
    clsGo w (argsFor .cls run cfgName n) c v s g d' = clsGo w (argsFor .cls run cfgName n) c v s g d := by
  have e : (argsFor Prog.cls run cfgName n).run = run := rfl
  have e1 : storeOf d' run [(v, s), (central, 0)] = storeOf d run [(v, s), (central, 0)] :=
    storeOf_congr fun v _ => hs _ (shared_of_first dirs_differ.1)
  have e2 : d' (run ++ ["norm_densities.hdf5".toList]) = d (run ++ ["norm_densities.hdf5".toList]) :=
    hs _ (shared_of_first (input_not_dir _).2.2)
  unfold clsGo
  rw [e, e1, e2]

theorem write_id {d : Disk K S C} {q : Pth} {f : File K S C} (h : d q = some f) : write d q f = d := by
  funext r
  unfold write
  by_cases e : r = q
  · rw [if_pos e, e, h]
  · rw [if_neg e]

/-- A job that is begun again, at whatever point it was stopped, leaves what it would have left. -/
theorem after_alone (w : World K S C) (p : Prog) (run : Pth) (cfgName n : Str) {d : Disk K S C} {c : Coll K}
    (hp : HasParams d run c) (hcfg : cfgName ∉ outNames w n p) (k : Nat) :
    after w p (argsFor p run cfgName n) (alone (next w p (argsFor p run cfgName n)) k .start d).2 =
      after w p (argsFor p run cfgName n) d := by
  have hwork : (argsFor p run cfgName n).work = jobPath p run n := rfl
  have hcfg' : (argsFor p run cfgName n).cfg = jobPath p run n ++ [cfgName] := rfl
  have hrun : (argsFor p run cfgName n).run = run := rfl
  -- what saving leaves outside of the saved file
  have sh : ∀ (l : Phase K S C) (d : Disk K S C), Good p run n l → ∀ q, Shared p run q → saved l d q = d q := by
    intro l d hl q hq
    refine saved_other fun b r f e => ?_
    rintro rfl
    rw [e] at hl
    exact own_not_shared hl hq
  cases p with
  | pmm =>
    have hne : cfgName ≠ "p_mm.h5".toList := fun e => hcfg (by rw [e]; exact List.mem_cons_self)
    have again : after w .pmm (argsFor .pmm run cfgName n) (after w .pmm (argsFor .pmm run cfgName n) d) =
        after w .pmm (argsFor .pmm run cfgName n) d := by
      have e : pmmStart w (argsFor .pmm run cfgName n) (after w .pmm (argsFor .pmm run cfgName n) d) =
          pmmStart w (argsFor .pmm run cfgName n) d := by
        have h1 : paramsOf (after w .pmm (argsFor .pmm run cfgName n) d) run = paramsOf d run :=
          paramsOf_congr hp (sh _ _ (pmmStart_good w .pmm run cfgName n d))
        have h2 : (after w .pmm (argsFor .pmm run cfgName n) d) (argsFor .pmm run cfgName n).cfg =
            d (argsFor .pmm run cfgName n).cfg := by
          refine saved_other fun b r f e => ?_
          rw [(pmmStart_save e).2]
          exact work_ne hne
        unfold pmmStart
        rw [hrun, h1, h2]
      show saved (pmmStart _ _ _) _ = _
      rw [e]
      exact saved_idem _ _
    match k with
    | 0 => rfl
    | 1 => rfl
    | k + 2 =>
      have h := pmmStart_shape w (argsFor .pmm run cfgName n) d
      have e : (alone (next w .pmm (argsFor .pmm run cfgName n)) (k + 2) .start d).2 =
          after w .pmm (argsFor .pmm run cfgName n) d := by
        rw [alone]
        exact (next_saved w .pmm _ h.1 h.2 k d).2
      rw [e, again]
  | der =>
    have again : after w .der (argsFor .der run cfgName n) (after w .der (argsFor .der run cfgName n) d) =
        after w .der (argsFor .der run cfgName n) d := by
      have s1 := sh _ d (derStart_good w .der run cfgName n d)
      have e : derStart w (argsFor .der run cfgName n) (after w .der (argsFor .der run cfgName n) d) =
          derStart w (argsFor .der run cfgName n) d := by
        have h1 : paramsOf (after w .der (argsFor .der run cfgName n) d) run = paramsOf d run := paramsOf_congr hp s1
        have e1 : storeOf (after w .der (argsFor .der run cfgName n) d) run [(central, 0)] = storeOf d run [(central, 0)] :=
          storeOf_congr fun v _ => s1 _ (shared_of_first dirs_differ.2.1)
        have e2 : clsOf w (after w .der (argsFor .der run cfgName n) d) run = clsOf w d run :=
          clsOf_congr w fun m _ => s1 _ (shared_of_first dirs_differ.2.2)
        unfold derStart
        rw [hrun, h1, e1, e2]
      show saved (derStart _ _ _) _ = _
      rw [e]
      exact saved_idem _ _
    match k with
    | 0 => rfl
    | 1 => rfl
    | k + 2 =>
      have h := derStart_shape w (argsFor .der run cfgName n) d
      have e : (alone (next w .der (argsFor .der run cfgName n)) (k + 2) .start d).2 =
          after w .der (argsFor .der run cfgName n) d := by
        rw [alone]
        exact (next_saved w .der _ h.1 h.2 k d).2
      rw [e, again]
  | cls =>
    have hn1 : cfgName ≠ "params.json".toList := fun e => hcfg (by rw [e]; exact List.mem_cons_self)
    have hn2 : cfgName ≠ clName w.probes := fun e => hcfg (by rw [e]; exact List.mem_cons_of_mem _ List.mem_cons_self)
    obtain ⟨l, d1, hl⟩ : ∃ l d1, clsStart (argsFor .cls run cfgName n) d = (l, d1) := ⟨_, _, rfl⟩
    rcases clsStart_eq _ hl with ⟨rfl, rfl⟩ | ⟨c', v, s, g, rfl, rfl⟩
    · have e : (alone (next w .cls (argsFor .cls run cfgName n)) k .start d1).2 = d1 := by
        cases k with
        | zero => rfl
        | succ k =>
          rw [alone]
          have : next w .cls (argsFor .cls run cfgName n) .start d1 = (.failed, d1) := hl
          rw [this, alone_failed]
      rw [e]
    · generalize hpj : (argsFor Prog.cls run cfgName n).work ++ ["params.json".toList] = pj at hl
      have pjOwn : Own .cls run n pj := by rw [← hpj]; exact own_append _ _ _ _
      have pjCfg : (argsFor Prog.cls run cfgName n).cfg ≠ pj := by rw [← hpj]; exact work_ne hn1
      -- any later state gives the same first step
      have start_again : ∀ D : Disk K S C, (∀ q, Shared .cls run q → D q = d q) →
          D (argsFor Prog.cls run cfgName n).cfg = d (argsFor Prog.cls run cfgName n).cfg → D pj = some (.params c') →
          clsStart (argsFor .cls run cfgName n) D = (.spectra c' v s g, D) := by
        intro D hD hc hpj'
        have h1 := clsStart_again (argsFor .cls run cfgName n) hc (paramsOf_congr hp hD)
        rw [hl] at h1
        obtain ⟨l, D1, hl'⟩ : ∃ l D1, clsStart (argsFor .cls run cfgName n) D = (l, D1) := ⟨_, _, rfl⟩
        rw [hl'] at h1 ⊢
        simp only at h1
        rcases clsStart_eq _ hl' with ⟨h2, _⟩ | ⟨c2, v2, s2, g2, h2, rfl⟩
        · rw [h2] at h1; cases h1
        · rw [h2] at h1
          injection h1 with e1 e2 e3 e4
          subst e1 e2 e3 e4
          rw [hpj, write_id hpj', h2]
      have shared1 : ∀ q, Shared .cls run q → write d pj (.params c') q = d q := fun q hq =>
        write_other _ _ fun e => own_not_shared (e ▸ pjOwn) hq
      have e0 : after w .cls (argsFor .cls run cfgName n) d =
          saved (clsGo w (argsFor .cls run cfgName n) c' v s g (write d pj (.params c'))) (write d pj (.params c')) := by
        unfold after
        simp only [hl]
      have e1 : after w .cls (argsFor .cls run cfgName n) (write d pj (.params c')) =
          after w .cls (argsFor .cls run cfgName n) d := by
        rw [e0]
        have h := start_again (write d pj (.params c')) shared1 (write_other _ _ pjCfg) (write_same _ _ _)
        unfold after
        simp only [h]
      match k with
      | 0 => rfl
      | 1 =>
        have : (alone (next w .cls (argsFor .cls run cfgName n)) 1 .start d).2 = write d pj (.params c') := by
          show (clsStart (argsFor .cls run cfgName n) d).2 = _
          rw [hl]
        rw [this, e1]
      | 2 =>
        have : (alone (next w .cls (argsFor .cls run cfgName n)) 2 .start d).2 = write d pj (.params c') := by
          rw [alone]
          have : next w .cls (argsFor .cls run cfgName n) .start d = (.spectra c' v s g, write d pj (.params c')) := hl
          rw [this]
          rfl
        rw [this, e1]
      | k + 3 =>
        rw [(alone_after w .cls (argsFor .cls run cfgName n) (by omega : 3 ≤ k + 3) d).2, e0]
        generalize hgo : clsGo w (argsFor .cls run cfgName n) c' v s g (write d pj (.params c')) = lg
        have hlg : Good .cls run n lg := by rw [← hgo]; exact clsGo_good w .cls run cfgName n c' v s g _
        have hsh : ∀ q, Shared .cls run q → saved lg (write d pj (.params c')) q = d q := fun q hq =>
          (sh lg _ hlg q hq).trans (shared1 q hq)
        have hst := start_again (saved lg (write d pj (.params c'))) hsh
          (by
            rw [saved_other, write_other _ _ pjCfg]
            intro b q f e
            rw [(clsGo_save (hgo.trans e)).2]
            exact work_ne hn2)
          (by
            rw [saved_other, write_same]
            intro b q f e
            rw [(clsGo_save (hgo.trans e)).2, ← hpj]
            exact work_ne (clName_not_params _).symm)
        have hgo2 : clsGo w (argsFor .cls run cfgName n) c' v s g (saved lg (write d pj (.params c'))) = lg := by
          rw [← hgo]
          refine clsGo_again w run cfgName n c' v s g fun q hq => ?_
          rw [hgo, hsh q hq, shared1 q hq]
        unfold after
        simp only [hst, hgo2]
        exact saved_idem _ _

end Seyfert.Job
