import Verif.Model.PowerJobs
import Verif.Props.PowerEval

/-!
C159: computations of power spectra which run at the same time, are stopped and are repeated.
-/

set_option linter.unusedSectionVars false

namespace Seyfert.PowerJobs
open PowerEval
open Boltzmann (readIni writeIni updatedIni cambGroups)

variable {K : Type} [Field K] [LinearOrder K]

/-! ### One job alone -/

theorem alone_add (lib : Lib K) (j : Job K) (a b : Nat) (x : Files × Phase K) :
    alone lib j (a + b) x = alone lib j b (alone lib j a x) := by
  induction a generalizing x with
  | zero => rw [Nat.zero_add]; rfl
  | succ a ih => rw [Nat.succ_add]; exact ih _

theorem alone_succ (lib : Lib K) (j : Job K) (n : Nat) (x : Files × Phase K) :
    alone lib j (n + 1) x = next lib j (alone lib j n x).1 (alone lib j n x).2 := alone_add lib j n 1 x

/-- A job has ended. -/
def Ended : Phase K → Prop
  | .done _ => True
  | .failed _ => True
  | _ => False

theorem alone_ended (lib : Lib K) (j : Job K) (n : Nat) (f : Files) (p : Phase K) (h : Ended p) : alone lib j n (f, p) = (f, p) := by
  induction n with
  | zero => rfl
  | succ n ih =>
    have e : next lib j f p = (f, p) := by
      cases p <;> first | rfl | exact absurd h id
    change alone lib j n (next lib j f p) = _
    rw [e, ih]

theorem put_put (f : Files) (l : Loc) (a b : Str) : put (put f l a) l b = put f l b := by
  funext x
  unfold put
  by_cases h : x = l
  · rw [if_pos h, if_pos h]
  · rw [if_neg h, if_neg h, if_neg h]

theorem put_same (f : Files) (l : Loc) (a : Str) : put f l a l = some a := if_pos rfl

theorem put_self (f : Files) (l : Loc) (a : Str) (h : f l = some a) : put f l a = f := by
  funext x
  unfold put
  by_cases e : x = l
  · rw [if_pos e, e, h]
  · rw [if_neg e]

theorem alone_writing (lib : Lib K) (j : Job K) (r : Dict Str Str) (l : Option (K × K × K)) : ∀ (f : Files) (a : Dict Str Str),
    f j.ini = some (writeIni a) →
    alone lib j r.length (f, .writing a r l) = (put f j.ini (writeIni (a ++ r)), .writing (a ++ r) [] l) := by
  induction r with
  | nil =>
    intro f a h
    rw [List.append_nil, put_self f _ _ h]
    rfl
  | cons p r ih =>
    intro f a h
    change alone lib j r.length (put f j.ini (writeIni (a ++ [p])), .writing (a ++ [p]) r l) = _
    rw [ih _ _ (put_same _ _ _), put_put, List.append_assoc]
    rfl

/-- The loop comes to its end step by step as it does at once. -/
theorem alone_loop (lib : Lib K) (j : Job K) (s8 : K) (rounds : Nat) : ∀ (ev amp : K) (d : Dict Str Str) (text : Str) (f : Files),
    f j.ini = some text → ∀ text' e, tuneLoop lib s8 rounds ev amp d text = (text', e) → e ≠ some .running →
    ∃ n, alone lib j n (f, .check s8 ev amp d) = (put f j.ini text', match e with | none => .running | some e => .failed e) := by
  induction rounds with
  | zero =>
    intro ev amp d text f _ text' e h hne
    cases h
    exact absurd rfl hne
  | succ n ih =>
    intro ev amp d text f hf text' e h hne
    rw [tuneLoop] at h
    by_cases h8 : s8 = 0
    · rw [if_pos h8] at h
      cases h
      refine ⟨1, ?_⟩
      rw [put_self f _ _ hf]
      exact if_pos h8
    · rw [if_neg h8] at h
      by_cases ht : tol < |(s8 - ev) / s8|
      · rw [if_pos ht] at h
        have one : next lib j f (.check s8 ev amp d) = match lib.camb text with
            | none => (f, .failed .code)
            | some c => if c.sigma8 = 0 then (f, .failed .zeroDivision)
              else (put f j.ini [], .writing [] (PyDict.set d ampKey (lib.str (amp * (s8 / c.sigma8) ^ 2)))
                (some (s8, c.sigma8, amp * (s8 / c.sigma8) ^ 2))) := by
          rw [next, if_neg h8, if_pos ht, hf]
          dsimp only
          cases lib.camb text <;> rfl
        cases hc : lib.camb text with
        | none =>
          rw [hc] at h one
          cases h
          refine ⟨1, ?_⟩
          rw [put_self f _ _ hf]
          exact one
        | some c =>
          rw [hc] at h one
          dsimp only at h one
          by_cases hz : c.sigma8 = 0
          · rw [if_pos hz] at h one
            cases h
            refine ⟨1, ?_⟩
            rw [put_self f _ _ hf]
            exact one
          · rw [if_neg hz] at h one
            have w := alone_writing lib j (PyDict.set d ampKey (lib.str (amp * (s8 / c.sigma8) ^ 2)))
              (some (s8, c.sigma8, amp * (s8 / c.sigma8) ^ 2)) (put f j.ini []) [] (put_same _ _ _)
            rw [List.nil_append, put_put] at w
            obtain ⟨m, hm⟩ := ih c.sigma8 (amp * (s8 / c.sigma8) ^ 2) _ _ _ (put_same f j.ini _) text' e h hne
            rw [put_put] at hm
            refine ⟨1 + ((PyDict.set d ampKey (lib.str (amp * (s8 / c.sigma8) ^ 2))).length + (1 + m)), ?_⟩
            rw [alone_add]
            change alone lib j _ (next lib j f (.check s8 ev amp d)) = _
            rw [one, alone_add, w, alone_add]
            exact hm
      · rw [if_neg ht] at h
        cases h
        refine ⟨1, ?_⟩
        rw [put_self f _ _ hf]
        change next lib j f (.check s8 ev amp d) = _
        rw [next, if_neg h8, if_neg ht]

/-- A job alone, step by step, ends with the files and the results, or the exception, of the computation at once. -/
theorem alone_ends (lib : Lib K) (j : Job K) (rounds : Nat) (f : Files)
    (h : (solve lib rounds j.pars f (j.solver lib)).2.2 ≠ some .running) :
    ∃ n, ∀ m, n ≤ m → alone lib j m (f, .start) = ((solve lib rounds j.pars f (j.solver lib)).1,
      match (solve lib rounds j.pars f (j.solver lib)).2.2 with
      | none => .done (solve lib rounds j.pars f (j.solver lib)).2.1
      | some e => .failed e) := by
  suffices H : ∃ n, alone lib j n (f, .start) = ((solve lib rounds j.pars f (j.solver lib)).1,
      match (solve lib rounds j.pars f (j.solver lib)).2.2 with
      | none => .done (solve lib rounds j.pars f (j.solver lib)).2.1
      | some e => .failed e) by
    obtain ⟨n, hn⟩ := H
    refine ⟨n, fun m hm => ?_⟩
    obtain ⟨k, rfl⟩ := Nat.exists_eq_add_of_le hm
    rw [alone_add, hn]
    refine alone_ended lib j k _ _ ?_
    cases (solve lib rounds j.pars f (j.solver lib)).2.2 <;> trivial
  have hs : solve lib rounds j.pars f (j.solver lib) = match basis lib j.pars with
      | .error e => (f, j.solver lib, some e)
      | .ok b => match f (j.ref lib) with
        | none => (f, j.solver lib, some .fileNotFound)
        | some t => match (finetune lib rounds j.pars (updatedIni t b)).2 with
          | some e => (put f j.ini (finetune lib rounds j.pars (updatedIni t b)).1, j.solver lib, some e)
          | none => match cambRun lib j.s (finetune lib rounds j.pars (updatedIni t b)).1 (j.solver lib) with
            | .error e => (put f j.ini (finetune lib rounds j.pars (updatedIni t b)).1, j.solver lib, some e)
            | .ok v' => (put f j.ini (finetune lib rounds j.pars (updatedIni t b)).1, v', none) := rfl
  rw [hs] at h ⊢
  cases hb : basis lib j.pars with
  | error e =>
    refine ⟨1, ?_⟩
    change next lib j f .start = _
    rw [next, hb]
  | ok b =>
    rw [hb] at h
    dsimp only at h ⊢
    cases hf : f (j.ref lib) with
    | none =>
      refine ⟨1, ?_⟩
      change next lib j f .start = _
      rw [next, hb]
      dsimp only
      rw [hf]
    | some t =>
      rw [hf] at h
      dsimp only at h ⊢
      have one : next lib j f .start = (put f j.ini [], .writing [] (PyDict.update (readIni t) b) none) := by
        rw [next, hb]
        dsimp only
        rw [hf]
      have w := alone_writing lib j (PyDict.update (readIni t) b) none (put f j.ini []) [] (put_same _ _ _)
      rw [List.nil_append, put_put] at w
      have tun : alone lib j (1 + ((PyDict.update (readIni t) b).length + 1)) (f, .start) =
          (put f j.ini (updatedIni t b), .tuning) := by
        rw [alone_add]
        change alone lib j _ (next lib j f .start) = _
        rw [one, alone_add, w]
        rfl
      suffices H : ∃ n, alone lib j n (put f j.ini (updatedIni t b), .tuning) = _ by
        obtain ⟨n, hn⟩ := H
        refine ⟨1 + ((PyDict.update (readIni t) b).length + 1) + n, ?_⟩
        rw [alone_add, tun, hn]
      generalize updatedIni t b = text at *
      have hstop : ∀ e, finetune lib rounds j.pars text = (text, some e) →
          next lib j (put f j.ini text) .tuning = (put f j.ini text, .failed e) →
          ∃ n, alone lib j n (put f j.ini text, .tuning) = (put f j.ini text, .failed e) :=
        fun e _ hn => ⟨1, hn⟩
      have hfile := put_same f j.ini text
      cases h8 : par j.pars "sigma8".toList with
      | error e =>
        have hft : finetune lib rounds j.pars text = (text, some e) := by
          unfold finetune
          rw [h8]
        rw [hft]
        exact hstop e hft (by rw [next, h8])
      | ok s8 =>
        cases ha : (readIni text).lookup ampKey with
        | none =>
          have hft : finetune lib rounds j.pars text = (text, some .keyError) := by
            unfold finetune
            rw [h8]
            dsimp only
            rw [ha]
          rw [hft]
          refine hstop _ hft ?_
          rw [next, h8]
          dsimp only
          rw [hfile]
          dsimp only
          rw [ha]
        | some a =>
          cases hn : lib.num a with
          | none =>
            have hft : finetune lib rounds j.pars text = (text, some .valueError) := by
              unfold finetune
              rw [h8]
              dsimp only
              rw [ha]
              dsimp only
              rw [hn]
            rw [hft]
            refine hstop _ hft ?_
            rw [next, h8]
            dsimp only
            rw [hfile]
            dsimp only
            rw [ha]
            dsimp only
            rw [hn]
          | some amp =>
            have hft : finetune lib rounds j.pars text = tuneLoop lib s8 rounds 10 amp (readIni text) text := by
              unfold finetune
              rw [h8]
              dsimp only
              rw [ha]
              dsimp only
              rw [hn]
            have onet : next lib j (put f j.ini text) .tuning = (put f j.ini text, .check s8 10 amp (readIni text)) := by
              rw [next, h8]
              dsimp only
              rw [hfile]
              dsimp only
              rw [ha]
              dsimp only
              rw [hn]
            rw [hft] at h ⊢
            cases hl : tuneLoop lib s8 rounds 10 amp (readIni text) text with
            | mk text' e =>
              rw [hl] at h
              dsimp only at h ⊢
              have hne : e ≠ some .running := by
                rintro rfl
                exact h rfl
              obtain ⟨n, hloop⟩ := alone_loop lib j s8 rounds 10 amp (readIni text) text (put f j.ini text) hfile text' e hl hne
              rw [put_put] at hloop
              cases e with
              | some e =>
                refine ⟨1 + n, ?_⟩
                rw [alone_add]
                change alone lib j n (next lib j (put f j.ini text) .tuning) = _
                rw [onet, hloop]
              | none =>
                dsimp only at h hloop ⊢
                refine ⟨1 + (n + 1), ?_⟩
                rw [alone_add]
                change alone lib j (n + 1) (next lib j (put f j.ini text) .tuning) = _
                rw [onet, alone_succ, hloop]
                dsimp only
                rw [next, put_same]
                dsimp only
                cases cambRun lib j.s text' (j.solver lib) <;> rfl

/-! ### Several jobs at the same time -/

/-- Two states of the files which a job does not tell apart. -/
def Same (lib : Lib K) (j : Job K) (f g : Files) : Prop := f (j.ref lib) = g (j.ref lib) ∧ f j.ini = g j.ini

theorem put_congr (f g : Files) (l x : Loc) (t : Str) (h : f x = g x) : put f l t x = put g l t x := by
  unfold put
  by_cases e : x = l
  · rw [if_pos e, if_pos e]
  · rw [if_neg e, if_neg e, h]

/-- A step depends only on the two files of the job. -/
theorem next_same (lib : Lib K) (j : Job K) (f g : Files) (p : Phase K) (h : Same lib j f g) :
    (next lib j f p).2 = (next lib j g p).2 ∧ Same lib j (next lib j f p).1 (next lib j g p).1 := by
  obtain ⟨hr, hi⟩ := h
  have hput : ∀ t, Same lib j (put f j.ini t) (put g j.ini t) := fun t => ⟨put_congr f g _ _ t hr, put_congr f g _ _ t hi⟩
  cases p with
  | start =>
    rw [next, next]
    cases basis lib j.pars with
    | error e => exact ⟨rfl, hr, hi⟩
    | ok b =>
      dsimp only
      rw [hr]
      cases g (j.ref lib) with
      | none => exact ⟨rfl, hr, hi⟩
      | some t => exact ⟨rfl, hput _⟩
  | writing a r l =>
    cases r with
    | cons q r => exact ⟨rfl, hput _⟩
    | nil =>
      cases l with
      | none => exact ⟨rfl, hr, hi⟩
      | some x => exact ⟨rfl, hr, hi⟩
  | tuning =>
    rw [next, next]
    cases par j.pars "sigma8".toList with
    | error e => exact ⟨rfl, hr, hi⟩
    | ok s8 =>
      dsimp only
      rw [hi]
      cases hg : g j.ini with
      | none => exact ⟨rfl, hr, hi⟩
      | some t =>
        dsimp only
        cases (readIni t).lookup ampKey with
        | none => exact ⟨rfl, hr, hi⟩
        | some a =>
          dsimp only
          cases lib.num a with
          | none => exact ⟨rfl, hr, hi⟩
          | some amp => exact ⟨rfl, hr, hi⟩
  | check s8 ev amp d =>
    rw [next, next]
    by_cases h8 : s8 = 0
    · rw [if_pos h8, if_pos h8]
      exact ⟨rfl, hr, hi⟩
    · rw [if_neg h8, if_neg h8]
      by_cases ht : tol < |(s8 - ev) / s8|
      · rw [if_pos ht, if_pos ht, hi]
        cases hg : g j.ini with
        | none => exact ⟨rfl, hr, hi⟩
        | some t =>
          dsimp only
          cases lib.camb t with
          | none => exact ⟨rfl, hr, hi⟩
          | some c =>
            dsimp only
            by_cases hz : c.sigma8 = 0
            · rw [if_pos hz, if_pos hz]
              exact ⟨rfl, hr, hi⟩
            · rw [if_neg hz, if_neg hz]
              exact ⟨rfl, hput _⟩
      · rw [if_neg ht, if_neg ht]
        exact ⟨rfl, hr, hi⟩
  | running =>
    rw [next, next, hi]
    cases hg : g j.ini with
    | none => exact ⟨rfl, hr, hi⟩
    | some t =>
      dsimp only
      cases cambRun lib j.s t (j.solver lib) with
      | error e => exact ⟨rfl, hr, hi⟩
      | ok v => exact ⟨rfl, hr, hi⟩
  | done v => exact ⟨rfl, hr, hi⟩
  | failed e => exact ⟨rfl, hr, hi⟩

/-- A step writes no file but the ini file of the job. -/
theorem next_files (lib : Lib K) (j : Job K) (f : Files) (p : Phase K) (l : Loc) (h : l ≠ j.ini) : (next lib j f p).1 l = f l := by
  have hput : ∀ t, put f j.ini t l = f l := fun t => if_neg h
  cases p with
  | start =>
    rw [next]
    cases basis lib j.pars with
    | error e => rfl
    | ok b =>
      dsimp only
      cases f (j.ref lib) with
      | none => rfl
      | some t => exact hput _
  | writing a r x =>
    cases r with
    | cons q r => exact hput _
    | nil => cases x <;> rfl
  | tuning =>
    rw [next]
    cases par j.pars "sigma8".toList with
    | error e => rfl
    | ok s8 =>
      dsimp only
      cases f j.ini with
      | none => rfl
      | some t =>
        dsimp only
        cases (readIni t).lookup ampKey with
        | none => rfl
        | some a =>
          dsimp only
          cases lib.num a <;> rfl
  | check s8 ev amp d =>
    rw [next]
    by_cases h8 : s8 = 0
    · rw [if_pos h8]
    · rw [if_neg h8]
      by_cases ht : tol < |(s8 - ev) / s8|
      · rw [if_pos ht]
        cases f j.ini with
        | none => rfl
        | some t =>
          dsimp only
          cases lib.camb t with
          | none => rfl
          | some c =>
            dsimp only
            by_cases hz : c.sigma8 = 0
            · rw [if_pos hz]
            · rw [if_neg hz]
              exact hput _
      · rw [if_neg ht]
  | running =>
    rw [next]
    cases f j.ini with
    | none => rfl
    | some t =>
      dsimp only
      cases cambRun lib j.s t (j.solver lib) <;> rfl
  | done v => rfl
  | failed e => rfl

/-- Jobs in directories of their own, none of which is the directory of the configurations. -/
def Apart (lib : Lib K) (jobs : Nat → Job K) : Prop :=
  (∀ i k, i ≠ k → (jobs i).dir ≠ (jobs k).dir) ∧ ∀ i, (jobs i).dir ≠ lib.config

theorem run_same (lib : Lib K) (jobs : Nat → Job K) (ha : Apart lib jobs) (i : Nat) (sched : List Nat) : ∀ (x : Sys K) (g : Files),
    Same lib (jobs i) x.files g →
    (x.run lib jobs sched).at_ i = (alone lib (jobs i) (sched.count i) (g, x.at_ i)).2 ∧
    Same lib (jobs i) (x.run lib jobs sched).files (alone lib (jobs i) (sched.count i) (g, x.at_ i)).1 := by
  induction sched with
  | nil => exact fun x g h => ⟨rfl, h⟩
  | cons k sched ih =>
    intro x g h
    change ((x.step lib jobs k).run lib jobs sched).at_ i = _ ∧ Same lib (jobs i) ((x.step lib jobs k).run lib jobs sched).files _
    by_cases hk : k = i
    · subst hk
      rw [List.count_cons_self]
      obtain ⟨h1, h2⟩ := next_same lib (jobs k) x.files g (x.at_ k) h
      have e : (x.step lib jobs k).at_ k = (next lib (jobs k) g (x.at_ k)).2 := (if_pos rfl).trans h1
      have := ih (x.step lib jobs k) (next lib (jobs k) g (x.at_ k)).1 h2
      rw [e] at this
      exact this
    · rw [List.count_cons_of_ne (fun e => hk (by simpa using e))]
      have e : (x.step lib jobs k).at_ i = x.at_ i := if_neg (Ne.symm hk)
      have hd := ha.1 k i hk
      have := ih (x.step lib jobs k) g ⟨by
          rw [← h.1]
          exact next_files lib (jobs k) x.files _ _ (fun e => ha.2 k (congrArg Loc.dir e).symm), by
          rw [← h.2]
          exact next_files lib (jobs k) x.files _ _ (fun e => hd (congrArg Loc.dir e).symm)⟩
      rw [e] at this
      exact this

/-- Whatever the order in which jobs in their own directories make their steps, each of them is at any time where it would be had it
made its steps alone, with the same ini file. -/
theorem at_same_time (lib : Lib K) (jobs : Nat → Job K) (ha : Apart lib jobs) (x : Sys K) (sched : List Nat) (i : Nat) :
    (x.run lib jobs sched).at_ i = (alone lib (jobs i) (sched.count i) (x.files, x.at_ i)).2 ∧
    (x.run lib jobs sched).files (jobs i).ini = (alone lib (jobs i) (sched.count i) (x.files, x.at_ i)).1 (jobs i).ini :=
  ⟨(run_same lib jobs ha i sched x x.files ⟨rfl, rfl⟩).1, (run_same lib jobs ha i sched x x.files ⟨rfl, rfl⟩).2.2⟩

/-- Files other than the ini files of the jobs, the reference files among them, are never changed. -/
theorem other_files (lib : Lib K) (jobs : Nat → Job K) (l : Loc) (h : ∀ i, l ≠ (jobs i).ini) (x : Sys K) (sched : List Nat) :
    (x.run lib jobs sched).files l = x.files l := by
  induction sched generalizing x with
  | nil => rfl
  | cons k sched ih =>
    change ((x.step lib jobs k).run lib jobs sched).files l = _
    rw [ih]
    exact next_files lib (jobs k) x.files _ l (h k)

theorem references_kept (lib : Lib K) (jobs : Nat → Job K) (ha : Apart lib jobs) (x : Sys K) (sched : List Nat) (n : Str) :
    (x.run lib jobs sched).files ⟨lib.config, n⟩ = x.files ⟨lib.config, n⟩ :=
  other_files lib jobs ⟨lib.config, n⟩ (fun i e => ha.2 i (congrArg Loc.dir e).symm) x sched

theorem solve_result (lib : Lib K) (j : Job K) (rounds : Nat) (f g : Files) (h : f (j.ref lib) = g (j.ref lib)) :
    (solve lib rounds j.pars f (j.solver lib)).2 = (solve lib rounds j.pars g (j.solver lib)).2 := by
  unfold solve Job.solver
  dsimp only
  cases basis lib j.pars with
  | error e => rfl
  | ok b =>
    dsimp only
    rw [h]
    cases g (j.ref lib) with
    | none => rfl
    | some t =>
      dsimp only
      cases (finetune lib rounds j.pars (updatedIni t b)).2 with
      | some e => rfl
      | none =>
        dsimp only
        cases cambRun lib j.s (finetune lib rounds j.pars (updatedIni t b)).1
          { kind := .camb j.s (j.ref lib) j.ini, pars := 0, z := j.z } <;> rfl

/-- All jobs of a run: started at any time after any steps of the others, stopped at any step, together with whatever their stopped
predecessors have left, and given enough steps, each ends with the results, or the exception, that its computation at once with the
reference files of the beginning gives. -/
theorem ends_as_alone (lib : Lib K) (jobs : Nat → Job K) (ha : Apart lib jobs) (rounds : Nat) (x : Sys K) (before : List Nat) (i : Nat)
    (h : (solve lib rounds (jobs i).pars x.files ((jobs i).solver lib)).2.2 ≠ some .running) :
    ∃ n, ∀ (restart : Nat → Prop) [DecidablePred restart] (sched : List Nat), restart i → n ≤ sched.count i →
      let y := x.run lib jobs before
      ((⟨y.files, fun k => if restart k then .start else y.at_ k⟩ : Sys K).run lib jobs sched).at_ i =
        match (solve lib rounds (jobs i).pars x.files ((jobs i).solver lib)).2.2 with
        | none => .done (solve lib rounds (jobs i).pars x.files ((jobs i).solver lib)).2.1
        | some e => .failed e := by
  have hr : (x.run lib jobs before).files ((jobs i).ref lib) = x.files ((jobs i).ref lib) := references_kept lib jobs ha x before _
  have hs := solve_result lib (jobs i) rounds _ _ hr
  obtain ⟨n, hn⟩ := alone_ends lib (jobs i) rounds (x.run lib jobs before).files (by rw [hs]; exact h)
  refine ⟨n, fun restart _ sched hi hc => ?_⟩
  dsimp only
  rw [(at_same_time lib jobs ha _ sched i).1]
  dsimp only
  rw [if_pos hi, hn _ hc, hs]

/-! ### The same as the computation of an object -/

/-- The spectra with which a job ends are those which the computation of an object with its configuration and parameters gives. -/
theorem job_spectra (lib : Lib K) (j : Job K) (rounds : Nat) (w : World K) (i c : Nat) (o : Obj K) (ho : w.objs i = some o)
    (hc : o.code = "CAMB".toList) (hg : o.cfg = some c) (hs : (w.cfgs c).camb = some (j.s, j.name)) (hz : (w.cfgs c).zGrid = j.z)
    (hp : w.pars o.pars = j.pars) (hok : (evaluate lib rounds w i j.dir).2 = none) :
    ∃ n o' v, (∀ m, n ≤ m → (alone lib j m (w.files, .start)).2 = .done v) ∧
      (evaluate lib rounds w i j.dir).1.objs i = some o' ∧ o'.spec = results v := by
  obtain ⟨o', h1, h2⟩ : ∃ o', (evaluate lib rounds w i j.dir).1.objs i = some o' ∧
      (solve lib rounds j.pars w.files (j.solver lib)).2.2 = none ∧
      o'.spec = results (solve lib rounds j.pars w.files (j.solver lib)).2.1 := by
    have hm : makeSolver lib w o j.dir = some (.ok ⟨.camb j.s (j.ref lib) j.ini, o.pars, j.z, none, none, none, none⟩) := by
      unfold makeSolver
      rw [if_pos hc, hg]
      dsimp only
      rw [hs, hz]
      rfl
    obtain ⟨a1, a2⟩ := solve_alike lib rounds j.pars w.files w.files ⟨.camb j.s (j.ref lib) j.ini, o.pars, j.z, none, none, none, none⟩
      (j.solver lib) ⟨rfl, rfl, rfl, rfl, rfl, .inr ⟨j.s, _, _, _, _, rfl, rfl, rfl⟩⟩
    have he : evaluate lib rounds w i j.dir =
        evaluateWith lib rounds w i o ⟨.camb j.s (j.ref lib) j.ini, o.pars, j.z, none, none, none, none⟩ := by
      unfold evaluate
      rw [ho]
      dsimp only
      rw [hm]
    rw [he] at hok ⊢
    have hok : (solve lib rounds (w.pars o.pars) w.files ⟨.camb j.s (j.ref lib) j.ini, o.pars, j.z, none, none, none, none⟩).2.2 = none :=
      hok
    rw [hp] at hok
    refine ⟨_, setObj_same _ _ _, a1.symm.trans hok, ?_⟩
    dsimp only
    rw [hp, if_pos hok]
    exact a2
  obtain ⟨n, hn⟩ := alone_ends lib j rounds w.files (by rw [h2.1]; nofun)
  refine ⟨n, o', _, fun m hm => ?_, h1, h2.2⟩
  rw [hn m hm, h2.1]

/-! ### What does not hold -/

/-- Jobs for a library where σ₈ is 1 for the amplitude 1 and 2 for the amplitude 4. -/
def exJob (s8 : ℚ) (dir : Str) : Job ℚ := ⟨parNames.map fun n => (n, s8), ⟨5, 10⟩, "p".toList, [dir], [0]⟩

/-- Two jobs in the same directory, with σ₈ 1 and 2. -/
def exShared (i : Nat) : Job ℚ := exJob (if i = 0 then 1 else 2) "run".toList

/-- False: that jobs which run at the same time never disturb each other. In the same directory the one which has tuned its amplitude first
computes its spectra with the ini file of the other. -/
theorem same_directory_mixes :
    (match (Sys.run exLib' exShared ⟨exWorld'.files, fun _ => .start⟩ (List.replicate 23 0 ++ List.replicate 40 1 ++ [0, 0])).at_ 0 with
      | .done v => v.lin
      | _ => none) = some [[4]] ∧
    (match (alone exLib' (exShared 0) 40 (exWorld'.files, .start)).2 with
      | .done v => v.lin
      | _ => none) = some [[1]] := by
  decide +kernel

/-- False: that a job which was stopped can always be repeated. In the directory of the configurations it leaves a reference file
without an amplitude. -/
theorem stopped_in_config :
    (match (alone exLib' (exJob 1 "config".toList) 40 ((alone exLib' (exJob 1 "config".toList) 1 (exWorld'.files, .start)).1, .start)).2 with
      | .failed e => some e
      | _ => none) = some .keyError ∧
    (match (alone exLib' (exJob 1 "config".toList) 40 (exWorld'.files, .start)).2 with
      | .done v => v.lin
      | _ => none) = some [[1]] := by
  decide +kernel

/-! ### Examples -/

/-- Jobs with directories of their own. -/
def exApart (i : Nat) : Job ℚ := exJob (if i = 0 then 1 else 2) (List.replicate i 'a')

theorem exApart_apart : Apart exLib' exApart := by
  refine ⟨fun i k h e => h ?_, fun i e => ?_⟩
  · have e : List.replicate i 'a' = List.replicate k 'a' := (List.cons.inj e).1
    simpa using congrArg List.length e
  · have e : List.replicate i 'a' = "config".toList := (List.cons.inj e).1
    have := List.mem_replicate.mp (e ▸ (by decide : 'c' ∈ "config".toList) : 'c' ∈ List.replicate i 'a')
    exact absurd this.2 (by decide)

/-- The first of two jobs ends with its own spectra, whatever the schedule, also when both had been stopped after any steps. -/
example (before : List Nat) : ∃ n, ∀ sched : List Nat, n ≤ sched.count 0 →
    ∃ v, ((⟨(Sys.run exLib' exApart ⟨exWorld'.files, fun _ => .start⟩ before).files, fun _ => .start⟩ : Sys ℚ).run exLib' exApart sched).at_ 0 =
      .done v ∧ v.lin = some [[1]] := by
  have h : (solve exLib' 3 (exApart 0).pars exWorld'.files ((exApart 0).solver exLib')).2.2 = none := by decide +kernel
  have hl : (solve exLib' 3 (exApart 0).pars exWorld'.files ((exApart 0).solver exLib')).2.1.lin = some [[1]] := by decide +kernel
  obtain ⟨n, hn⟩ := ends_as_alone exLib' exApart exApart_apart 3 ⟨exWorld'.files, fun _ => .start⟩ before 0 (by
    rw [h]
    nofun)
  refine ⟨n, fun sched hc => ⟨_, ?_, hl⟩⟩
  have := hn (fun _ => True) sched trivial hc
  dsimp only at this
  rw [h] at this
  simpa using this

/-- The job of an object. -/
example : ∃ n v, (∀ m, n ≤ m → (alone exLib' (exJob 1 "run".toList) m (exWorld'.files, .start)).2 = .done v) ∧
    (results v).lin = some [[1]] := by
  have hok : (evaluate exLib' 3 (PowerEval.step exLib' exWorld' (.new 0 (some 0) 0)).1 0 ["run".toList]).2 = none := by decide +kernel
  obtain ⟨n, o', v, h1, h2, h3⟩ := job_spectra exLib' (exJob 1 "run".toList) 3 (PowerEval.step exLib' exWorld' (.new 0 (some 0) 0)).1 0 0
    (create exWorld' (some 0) 0) (setObj_same _ _ _) rfl rfl rfl rfl rfl hok
  refine ⟨n, v, h1, ?_⟩
  have : ((evaluate exLib' 3 (PowerEval.step exLib' exWorld' (.new 0 (some 0) 0)).1 0 ["run".toList]).1.objs 0).map (fun o => o.spec.lin) =
      some (some [[1]]) := by decide +kernel
  have h2 : (evaluate exLib' 3 (PowerEval.step exLib' exWorld' (.new 0 (some 0) 0)).1 0 ["run".toList]).1.objs 0 = some o' := h2
  rw [h2] at this
  rw [← h3]
  exact Option.some.inj this

end Seyfert.PowerJobs
