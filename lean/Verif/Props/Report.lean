import Verif.Model.Report
import Verif.Props.Submit
import Mathlib.Data.List.Perm.Basic

/-!
C102: the states that a report gives to jobs, tasks and runs. C103: times, numbers and hosts in a report.
-/

set_option linter.unusedSectionVars false

namespace Seyfert.Report

open Names (spanChars DateTime)
open Batch (isSpace)
open Submit (search mkDate durationField isLetter logDate seconds logNames)

/-! ### One job -/

/-- The log of errors, the log of output and the result, as the report looks for them. -/
def IsErr (f : File) : Prop := ∃ m, f.name = "job".toList ++ m ++ ".err".toList
def IsOut (f : File) : Prop := ∃ m, f.name = "job".toList ++ m ++ ".out".toList
def IsResult (suf : Str) (f : File) : Prop := ∃ m, f.name = m ++ suf

theorem findFile_none {files : List File} {pre suf : Str} :
    findFile files pre suf = none ↔ ∀ f ∈ files, ¬ ∃ m, f.name = pre ++ m ++ suf := by
  unfold findFile
  rw [List.find?_eq_none]
  constructor
  · intro h f hf hm
    exact h f hf ((Compare.glob_iff _ _ _).mpr hm)
  · intro h f hf hm
    exact h f hf ((Compare.glob_iff _ _ _).mp hm)

theorem findFile_some {files : List File} {pre suf : Str} {f : File} (h : findFile files pre suf = some f) :
    f ∈ files ∧ ∃ m, f.name = pre ++ m ++ suf := by
  unfold findFile at h
  exact ⟨List.mem_of_find?_eq_some h, (Compare.glob_iff _ _ _).mp (List.find?_some (p := fun g : File => Compare.globMatch pre suf g.name) h)⟩

/-- At most one file of a kind. -/
def AtMostOne (p : File → Prop) (files : List File) : Prop := ∀ f ∈ files, ∀ g ∈ files, p f → p g → f = g

/-- The state of a job, for a directory with at most one log of errors. -/
def StatusSpec (suf : Str) (files : List File) : Status → Prop
  | .failure => ∃ f ∈ files, IsErr f ∧ f.text ≠ []
  | .success => (∃ f ∈ files, IsErr f ∧ f.text = []) ∧ ∃ f ∈ files, IsResult suf f
  | .notExecuted => (∀ f ∈ files, ¬ IsErr f) ∧ ∀ f ∈ files, ¬ IsOut f
  | .undefined => ((∀ f ∈ files, ¬ IsErr f) ∧ ∃ f ∈ files, IsOut f) ∨
      ((∃ f ∈ files, IsErr f ∧ f.text = []) ∧ ∀ f ∈ files, ¬ IsResult suf f)
  | .notCompleted => False

theorem jobReport_status {suf name : Str} {files : List File} {j : Job} (h : jobReport suf name files = .ok j) :
    (j.status, j.coreDumped, j.size) = jobStatus files (findFile files "job".toList ".err".toList)
      (findFile files "job".toList ".out".toList) (findFile files [] suf) ∧
    j.errText = (findFile files "job".toList ".err".toList).map (·.text) ∧ j.name = name := by
  unfold jobReport at h
  cases ho : findFile files "job".toList ".out".toList with
  | none =>
    rw [ho] at h
    simp only at h
    cases h
    exact ⟨rfl, rfl, rfl⟩
  | some o =>
    rw [ho] at h
    simp only at h
    cases he : executionTime o.text with
    | error e => rw [he] at h; cases h
    | ok s =>
      rw [he] at h
      simp only at h
      cases h
      exact ⟨rfl, rfl, rfl⟩

theorem findFile_result {files : List File} {suf : Str} :
    findFile files [] suf = none ↔ ∀ f ∈ files, ¬ IsResult suf f := by
  rw [findFile_none]
  unfold IsResult
  simp only [List.nil_append]

/-- The state of a job says what its logs and its results say. -/
theorem job_status_partial {suf name : Str} {files : List File} {j : Job} (h : jobReport suf name files = .ok j)
    (h1 : AtMostOne IsErr files) (st : Status) : j.status = st ↔ StatusSpec suf files st := by
  have hs := (Prod.mk.inj (jobReport_status h).1).1
  -- exactly one of the specifications holds
  have ex : ∀ a b, StatusSpec suf files a → StatusSpec suf files b → a = b := by
    intro a b ha hb
    have noerr : (∀ f ∈ files, ¬ IsErr f) → ∀ t : Str → Prop, ¬ ∃ f ∈ files, IsErr f ∧ t f.text :=
      fun hn t ⟨f, hf, he, _⟩ => hn f hf he
    have one : (∃ f ∈ files, IsErr f ∧ f.text ≠ []) → ¬ ∃ f ∈ files, IsErr f ∧ f.text = [] := by
      rintro ⟨f, hf, he, ht⟩ ⟨g, hg, hge, hgt⟩
      exact ht (by rw [h1 f hf g hg he hge]; exact hgt)
    have noout : (∀ f ∈ files, ¬ IsOut f) → ¬ ∃ f ∈ files, IsOut f := fun hn ⟨f, hf, ho⟩ => hn f hf ho
    have nores : (∀ f ∈ files, ¬ IsResult suf f) → ¬ ∃ f ∈ files, IsResult suf f := fun hn ⟨f, hf, ho⟩ => hn f hf ho
    cases a <;> cases b <;> first
      | rfl
      | exact absurd ha id
      | exact absurd hb id
      | skip
    all_goals simp only [StatusSpec] at ha hb
    · exact absurd ha.1 (one hb)
    · rcases hb with hb | hb
      · exact absurd ha.1 (noerr hb.1 (· = []))
      · exact absurd ha.2 (nores hb.2)
    · exact absurd ha.1 (noerr hb.1 (· = []))
    · exact absurd hb.1 (one ha)
    · rcases hb with hb | hb
      · exact absurd ha (noerr hb.1 (· ≠ []))
      · exact absurd hb.1 (one ha)
    · exact absurd ha (noerr hb.1 (· ≠ []))
    · rcases ha with ha | ha
      · exact absurd hb.1 (noerr ha.1 (· = []))
      · exact absurd hb.2 (nores ha.2)
    · rcases ha with ha | ha
      · exact absurd hb (noerr ha.1 (· ≠ []))
      · exact absurd ha.1 (one hb)
    · rcases ha with ha | ha
      · exact absurd ha.2 (noout hb.2)
      · exact absurd ha.1 (noerr hb.1 (· = []))
    · exact absurd hb.1 (noerr ha.1 (· = []))
    · exact absurd hb (noerr ha.1 (· ≠ []))
    · rcases hb with hb | hb
      · exact absurd hb.2 (noout ha.2)
      · exact absurd hb.1 (noerr ha.1 (· = []))
  have spec : StatusSpec suf files j.status := by
    rw [hs]
    cases he : findFile files "job".toList ".err".toList with
    | none =>
      have hn := findFile_none.mp he
      cases ho : findFile files "job".toList ".out".toList with
      | none => exact ⟨hn, findFile_none.mp ho⟩
      | some o =>
        obtain ⟨a, b⟩ := findFile_some ho
        exact Or.inl ⟨hn, o, a, b⟩
    | some e =>
      obtain ⟨a, b⟩ := findFile_some he
      simp only
      by_cases ht : 0 < e.text.length
      · rw [if_pos ht]
        exact ⟨e, a, b, List.length_pos_iff.mp ht⟩
      · rw [if_neg ht]
        have ht : e.text = [] := List.length_eq_zero_iff.mp (by omega)
        cases hr : findFile files [] suf with
        | none => exact Or.inr ⟨⟨e, a, b, ht⟩, findFile_result.mp hr⟩
        | some r =>
          obtain ⟨c, d⟩ := findFile_some hr
          exact ⟨⟨e, a, b, ht⟩, r, c, by simpa [IsResult] using d⟩
  constructor
  · rintro rfl; exact spec
  · exact fun hst => ex _ _ spec hst

/-- A job directory after a failed run and a second one without errors. -/
def exTwice : List File := [⟨"job_a.err".toList, [], 0⟩, ⟨"job_b.err".toList, "Traceback".toList, 9⟩, ⟨"p_mm.h5".toList, [], 5⟩]

/-- With two logs of errors, the state depends on the order in which the file system lists the directory. -/
theorem job_status_order_false : ∃ a b : List File, a.Perm b ∧
    (∃ j, jobReport ".h5".toList [] a = .ok j ∧ j.status = .success) ∧
    ∃ j, jobReport ".h5".toList [] b = .ok j ∧ j.status = .failure := by
  refine ⟨exTwice, [⟨"job_b.err".toList, "Traceback".toList, 9⟩, ⟨"job_a.err".toList, [], 0⟩, ⟨"p_mm.h5".toList, [], 5⟩],
    List.Perm.swap _ _ _, ⟨⟨[], .success, false, 5, 0, none, [], some []⟩, by decide +kernel, rfl⟩,
    ⟨⟨[], .failure, false, 0, 0, none, [], some "Traceback".toList⟩, by decide +kernel, rfl⟩⟩

/-- The logs of jobs that the program submits are not found by the report: such a job is reported as not executed, whatever its
logs and results are. The directory may hold the logs of any submissions, scripts, and files that do not start with `j`. -/
theorem submitted_not_seen (suf name : Str) (files : List File)
    (h : ∀ f ∈ files, (∃ add t s, f.name = (logNames add t s).1 ∨ f.name = (logNames add t s).2) ∨
      (∃ m, f.name = m ++ ".sh".toList) ∨ f.name.head? ≠ some 'j') :
    jobReport suf name files = .ok ⟨name, .notExecuted, false, 0, 0, none, [], none⟩ := by
  have key : ∀ (e : Str) (l : Char), e.getLast? = some l → l ≠ 'h' → findFile files "job".toList e = none := by
    intro e l hl hne
    rw [findFile_none]
    rintro f hf ⟨m, hm⟩
    have hj : f.name.head? = some 'j' := by rw [hm]; rfl
    rcases h f hf with ⟨add, t, s, h | h⟩ | ⟨k, hk⟩ | h
    · rw [h] at hj
      cases add
      · exact absurd hj (by show ¬ (some 'o' = some 'j'); decide)
      · exact absurd hj (by show ¬ (some 'o' = some 'j'); decide)
    · rw [h] at hj
      cases add
      · exact absurd hj (by show ¬ (some 'e' = some 'j'); decide)
      · exact absurd hj (by show ¬ (some 'e' = some 'j'); decide)
    · have h1 : f.name.getLast? = some 'h' := by
        rw [hk, List.getLast?_append, show ".sh".toList.getLast? = some 'h' from rfl, Option.some_or]
      rw [hm, List.getLast?_append, hl, Option.some_or] at h1
      exact hne (Option.some.inj h1)
    · exact h hj
  have e1 := key ".err".toList 'r' rfl (by decide)
  have e2 := key ".out".toList 't' rfl (by decide)
  unfold jobReport
  rw [e1, e2]
  rfl

/-- Core dumps and sizes are reported for the jobs they belong to. -/
theorem core_and_size {suf name : Str} {files : List File} {j : Job} (h : jobReport suf name files = .ok j) :
    (j.coreDumped = true → j.status = .failure) ∧ (j.size ≠ 0 → j.status = .success) ∧
    (j.status = .failure → (j.coreDumped = true ↔
      (∃ e, j.errText = some e ∧ (search matchCore e).isSome = true) ∨ ∃ f ∈ files, isCoreFile f.name = true)) ∧
    (j.status = .success → ∃ f ∈ files, IsResult suf f ∧ j.size = f.size) := by
  obtain ⟨hs, ht, -⟩ := jobReport_status h
  have e1 : j.status = _ := (Prod.mk.inj hs).1
  have e2 : j.coreDumped = _ := (Prod.mk.inj (Prod.mk.inj hs).2).1
  have e3 : j.size = _ := (Prod.mk.inj (Prod.mk.inj hs).2).2
  clear hs h
  cases he : findFile files "job".toList ".err".toList with
  | none =>
    rw [he] at e1 e2 e3
    simp only at e1 e2 e3
    cases ho : findFile files "job".toList ".out".toList with
    | none =>
      rw [ho] at e1 e2 e3
      rw [e1, e2, e3]
      exact ⟨nofun, fun h => absurd rfl h, nofun, nofun⟩
    | some o =>
      rw [ho] at e1 e2 e3
      rw [e1, e2, e3]
      exact ⟨nofun, fun h => absurd rfl h, nofun, nofun⟩
  | some e =>
    rw [he] at e1 e2 e3 ht
    simp only at e1 e2 e3
    by_cases hl : 0 < e.text.length
    · rw [if_pos hl] at e1 e2 e3
      rw [e1, e2, e3]
      refine ⟨fun _ => rfl, fun h => absurd rfl h, fun _ => ?_, nofun⟩
      rw [Bool.or_eq_true, List.any_eq_true, ht]
      constructor
      · rintro (h | h)
        · exact Or.inl ⟨e.text, rfl, h⟩
        · exact Or.inr h
      · rintro (⟨x, hx, h⟩ | h)
        · have hx : e.text = x := Option.some.inj hx
          rw [← hx] at h
          exact Or.inl h
        · exact Or.inr h
    · rw [if_neg hl] at e1 e2 e3
      cases hr : findFile files [] suf with
      | none =>
        rw [hr] at e1 e2 e3
        rw [e1, e2, e3]
        exact ⟨nofun, fun h => absurd rfl h, nofun, nofun⟩
      | some r =>
        rw [hr] at e1 e2 e3
        obtain ⟨c, d⟩ := findFile_some hr
        rw [e1, e2, e3]
        exact ⟨nofun, fun _ => rfl, nofun,
          fun _ => ⟨r, c, by simpa [IsResult] using d, rfl⟩⟩

/-! ### Tasks -/

theorem count_zero {st : Status} {js : List Job} : countJobs st js = 0 ↔ ∀ j ∈ js, j.status ≠ st := by
  unfold countJobs
  rw [List.length_eq_zero_iff, List.filter_eq_nil_iff]
  simp only [decide_eq_true_eq]

theorem count_all {st : Status} {js : List Job} : countJobs st js = js.length ↔ ∀ j ∈ js, j.status = st := by
  unfold countJobs
  rw [List.length_filter_eq_length_iff]
  simp only [decide_eq_true_eq]

/-- The state of a task with at least one job. -/
def TaskSpec (js : List Job) : Status → Prop
  | .failure => ∃ j ∈ js, j.status = .failure
  | .success => ∀ j ∈ js, j.status = .success
  | .notExecuted => ∀ j ∈ js, j.status = .notExecuted
  | .notCompleted => (∀ j ∈ js, j.status = .success ∨ j.status = .notExecuted) ∧ (∃ j ∈ js, j.status = .success) ∧
      ∃ j ∈ js, j.status = .notExecuted
  | .undefined => (∀ j ∈ js, j.status ≠ .failure) ∧ ∃ j ∈ js, j.status ≠ .success ∧ j.status ≠ .notExecuted

theorem task_status {js : List Job} (hne : js ≠ []) (st : Status) : taskStatus js = st ↔ TaskSpec js st := by
  obtain ⟨j0, hj0⟩ := List.exists_mem_of_ne_nil js hne
  unfold taskStatus
  by_cases hf : 0 < countJobs .failure js
  · rw [if_pos hf]
    have hex : ∃ j ∈ js, j.status = .failure := by
      by_contra hc
      have := count_zero (st := .failure) (js := js) |>.mpr fun j hj hs => hc ⟨j, hj, hs⟩
      omega
    obtain ⟨j, hj, hs⟩ := hex
    constructor
    · rintro rfl; exact ⟨j, hj, hs⟩
    · intro h
      cases st with
      | failure => rfl
      | success => exact absurd ((h j hj).symm.trans hs) (by decide)
      | notExecuted => exact absurd ((h j hj).symm.trans hs) (by decide)
      | notCompleted =>
        rcases h.1 j hj with h | h
        · exact absurd (h.symm.trans hs) (by decide)
        · exact absurd (h.symm.trans hs) (by decide)
      | undefined => exact absurd hs (h.1 j hj)
  · rw [if_neg hf]
    have hno := count_zero.mp (by omega : countJobs .failure js = 0)
    by_cases h1 : countJobs .success js = js.length
    · rw [if_pos h1]
      have ha := count_all.mp h1
      constructor
      · rintro rfl; exact ha
      · intro h
        cases st with
        | success => rfl
        | failure => obtain ⟨j, hj, hs⟩ := h; exact absurd hs (hno j hj)
        | notExecuted => exact absurd ((h j0 hj0).symm.trans (ha j0 hj0)) (by decide)
        | notCompleted => obtain ⟨j, hj, hs⟩ := h.2.2; exact absurd (hs.symm.trans (ha j hj)) (by decide)
        | undefined => obtain ⟨j, hj, hs, -⟩ := h.2; exact absurd (ha j hj) hs
    · rw [if_neg h1]
      have hns : ¬ ∀ j ∈ js, j.status = .success := fun h => h1 (count_all.mpr h)
      by_cases h2 : countJobs .notExecuted js = js.length
      · rw [if_pos h2]
        have ha := count_all.mp h2
        constructor
        · rintro rfl; exact ha
        · intro h
          cases st with
          | notExecuted => rfl
          | success => exact absurd h hns
          | failure => obtain ⟨j, hj, hs⟩ := h; exact absurd hs (hno j hj)
          | notCompleted => obtain ⟨j, hj, hs⟩ := h.2.1; exact absurd (hs.symm.trans (ha j hj)) (by decide)
          | undefined => obtain ⟨j, hj, -, hs⟩ := h.2; exact absurd (ha j hj) hs
      · rw [if_neg h2]
        have hnn : ¬ ∀ j ∈ js, j.status = .notExecuted := fun h => h2 (count_all.mpr h)
        have hall : js.all (fun j => decide (j.status = .success ∨ j.status = .notExecuted)) = true ↔
            ∀ j ∈ js, j.status = .success ∨ j.status = .notExecuted := by
          rw [List.all_eq_true]
          simp only [decide_eq_true_eq]
        by_cases h3 : ∀ j ∈ js, j.status = .success ∨ j.status = .notExecuted
        · rw [if_pos (hall.mpr h3)]
          have x1 : ∃ j ∈ js, j.status = .success := by
            by_contra hc
            exact hnn fun j hj => (h3 j hj).resolve_left fun h => hc ⟨j, hj, h⟩
          have x2 : ∃ j ∈ js, j.status = .notExecuted := by
            by_contra hc
            exact hns fun j hj => (h3 j hj).resolve_right fun h => hc ⟨j, hj, h⟩
          constructor
          · rintro rfl; exact ⟨h3, x1, x2⟩
          · intro h
            cases st with
            | notCompleted => rfl
            | success => exact absurd h hns
            | notExecuted => exact absurd h hnn
            | failure => obtain ⟨j, hj, hs⟩ := h; exact absurd hs (hno j hj)
            | undefined =>
              obtain ⟨j, hj, a, b⟩ := h.2
              rcases h3 j hj with h | h
              · exact absurd h a
              · exact absurd h b
        · rw [if_neg (fun h => h3 (hall.mp h))]
          have x : ∃ j ∈ js, j.status ≠ .success ∧ j.status ≠ .notExecuted := by
            by_contra hc
            refine h3 fun j hj => ?_
            by_contra hd
            exact hc ⟨j, hj, fun h => hd (Or.inl h), fun h => hd (Or.inr h)⟩
          constructor
          · rintro rfl; exact ⟨hno, x⟩
          · intro h
            cases st with
            | undefined => rfl
            | success => exact absurd h hns
            | notExecuted => exact absurd h hnn
            | failure => obtain ⟨j, hj, hs⟩ := h; exact absurd hs (hno j hj)
            | notCompleted => exact absurd h.1 h3

theorem sortJobs_perm (js : List Job) : (sortJobs js).Perm js := by
  unfold sortJobs
  split
  · exact List.perm_insertionSort _ _
  · exact List.Perm.refl _

theorem job_not_incomplete {suf name : Str} {files : List File} {j : Job} (h : jobReport suf name files = .ok j) :
    j.status ≠ .notCompleted := by
  have hs := (Prod.mk.inj (jobReport_status h).1).1
  rw [hs]
  split
  · split
    · exact nofun
    · exact nofun
  · split
    · exact nofun
    · split
      · exact nofun
      · exact nofun

theorem mapM_forall2 {α β : Type} {f : α → Except Err β} {l : List α} {r : List β} (h : l.mapM f = .ok r) :
    List.Forall₂ (fun a b => f a = .ok b) l r := by
  induction l generalizing r with
  | nil =>
    rw [List.mapM_nil] at h
    cases h
    exact .nil
  | cons a l ih =>
    rw [List.mapM_cons] at h
    cases ha : f a with
    | error e => rw [ha] at h; cases h
    | ok b =>
      rw [ha] at h
      cases hl : l.mapM f with
      | error e => rw [hl] at h; cases h
      | ok bs =>
        rw [hl] at h
        cases h
        exact .cons ha (ih hl)

theorem forall2_right {α β : Type} {R : α → β → Prop} {l : List α} {r : List β} (h : List.Forall₂ R l r) :
    ∀ b ∈ r, ∃ a ∈ l, R a b := by
  induction h with
  | nil => intro b hb; cases hb
  | cons hab _ ih =>
    intro b hb
    rcases List.mem_cons.mp hb with rfl | hb
    · exact ⟨_, List.mem_cons_self, hab⟩
    · obtain ⟨q, hq, e⟩ := ih b hb
      exact ⟨q, List.mem_cons_of_mem _ hq, e⟩

theorem forall2_map {α β γ : Type} {R : α → β → Prop} {f : β → γ} {g : α → γ} {l : List α} {r : List β}
    (h : List.Forall₂ R l r) (hfg : ∀ a b, R a b → f b = g a) : r.map f = l.map g := by
  induction h with
  | nil => rfl
  | cons hab _ ih => rw [List.map_cons, List.map_cons, ih, hfg _ _ hab]

theorem count_sum (js : List Job) (h : ∀ j ∈ js, j.status ≠ .notCompleted) :
    countJobs .failure js + countJobs .success js + countJobs .notExecuted js + countJobs .undefined js = js.length := by
  unfold countJobs
  induction js with
  | nil => rfl
  | cons j js ih =>
    have hi := ih fun k hk => h k (List.mem_cons_of_mem _ hk)
    have hj := h j List.mem_cons_self
    simp only [List.filter_cons]
    cases hs : j.status with
    | success => simp only [decide_true, if_true, List.length_cons]; simp; omega
    | failure => simp; omega
    | notExecuted => simp; omega
    | undefined => simp; omega
    | notCompleted => exact absurd hs hj

/-- The report of a task covers its job directories exactly once. The numbers of failed, successful, not executed and undefined
jobs are those of the jobs in these states and add up to all, and the state follows from the states of the jobs. -/
theorem task_report {w : WorkDir} {t : Task} (h : taskReport w = .ok t) :
    (t.jobs.map (·.name)).Perm (w.jobs.map (·.1)) ∧ t.jobs ≠ [] ∧
    t.nFailed + t.nSucceeded + t.nNotExecuted + t.nUndefined = w.jobs.length ∧
    t.nFailed = countJobs .failure t.jobs ∧ t.nSucceeded = countJobs .success t.jobs ∧
    t.nNotExecuted = countJobs .notExecuted t.jobs ∧ t.nUndefined = countJobs .undefined t.jobs ∧
    t.nCore ≤ t.nFailed ∧
    (∀ st, t.status = st ↔ TaskSpec t.jobs st) ∧
    (∀ j ∈ t.jobs, ∃ q ∈ w.jobs, jobReport (outputSuffix w.name) q.1 q.2 = .ok j) := by
  unfold taskReport at h
  cases hm : w.jobs.mapM fun q => jobReport (outputSuffix w.name) q.1 q.2 with
  | error e => rw [hm] at h; cases h
  | ok js =>
    rw [hm] at h
    simp only at h
    by_cases hn : js = []
    · rw [if_pos hn] at h; cases h
    · rw [if_neg hn] at h
      have ht := (Except.ok.inj h).symm
      have hf := mapM_forall2 hm
      have hp := sortJobs_perm js
      have hsn : sortJobs js ≠ [] := fun e => hn (by rw [e] at hp; exact hp.symm.eq_nil)
      have hall : ∀ j ∈ sortJobs js, ∃ q ∈ w.jobs, jobReport (outputSuffix w.name) q.1 q.2 = .ok j := by
        intro j hj
        exact forall2_right hf j (hp.mem_iff.mp hj)
      have hnames : js.map (·.name) = w.jobs.map (·.1) := forall2_map hf fun a b hab => (jobReport_status hab).2.2
      have hcount := count_sum (sortJobs js) fun j hj => by
        obtain ⟨q, -, e⟩ := hall j hj
        exact job_not_incomplete e
      subst ht
      refine ⟨?_, hsn, ?_, rfl, rfl, rfl, rfl, ?_, fun st => task_status hsn st, hall⟩
      · rw [← hnames]; exact hp.map _
      · rw [← List.length_map (as := w.jobs) (f := (·.1)), ← hnames, List.length_map, ← hp.length_eq]
        exact hcount
      · show ((sortJobs js).filter (·.coreDumped)).length ≤ ((sortJobs js).filter fun j => decide (j.status = .failure)).length
        rw [← List.countP_eq_length_filter, ← List.countP_eq_length_filter]
        apply List.countP_mono_left
        intro j hj hc
        obtain ⟨q, -, e⟩ := hall j hj
        exact decide_eq_true ((core_and_size e).1 hc)

/-- Sums over the jobs. -/
theorem task_sums {w : WorkDir} {t : Task} (h : taskReport w = .ok t) :
    t.meanTime * t.jobs.length = (t.jobs.map fun j => (j.seconds : ℚ)).sum ∧
    t.totalMB * 1000000 = (t.jobs.map fun j => (j.size : ℚ)).sum := by
  unfold taskReport at h
  cases hm : w.jobs.mapM fun q => jobReport (outputSuffix w.name) q.1 q.2 with
  | error e => rw [hm] at h; cases h
  | ok js =>
    rw [hm] at h
    simp only at h
    by_cases hn : js = []
    · rw [if_pos hn] at h; cases h
    · rw [if_neg hn] at h
      have ht := (Except.ok.inj h).symm
      have hp := sortJobs_perm js
      subst ht
      have hl : ((js.length : Nat) : ℚ) ≠ 0 := by
        rw [Ne, Nat.cast_eq_zero]
        exact fun e => hn (List.length_eq_zero_iff.mp e)
      constructor
      · show (js.map fun j => (j.seconds : ℚ)).sum / js.length * ((sortJobs js).length : ℚ) = _
        rw [hp.length_eq, div_mul_cancel₀ _ hl]
        exact (hp.map _).sum_eq.symm
      · show (js.map fun j => (j.size : ℚ) / 1000000).sum * 1000000 = _
        rw [((hp.map fun j : Job => (j.size : ℚ)).sum_eq)]
        clear hm h hp hl hn
        induction js with
        | nil => simp
        | cons j js ih =>
          rw [List.map_cons, List.sum_cons, add_mul, ih, List.map_cons, List.sum_cons]
          congr 1
          field_simp

/-- A task without job directories makes the whole report fail. -/
theorem task_empty (name : Str) (link : Bool) : taskReport ⟨name, link, []⟩ = .error .zeroDivision := rfl

/-! ### Runs -/

/-- The state of a run, from the states of the tasks in the report. -/
def RunSpec (ts : List Status) : Status → Prop
  | .success => ∀ s ∈ ts, s = .success
  | .failure => ∃ s ∈ ts, s = .failure
  | .notCompleted => (∀ s ∈ ts, s = .success ∨ s = .notExecuted) ∧ ∃ s ∈ ts, s = .notExecuted
  | .undefined => (∀ s ∈ ts, s ≠ .failure) ∧ ∃ s ∈ ts, s ≠ .success ∧ s ≠ .notExecuted
  | .notExecuted => False

theorem run_status (ts : List Status) (st : Status) : runStatus ts = st ↔ RunSpec ts st := by
  unfold runStatus
  have a1 : ts.all (fun s => decide (s = .success)) = true ↔ ∀ s ∈ ts, s = Status.success := by
    rw [List.all_eq_true]; simp only [decide_eq_true_eq]
  have a2 : ts.any (fun s => decide (s = .failure)) = true ↔ ∃ s ∈ ts, s = Status.failure := by
    rw [List.any_eq_true]; simp only [decide_eq_true_eq]
  have a3 : ts.all (fun s => decide (s = .success ∨ s = .notExecuted)) = true ↔
      ∀ s ∈ ts, s = Status.success ∨ s = Status.notExecuted := by
    rw [List.all_eq_true]; simp only [decide_eq_true_eq]
  by_cases h1 : ∀ s ∈ ts, s = Status.success
  · rw [if_pos (a1.mpr h1)]
    constructor
    · rintro rfl; exact h1
    · intro h
      cases st with
      | success => rfl
      | failure => obtain ⟨s, hs, e⟩ := h; exact absurd ((h1 s hs).symm.trans e) (by decide)
      | notCompleted => obtain ⟨s, hs, e⟩ := h.2; exact absurd ((h1 s hs).symm.trans e) (by decide)
      | undefined => obtain ⟨s, hs, e, -⟩ := h.2; exact absurd (h1 s hs) e
      | notExecuted => exact absurd h id
  · rw [if_neg (fun h => h1 (a1.mp h))]
    by_cases h2 : ∃ s ∈ ts, s = Status.failure
    · rw [if_pos (a2.mpr h2)]
      obtain ⟨s, hs, e⟩ := h2
      constructor
      · rintro rfl; exact ⟨s, hs, e⟩
      · intro h
        cases st with
        | success => exact absurd h h1
        | failure => rfl
        | notCompleted =>
          rcases h.1 s hs with h | h
          · exact absurd (h.symm.trans e) (by decide)
          · exact absurd (h.symm.trans e) (by decide)
        | undefined => exact absurd e (h.1 s hs)
        | notExecuted => exact absurd h id
    · rw [if_neg (fun h => h2 (a2.mp h))]
      by_cases h3 : ∀ s ∈ ts, s = Status.success ∨ s = Status.notExecuted
      · rw [if_pos (a3.mpr h3)]
        have x : ∃ s ∈ ts, s = Status.notExecuted := by
          by_contra hc
          exact h1 fun s hs => (h3 s hs).resolve_right fun h => hc ⟨s, hs, h⟩
        constructor
        · rintro rfl; exact ⟨h3, x⟩
        · intro h
          cases st with
          | success => exact absurd h h1
          | failure => exact absurd h h2
          | notCompleted => rfl
          | undefined =>
            obtain ⟨s, hs, a, b⟩ := h.2
            rcases h3 s hs with h | h
            · exact absurd h a
            · exact absurd h b
          | notExecuted => exact absurd h id
      · rw [if_neg (fun h => h3 (a3.mp h))]
        have x : ∃ s ∈ ts, s ≠ Status.success ∧ s ≠ Status.notExecuted := by
          by_contra hc
          refine h3 fun s hs => ?_
          by_contra hd
          exact hc ⟨s, hs, fun h => hd (Or.inl h), fun h => hd (Or.inr h)⟩
        constructor
        · rintro rfl; exact ⟨fun s hs e => h2 ⟨s, hs, e⟩, x⟩
        · intro h
          cases st with
          | success => exact absurd h h1
          | failure => exact absurd h h2
          | notCompleted => exact absurd h.1 h3
          | undefined => rfl
          | notExecuted => exact absurd h id

/-- The tasks of a report are the work directories that exist and are no links. -/
theorem run_report {dirs : List (Option WorkDir)} {st : Status} {ts : List Task} (h : runReport dirs = .ok (st, ts)) :
    List.Forall₂ (fun w t => taskReport w = .ok t) (dirs.filterMap fun w => w.filter fun w => !w.link) ts ∧
    (∀ s, st = s ↔ RunSpec (ts.map (·.status)) s) ∧ ∀ t ∈ ts, ∀ j ∈ t.jobs, reportable j = true := by
  unfold runReport at h
  cases hr : taskReports dirs with
  | error e => rw [hr] at h; cases h
  | ok ts' =>
    rw [hr] at h
    simp only at h
    by_cases hall : ts'.all (fun t => t.jobs.all reportable) = true
    · rw [if_pos hall] at h
      cases h
      refine ⟨mapM_forall2 hr, fun s => run_status _ s, fun t ht j hj => ?_⟩
      exact List.all_eq_true.mp (List.all_eq_true.mp hall t ht) j hj
    · rw [if_neg hall] at h; cases h

/-- A run of which nothing exists, or only links to other runs, is reported as a success. -/
theorem empty_run_success (dirs : List (Option WorkDir)) (h : ∀ w ∈ dirs, ∀ x, w = some x → x.link = true) :
    runReport dirs = .ok (.success, []) := by
  have e : (dirs.filterMap fun w => w.filter fun w => !w.link) = [] := by
    rw [List.filterMap_eq_nil_iff]
    intro w hw
    cases w with
    | none => rfl
    | some x =>
      have := h _ hw x rfl
      show (if (!x.link) = true then some x else none) = none
      rw [this]
      rfl
  unfold runReport taskReports
  rw [e]
  rfl

/-- A run in which a task has stopped half way, and nothing failed, is not called incomplete. -/
theorem half_done_undefined (ts : List Status) (h1 : ∀ s ∈ ts, s ≠ .failure) (h2 : Status.notCompleted ∈ ts) :
    runStatus ts = .undefined :=
  (run_status ts .undefined).mpr ⟨h1, .notCompleted, h2, by decide, by decide⟩

theorem mapM_error {α β : Type} {f : α → Except Err β} {a b : List α} {x : α} {e : Err} (ha : ∃ r, a.mapM f = .ok r)
    (hx : f x = .error e) : (a ++ x :: b).mapM f = .error e := by
  obtain ⟨r, hr⟩ := ha
  induction a generalizing r with
  | nil => rw [List.nil_append, List.mapM_cons, hx]; rfl
  | cons y a ih =>
    rw [List.mapM_cons] at hr
    rw [List.cons_append, List.mapM_cons]
    cases hy : f y with
    | error e => rw [hy] at hr; cases hr
    | ok z =>
      rw [hy] at hr
      cases hl : a.mapM f with
      | error e => rw [hl] at hr; cases hr
      | ok zs => rw [show (a ++ x :: b).mapM f = .error e from ih zs hl]; rfl

/-- One work directory without jobs, and no report is written. -/
theorem empty_task_fails (before after : List (Option WorkDir)) (name : Str)
    (h : ∃ ts, taskReports before = .ok ts) :
    runReport (before ++ some ⟨name, false, []⟩ :: after) = .error .zeroDivision := by
  unfold runReport taskReports
  rw [List.filterMap_append]
  show (match List.mapM taskReport (before.filterMap (fun w => w.filter fun w => !w.link) ++ ⟨name, false, []⟩ ::
    after.filterMap fun w => w.filter fun w => !w.link) with
    | .error e => Except.error e
    | .ok ts => if (ts.all fun t => t.jobs.all reportable) = true then .ok (runStatus (ts.map fun t : Task => t.status), ts)
      else .error .attributeError) = _
  rw [mapM_error h (task_empty name false)]

/-- A job with a log of output but none of errors makes the writing of the report fail. -/
theorem missing_err_fails (dirs : List (Option WorkDir)) (ts : List Task) (h : taskReports dirs = .ok ts)
    (hj : ∃ t ∈ ts, ∃ j ∈ t.jobs, j.status = .undefined ∧ j.errText = none) :
    runReport dirs = .error .attributeError := by
  obtain ⟨t, ht, j, hj, hs, he⟩ := hj
  unfold runReport
  rw [h]
  simp only
  apply if_neg
  intro hall
  have := List.all_eq_true.mp (List.all_eq_true.mp hall t ht) j hj
  unfold reportable at this
  rw [hs, he] at this
  exact absurd this (by decide)

/-! ### Times -/

theorem words_space {c : Char} (h : isSpace c = true) (s : Str) : words (c :: s) = words s := by
  cases s with
  | nil => simp [words, h]
  | cons d s => rw [words, if_pos h]

theorem words_word {w : Str} (hne : w ≠ []) (hw : ∀ c ∈ w, isSpace c = false) (s : Str)
    (hs : ∀ c ∈ s.head?, isSpace c = true) : words (w ++ s) = w :: words s := by
  induction w with
  | nil => exact absurd rfl hne
  | cons c w ih =>
    have hc := hw c List.mem_cons_self
    cases w with
    | nil =>
      cases s with
      | nil =>
        show words [c] = _
        simp [words, hc]
      | cons d s =>
        have hd := hs d rfl
        show words (c :: d :: s) = _
        rw [words, if_neg (by rw [hc]; decide), if_pos hd]
    | cons d w =>
      have hd := hw d (List.mem_cons_of_mem _ List.mem_cons_self)
      have hi := ih (by simp) fun x hx => hw x (List.mem_cons_of_mem _ hx)
      rw [List.cons_append] at hi
      show words (c :: d :: (w ++ s)) = _
      rw [words, if_neg (by rw [hc]; decide), if_neg (by rw [hd]; decide), hi]

def weekdays : List Str :=
  ["Mon".toList, "Tue".toList, "Wed".toList, "Thu".toList, "Fri".toList, "Sat".toList, "Sun".toList]

theorem letter_not_space {c : Char} (h : isLetter c = true) : isSpace c = false := by
  by_contra hs
  have hs : isSpace c = true := by simpa using hs
  unfold isLetter at h
  rw [Bool.or_eq_true] at h
  rcases h with h | h
  · rw [Batch.space_not_lower hs] at h; cases h
  · rw [Batch.space_not_upper hs] at h; cases h

theorem weekday_facts {wd : Str} (h : wd ∈ weekdays) : wd ≠ [] ∧ ∀ c ∈ wd, isLetter c = true := by
  have : ∀ w ∈ weekdays, w ≠ [] ∧ ∀ c ∈ w, isLetter c = true := by decide +kernel
  exact this wd h

theorem clock_chars (t : DateTime) : ∀ c ∈ padDec 2 t.hour ++ ':' :: (padDec 2 t.minute ++ ':' :: padDec 2 t.second),
    isDigit c = true ∨ c = ':' := by
  intro c hc
  rcases List.mem_append.mp hc with h | h
  · exact Or.inl (padDec_digits _ _ c h)
  rcases List.mem_cons.mp h with h | h
  · exact Or.inr h
  rcases List.mem_append.mp h with h | h
  · exact Or.inl (padDec_digits _ _ c h)
  rcases List.mem_cons.mp h with h | h
  · exact Or.inr h
  · exact Or.inl (padDec_digits _ _ c h)

/-- A date as the scheduler prints it is read back. -/
theorem readDate_spec {wd : Str} {t : DateTime} (hw : wd ∈ weekdays) (ht : t.valid = true) : readDate (logDate wd t) = some t := by
  have hv := ht
  unfold DateTime.valid at hv
  rw [decide_eq_true_eq] at hv
  obtain ⟨h1, h2, h3, h4, -⟩ := hv
  obtain ⟨w1, w2⟩ := weekday_facts hw
  obtain ⟨-, -, m3, m4⟩ := Submit.month_facts h3 h4
  have sp : ∀ (x : Char) (r : Str), isSpace x = true → ∀ c ∈ (x :: r).head?, isSpace c = true := by
    intro x r hx c hc
    cases hc
    exact hx
  have s0 : isSpace ' ' = true := by decide
  have dig : ∀ w n, ∀ c ∈ padDec w n, isSpace c = false := fun w n c hc => Batch.digit_not_space (padDec_digits _ _ c hc)
  have hwords : words (logDate wd t) = [wd, Submit.monthName t.month, decStr t.day,
      padDec 2 t.hour ++ ':' :: (padDec 2 t.minute ++ ':' :: padDec 2 t.second), padDec 4 t.year] := by
    unfold logDate
    rw [words_word w1 (fun c hc => letter_not_space (w2 c hc)) _ (sp _ _ s0), words_space s0,
      words_word (by intro e; rw [e] at m3; cases m3) (fun c hc => letter_not_space (m4 c hc)) _ (sp _ _ s0), words_space s0]
    have hd : ∀ r : Str, words (((if t.day < 10 then [' '] else []) ++ decStr t.day) ++ r) = words (decStr t.day ++ r) := by
      intro r
      by_cases hday : t.day < 10
      · rw [if_pos hday]
        exact words_space s0 _
      · rw [if_neg hday]
        rfl
    rw [hd, words_word (decStr_ne_nil _) (fun c hc => Batch.digit_not_space (decStr_digits _ c hc)) _ (sp _ _ s0), words_space s0,
      words_word (by simp) (fun c hc => ?_) _ (sp _ _ s0), words_space s0]
    · have := words_word (w := padDec 4 t.year) ?_ (dig _ _) [] (by intro c hc; cases hc)
      · rw [List.append_nil] at this
        rw [this]
        rfl
      · unfold padDec
        intro e
        exact decStr_ne_nil _ (List.append_eq_nil_iff.mp e).2
    · rcases clock_chars t c hc with h | rfl
      · exact Batch.digit_not_space h
      · decide
  unfold readDate
  rw [hwords]
  show (parseNat (decStr t.day)).bind _ = _
  rw [parseNat_decStr, Option.bind_some]
  exact Submit.mkDate_spec ht

theorem logDate_chars {wd : Str} {t : DateTime} (hw : wd ∈ weekdays) (ht : t.valid = true) :
    ∀ c ∈ logDate wd t, isLetter c = true ∨ isDigit c = true ∨ c = ' ' ∨ c = ':' := by
  have hv := ht
  unfold DateTime.valid at hv
  rw [decide_eq_true_eq] at hv
  obtain ⟨h1, h2, h3, h4, -⟩ := hv
  intro c hc
  unfold logDate at hc
  rcases List.mem_append.mp hc with h | h
  · exact Or.inl ((weekday_facts hw).2 c h)
  rcases List.mem_cons.mp h with h | h
  · exact Or.inr (Or.inr (Or.inl h))
  rcases List.mem_append.mp h with h | h
  · exact Or.inl ((Submit.month_facts h3 h4).2.2.2 c h)
  rcases List.mem_cons.mp h with h | h
  · exact Or.inr (Or.inr (Or.inl h))
  rcases List.mem_append.mp h with h | h
  · rcases List.mem_append.mp h with h | h
    · by_cases hday : t.day < 10
      · rw [if_pos hday] at h
        exact Or.inr (Or.inr (Or.inl (List.mem_singleton.mp h)))
      · rw [if_neg hday] at h; cases h
    · exact Or.inr (Or.inl (decStr_digits _ c h))
  rcases List.mem_cons.mp h with h | h
  · exact Or.inr (Or.inr (Or.inl h))
  rcases List.mem_append.mp h with h | h
  · rcases clock_chars t c h with h | h
    · exact Or.inr (Or.inl h)
    · exact Or.inr (Or.inr (Or.inr h))
  rcases List.mem_cons.mp h with h | h
  · exact Or.inr (Or.inr (Or.inl h))
  · exact Or.inr (Or.inl (padDec_digits _ _ c h))

theorem logDate_ne (wd : Str) (t : DateTime) : logDate wd t ≠ [] := by
  unfold logDate
  simp

theorem matchAfter_here (P : Str) {d : Str} (hne : d ≠ []) (hd : ∀ c ∈ d, isDateChar c = true) :
    matchAfter P (P ++ d) = some d := by
  unfold matchAfter
  rw [stripPrefix_append, Option.bind_some]
  have := Batch.span_all isDateChar d hd [] (by intro c hc; cases hc)
  rw [List.append_nil] at this
  rw [this]
  exact if_neg hne

theorem search_absent {P s : Str} (h : ¬ P <:+: s) : search (matchAfter P) s = none := by
  have key : ∀ s, ¬ P <+: s → matchAfter P s = none := by
    intro s hs
    unfold matchAfter
    cases he : stripPrefix P s with
    | none => rfl
    | some r => exact absurd ⟨r, ((stripPrefix_eq_some _ _ _).mp he).symm⟩ hs
  induction s with
  | nil => exact key [] fun hp => h hp.isInfix
  | cons c s ih =>
    rw [search, key _ fun hp => h hp.isInfix, ih fun hi => h (hi.trans (List.suffix_cons c s).isInfix)]
    rfl

/-- Two characters in sequence. -/
def hasPair (a b : Char) : Str → Bool
  | x :: y :: s => (x == a && y == b) || hasPair a b (y :: s)
  | _ => false

theorem hasPair_infix {a b : Char} {r s : Str} (h : (a :: b :: r) <:+: s) : hasPair a b s = true := by
  obtain ⟨u, v, rfl⟩ := h
  induction u with
  | nil => simp [hasPair]
  | cons x u ih =>
    cases hu : u ++ (a :: b :: r) ++ v with
    | nil => simp at hu
    | cons y l =>
      show hasPair a b (x :: (u ++ (a :: b :: r) ++ v)) = true
      rw [hu, hasPair, ← hu, ih, Bool.or_true]

theorem hasPair_append {a b c : Char} (hc : c ≠ b) (u s : Str) :
    hasPair a b (u ++ c :: s) = (hasPair a b u || hasPair a b (c :: s)) := by
  induction u with
  | nil => rfl
  | cons x u ih =>
    cases u with
    | nil =>
      show hasPair a b (x :: c :: s) = _
      rw [hasPair, show (c == b) = false from beq_false_of_ne hc, Bool.and_false]
      rfl
    | cons y u =>
      show hasPair a b (x :: y :: (u ++ c :: s)) = _
      rw [hasPair, hasPair, Bool.or_assoc, ← ih]
      rfl

theorem hasPair_absent {a b : Char} {s : Str} (h : a ∉ s) : hasPair a b s = false := by
  induction s with
  | nil => rfl
  | cons x s ih =>
    cases s with
    | nil => rfl
    | cons y s =>
      rw [hasPair, ih fun hm => h (List.mem_cons_of_mem _ hm), Bool.or_false,
        show (x == a) = false from beq_false_of_ne (by rintro rfl; exact h List.mem_cons_self)]
      rfl

def startPhrase : Str := "Started at ".toList
def stopPhrase : Str := "Results reported on ".toList

theorem stop_no_start {wd : Str} {t : DateTime} (hw : wd ∈ weekdays) (ht : t.valid = true) :
    ¬ startPhrase <:+: stopPhrase ++ logDate wd t := by
  intro h
  have hv := ht
  unfold DateTime.valid at hv
  rw [decide_eq_true_eq] at hv
  obtain ⟨h1, h2, h3, h4, -⟩ := hv
  have h := hasPair_infix (a := 'S') (b := 't') (r := "arted at ".toList) h
  have hm := (Submit.month_facts h3 h4).1
  have tab : ∀ w ∈ weekdays, ∀ m ∈ Submit.months, hasPair 'S' 't' (stopPhrase ++ (w ++ ' ' :: m)) = false := by decide +kernel
  have h3 := tab wd hw _ hm
  unfold logDate at h
  rw [show stopPhrase ++ (wd ++ ' ' :: (Submit.monthName t.month ++ ' ' :: (((if t.day < 10 then [' '] else []) ++
      decStr t.day) ++ ' ' :: (padDec 2 t.hour ++ ':' :: (padDec 2 t.minute ++ ':' :: padDec 2 t.second) ++
      ' ' :: padDec 4 t.year)))) = (stopPhrase ++ (wd ++ ' ' :: Submit.monthName t.month)) ++ ' ' ::
      (((if t.day < 10 then [' '] else []) ++ decStr t.day) ++ ' ' :: (padDec 2 t.hour ++ ':' :: (padDec 2 t.minute ++ ':' ::
      padDec 2 t.second) ++ ' ' :: padDec 4 t.year)) by simp only [List.append_assoc, List.cons_append],
    hasPair_append (by decide), h3, Bool.false_or, hasPair_absent] at h
  · cases h
  · intro hS
    have dS : isDigit 'S' = true → False := by decide
    rcases List.mem_cons.mp hS with h | h
    · exact absurd h (by decide)
    rcases List.mem_append.mp h with h | h
    · rcases List.mem_append.mp h with h | h
      · by_cases hday : t.day < 10
        · rw [if_pos hday] at h
          exact absurd (List.mem_singleton.mp h) (by decide)
        · rw [if_neg hday] at h; cases h
      · exact dS (decStr_digits _ _ h)
    rcases List.mem_cons.mp h with h | h
    · exact absurd h (by decide)
    rcases List.mem_append.mp h with h | h
    · rcases clock_chars t _ h with h | h
      · exact dS h
      · exact absurd h (by decide)
    rcases List.mem_cons.mp h with h | h
    · exact absurd h (by decide)
    · exact dS (padDec_digits _ _ _ h)

/-- The lines of the log of output of a job: start, end, or a line with neither phrase. -/
inductive LogLine
  | start (weekday : Str) (t : DateTime)
  | stop (weekday : Str) (t : DateTime)
  | other (text : Str)

def LogLine.good : LogLine → Prop
  | .start wd t => wd ∈ weekdays ∧ t.valid = true
  | .stop wd t => wd ∈ weekdays ∧ t.valid = true
  | .other s => '\n' ∉ s ∧ ¬ startPhrase <:+: s ∧ ¬ stopPhrase <:+: s

def LogLine.text : LogLine → Str
  | .start wd t => startPhrase ++ logDate wd t
  | .stop wd t => stopPhrase ++ logDate wd t
  | .other s => s

/-- The last start and the last end in a log. -/
def lastStart (l : List LogLine) : Option DateTime :=
  (l.filterMap fun x => match x with | .start _ t => some t | _ => none).getLast?

def lastStop (l : List LogLine) : Option DateTime :=
  (l.filterMap fun x => match x with | .stop _ t => some t | _ => none).getLast?

theorem getLast_cons {α : Type} (a : α) (l : List α) (o : Option α) : (a :: l).getLast?.or o = l.getLast?.or (some a) := by
  cases l with
  | nil => rfl
  | cons b l =>
    rw [List.getLast?_cons_cons]
    cases h : (b :: l).getLast? with
    | none => exact absurd (List.getLast?_eq_none_iff.mp h) (by simp)
    | some x => rfl

theorem dateChars {wd : Str} {t : DateTime} (hw : wd ∈ weekdays) (ht : t.valid = true) :
    ∀ c ∈ logDate wd t, isDateChar c = true := by
  intro c hc
  unfold isDateChar
  rcases logDate_chars hw ht c hc with h | h | h | h
  · rw [h]; rfl
  · rw [h, Bool.or_true]; rfl
  · rw [h]; decide
  · rw [h]; decide

theorem scan_spec (l : List LogLine) (hl : ∀ x ∈ l, x.good) (st : Option DateTime × Option DateTime) :
    scanLines (l.map LogLine.text) st = .ok ((lastStart l).or st.1, (lastStop l).or st.2) := by
  induction l generalizing st with
  | nil => rfl
  | cons x l ih =>
    have hi := ih fun y hy => hl y (List.mem_cons_of_mem _ hy)
    have hx := hl x List.mem_cons_self
    rw [List.map_cons, scanLines]
    cases x with
    | start wd t =>
      rw [show search (matchAfter "Started at ".toList) (LogLine.text (.start wd t)) = some (logDate wd t) from
        Submit.search_here _ (matchAfter_here startPhrase (logDate_ne _ _) (dateChars hx.1 hx.2))]
      simp only
      rw [readDate_spec hx.1 hx.2]
      simp only
      rw [hi]
      show Except.ok ((lastStart l).or (some t), (lastStop l).or st.2) =
        Except.ok (((t :: l.filterMap _).getLast?).or st.1, (lastStop l).or st.2)
      rw [getLast_cons]
      rfl
    | stop wd t =>
      rw [show search (matchAfter "Started at ".toList) (LogLine.text (.stop wd t)) = none from
        search_absent (P := startPhrase) (stop_no_start hx.1 hx.2)]
      simp only
      rw [show search (matchAfter "Results reported on ".toList) (LogLine.text (.stop wd t)) = some (logDate wd t) from
        Submit.search_here _ (matchAfter_here stopPhrase (logDate_ne _ _) (dateChars hx.1 hx.2))]
      simp only
      rw [readDate_spec hx.1 hx.2]
      simp only
      rw [hi]
      show Except.ok ((lastStart l).or st.1, (lastStop l).or (some t)) =
        Except.ok ((lastStart l).or st.1, ((t :: l.filterMap _).getLast?).or st.2)
      rw [getLast_cons]
      rfl
    | other s =>
      rw [show search (matchAfter "Started at ".toList) (LogLine.text (.other s)) = none from
        search_absent (P := startPhrase) hx.2.1]
      simp only
      rw [show search (matchAfter "Results reported on ".toList) (LogLine.text (.other s)) = none from
        search_absent (P := stopPhrase) hx.2.2]
      exact hi st

theorem line_no_newline {x : LogLine} (h : x.good) : '\n' ∉ x.text := by
  have key : ∀ (P wd : Str) (t : DateTime), '\n' ∉ P → wd ∈ weekdays → t.valid = true → '\n' ∉ P ++ logDate wd t := by
    intro P wd t hP hw ht hm
    rcases List.mem_append.mp hm with hm | hm
    · exact hP hm
    · rcases logDate_chars hw ht _ hm with h | h | h | h
      · exact absurd h (by decide)
      · exact absurd h (by decide)
      · exact absurd h (by decide)
      · exact absurd h (by decide)
  cases x with
  | start wd t => exact key _ _ _ (by decide) h.1 h.2
  | stop wd t => exact key _ _ _ (by decide) h.1 h.2
  | other s => exact h.1

/-- The execution time in the report, for every log: the time from the last start to the last end in it, modulo one day, and 0 if
one of them is missing. -/
theorem execution_time (l : List LogLine) (hne : l ≠ []) (hl : ∀ x ∈ l, x.good) :
    executionTime (joinStr ['\n'] (l.map LogLine.text)) = .ok (match lastStart l, lastStop l with
      | some a, some b => (seconds b - seconds a) % 86400
      | _, _ => 0) := by
  unfold executionTime
  rw [splitChar_join '\n' _ (by simpa using hne) (by
    intro p hp
    obtain ⟨x, hx, rfl⟩ := List.mem_map.mp hp
    exact line_no_newline (hl x hx)), scan_spec l hl]
  rw [Option.or_none, Option.or_none]
  cases lastStart l with
  | none => rfl
  | some a => cases lastStop l with
    | none => rfl
    | some b => rfl

/-- A job of less than a day gets its time. -/
theorem execution_time_partial {a b : DateTime} {w1 w2 : Str} {A B C : List Str} (hw1 : w1 ∈ weekdays) (hw2 : w2 ∈ weekdays)
    (ha : a.valid = true) (hb : b.valid = true)
    (hq : ∀ s, s ∈ A ∨ s ∈ B ∨ s ∈ C → '\n' ∉ s ∧ ¬ startPhrase <:+: s ∧ ¬ stopPhrase <:+: s)
    (h1 : seconds a ≤ seconds b) (h2 : seconds b < seconds a + 86400) :
    executionTime (joinStr ['\n'] (A ++ (startPhrase ++ logDate w1 a) :: (B ++ (stopPhrase ++ logDate w2 b) :: C))) =
      .ok (seconds b - seconds a) := by
  have h := execution_time (A.map LogLine.other ++ .start w1 a :: (B.map LogLine.other ++ .stop w2 b :: C.map LogLine.other))
    (by simp) (by
      intro x hx
      simp only [List.mem_append, List.mem_cons, List.mem_map] at hx
      rcases hx with ⟨s, hs, rfl⟩ | rfl | ⟨s, hs, rfl⟩ | rfl | ⟨s, hs, rfl⟩
      · exact hq s (Or.inl hs)
      · exact ⟨hw1, ha⟩
      · exact hq s (Or.inr (Or.inl hs))
      · exact ⟨hw2, hb⟩
      · exact hq s (Or.inr (Or.inr hs)))
  have ot : ∀ D : List Str, (D.map LogLine.other).filterMap
      (fun x => match x with | .start _ t => some t | _ => none) = ([] : List DateTime) := by
    intro D
    induction D with
    | nil => rfl
    | cons d D ih => exact ih
  have ot2 : ∀ D : List Str, (D.map LogLine.other).filterMap
      (fun x => match x with | .stop _ t => some t | _ => none) = ([] : List DateTime) := by
    intro D
    induction D with
    | nil => rfl
    | cons d D ih => exact ih
  have tx : ∀ D : List Str, (D.map LogLine.other).map LogLine.text = D := by
    intro D
    induction D with
    | nil => rfl
    | cons d D ih => rw [List.map_cons, List.map_cons, ih]; rfl
  have e1 : lastStart (A.map LogLine.other ++ .start w1 a :: (B.map LogLine.other ++ .stop w2 b :: C.map LogLine.other)) =
      some a := by
    unfold lastStart
    rw [List.filterMap_append, ot, List.filterMap_cons]
    simp only [List.filterMap_append, ot, List.filterMap_cons]
    rfl
  have e2 : lastStop (A.map LogLine.other ++ .start w1 a :: (B.map LogLine.other ++ .stop w2 b :: C.map LogLine.other)) =
      some b := by
    unfold lastStop
    rw [List.filterMap_append, ot2, List.filterMap_cons]
    simp only [List.filterMap_append, ot2, List.filterMap_cons]
    rfl
  rw [e1, e2, List.map_append, tx, List.map_cons, List.map_append, tx, List.map_cons, tx] at h
  refine h.trans ?_
  show Except.ok ((seconds b - seconds a) % 86400) = _
  congr 1
  omega

/-- A log that is still being written: a second run has started an hour after the end of the first one. The report shows 23
hours for it. -/
theorem execution_time_rerun_false : ∃ (l : List LogLine) (a b c : DateTime), (∀ x ∈ l, x.good) ∧
    l = [.start "Fri".toList a, .stop "Fri".toList b, .start "Fri".toList c] ∧ seconds a < seconds b ∧ seconds b < seconds c ∧
    executionTime (joinStr ['\n'] (l.map LogLine.text)) = .ok 82800 := by
  have hg : ∀ x ∈ [LogLine.start "Fri".toList ⟨2020, 2, 28, 8, 0, 0⟩, .stop "Fri".toList ⟨2020, 2, 28, 9, 0, 0⟩,
      .start "Fri".toList ⟨2020, 2, 28, 10, 0, 0⟩], x.good := by
    intro x hx
    simp only [List.mem_cons, List.not_mem_nil, or_false] at hx
    rcases hx with rfl | rfl | rfl
    · exact ⟨by decide, by decide⟩
    · exact ⟨by decide, by decide⟩
    · exact ⟨by decide, by decide⟩
  refine ⟨_, _, _, _, hg, rfl, by decide, by decide, ?_⟩
  rw [execution_time _ (by simp) hg]
  decide +kernel

/-! ### Hosts and numbers of jobs -/

theorem span_spec {p : Char → Bool} {s : Str} : s = (spanChars p s).1 ++ (spanChars p s).2 ∧ ∀ c ∈ (spanChars p s).1, p c = true :=
  ⟨(Names.spanChars_spec p s).1.symm, (Names.spanChars_spec p s).2.1⟩

theorem matchHost_iff {s h : Str} : matchHost s = some h ↔
    h ≠ [] ∧ (∀ c ∈ h, isHostChar c = true) ∧ ∃ v, s = '<' :: (h ++ (".ge.infn.it>".toList ++ v)) := by
  constructor
  · intro hm
    unfold matchHost at hm
    obtain ⟨r, hr, hm⟩ := Option.bind_eq_some_iff.mp hm
    have hr := (stripPrefix_eq_some _ _ _).mp hr
    simp only at hm
    by_cases hn : (spanChars isHostChar r).1 = []
    · rw [if_pos hn] at hm; cases hm
    · rw [if_neg hn] at hm
      obtain ⟨v, hv, hm⟩ := Option.map_eq_some_iff.mp hm
      have hv := (stripPrefix_eq_some _ _ _).mp hv
      obtain ⟨e, hall⟩ := span_spec (p := isHostChar) (s := r)
      subst hm
      refine ⟨hn, hall, v, ?_⟩
      rw [hr]
      show '<' :: r = _
      rw [← hv, ← e]
  · rintro ⟨hn, hall, v, rfl⟩
    unfold matchHost
    rw [show stripPrefix "<".toList ('<' :: (h ++ (".ge.infn.it>".toList ++ v))) = some (h ++ (".ge.infn.it>".toList ++ v)) from
      stripPrefix_append "<".toList _, Option.bind_some]
    simp only
    rw [Batch.span_all isHostChar h hall (".ge.infn.it>".toList ++ v) (by intro c hc; cases hc; decide)]
    simp only
    rw [if_neg hn, stripPrefix_append]
    rfl

/-- The hosts of a job are exactly the names of hosts between angle brackets in its log, other than those of the login machines. -/
theorem hosts_spec (text h : Str) : h ∈ hostsOf text ↔
    h ≠ [] ∧ (∀ c ∈ h, isHostChar c = true) ∧ ('<' :: (h ++ ".ge.infn.it>".toList)) <:+: text ∧ ¬ "farmui".toList <+: h := by
  have key : h ∈ findHosts text ↔
      h ≠ [] ∧ (∀ c ∈ h, isHostChar c = true) ∧ ('<' :: (h ++ ".ge.infn.it>".toList)) <:+: text := by
    induction text with
    | nil =>
      constructor
      · intro hm; cases hm
      · rintro ⟨-, -, u, v, e⟩
        simp at e
    | cons c s ih =>
      have hpre : ('<' :: (h ++ ".ge.infn.it>".toList)) <+: c :: s ↔ ∃ v, c :: s = '<' :: (h ++ (".ge.infn.it>".toList ++ v)) := by
        constructor
        · rintro ⟨v, e⟩
          exact ⟨v, by rw [← e, List.cons_append, List.append_assoc]⟩
        · rintro ⟨v, e⟩
          exact ⟨v, by rw [e, List.cons_append, List.append_assoc]⟩
      have hfind : h ∈ findHosts (c :: s) ↔ matchHost (c :: s) = some h ∨ h ∈ findHosts s := by
        rw [findHosts]
        cases hm : matchHost (c :: s) with
        | none =>
          simp only
          constructor
          · exact Or.inr
          · rintro (h | h)
            · cases h
            · exact h
        | some x =>
          simp only
          rw [List.mem_cons, Option.some.injEq]
          constructor
          · rintro (h | h)
            · exact Or.inl h.symm
            · exact Or.inr h
          · rintro (h | h)
            · exact Or.inl h.symm
            · exact Or.inr h
      rw [hfind, matchHost_iff, ih, List.infix_cons_iff, hpre]
      constructor
      · rintro (⟨a, b, d⟩ | ⟨a, b, d⟩)
        · exact ⟨a, b, Or.inl d⟩
        · exact ⟨a, b, Or.inr d⟩
      · rintro ⟨a, b, d | d⟩
        · exact Or.inl ⟨a, b, d⟩
        · exact Or.inr ⟨a, b, d⟩
  unfold hostsOf
  rw [List.mem_filter, key]
  have hf : (!(stripPrefix "farmui".toList h).isSome) = true ↔ ¬ "farmui".toList <+: h := by
    cases he : stripPrefix "farmui".toList h with
    | none =>
      constructor
      · rintro - ⟨r, e⟩
        rw [(stripPrefix_eq_some _ _ _).mpr e.symm] at he
        cases he
      · intro _; rfl
    | some r =>
      constructor
      · intro h; cases h
      · intro hn; exact absurd ⟨r, ((stripPrefix_eq_some _ _ _).mp he).symm⟩ hn
  rw [hf]
  constructor
  · rintro ⟨⟨a, b, c⟩, d⟩; exact ⟨a, b, c, d⟩
  · rintro ⟨a, b, c, d⟩; exact ⟨⟨a, b, c⟩, d⟩

/-- The good hosts of a task are those of its successful jobs, the bad ones those of its failed jobs. -/
theorem task_hosts {w : WorkDir} {t : Task} (h : taskReport w = .ok t) :
    (∀ x, x ∈ t.good ↔ ∃ j ∈ t.jobs, j.status = .success ∧ x ∈ j.hosts) ∧
    (∀ x, x ∈ t.bad ↔ ∃ j ∈ t.jobs, j.status = .failure ∧ x ∈ j.hosts) ∧ t.good.Nodup ∧ t.bad.Nodup := by
  have key : ∀ st (js : List Job) x, x ∈ hostsWith st js ↔ ∃ j ∈ js, j.status = st ∧ x ∈ j.hosts := by
    intro st js x
    unfold hostsWith
    rw [List.mem_dedup, List.mem_flatMap]
    simp only [List.mem_filter, decide_eq_true_eq, and_assoc]
  unfold taskReport at h
  cases hm : w.jobs.mapM fun q => jobReport (outputSuffix w.name) q.1 q.2 with
  | error e => rw [hm] at h; cases h
  | ok js =>
    rw [hm] at h
    simp only at h
    by_cases hn : js = []
    · rw [if_pos hn] at h; cases h
    · rw [if_neg hn] at h
      have ht := (Except.ok.inj h).symm
      subst ht
      exact ⟨key _ _, key _ _, List.nodup_dedup _, List.nodup_dedup _⟩

/-- The number of a job is the one after the first word `Job` of its log. -/
theorem job_number {before sp digits after : Str} (hb : 'J' ∉ before) (hsp : sp ≠ []) (hsp2 : ∀ c ∈ sp, isSpace c = true)
    (hd : digits ≠ []) (hd2 : ∀ c ∈ digits, isDigit c = true) (ha : ∀ c ∈ after.head?, isDigit c = false) :
    search matchJob (before ++ ("Job".toList ++ (sp ++ (digits ++ after)))) = some digits := by
  rw [Submit.search_skip]
  · apply Submit.search_here
    unfold matchJob
    rw [stripPrefix_append, Option.bind_some]
    simp only
    rw [Batch.span_all isSpace sp hsp2 (digits ++ after) (by
      intro c hc
      cases digits with
      | nil => exact absurd rfl hd
      | cons d ds => cases hc; exact Batch.digit_not_space (hd2 _ List.mem_cons_self))]
    simp only
    rw [Batch.span_all isDigit digits hd2 after ha]
    simp only
    rw [if_neg (by rintro (h | h); exacts [hsp h, hd h])]
  · intro u v e hv
    unfold matchJob
    cases v with
    | nil => exact absurd rfl hv
    | cons c v =>
      have hc : c ≠ 'J' := by
        rintro rfl
        exact hb (by rw [e]; exact List.mem_append_right _ List.mem_cons_self)
      cases hs : stripPrefix "Job".toList (c :: v ++ ("Job".toList ++ (sp ++ (digits ++ after)))) with
      | none => rfl
      | some r =>
        have := (stripPrefix_eq_some _ _ _).mp hs
        exact absurd (List.cons.inj this).1 hc

/-- Jobs with numbers are listed by these, compared as text. -/
theorem jobs_sorted {w : WorkDir} {t : Task} (h : taskReport w = .ok t) (hid : ∀ j ∈ t.jobs, j.jobId.isSome = true) :
    t.jobs.Pairwise fun a b => (a.jobId.getD []).map Char.toNat ≤ (b.jobId.getD []).map Char.toNat := by
  unfold taskReport at h
  cases hm : w.jobs.mapM fun q => jobReport (outputSuffix w.name) q.1 q.2 with
  | error e => rw [hm] at h; cases h
  | ok js =>
    rw [hm] at h
    simp only at h
    by_cases hn : js = []
    · rw [if_pos hn] at h; cases h
    · rw [if_neg hn] at h
      have ht := (Except.ok.inj h).symm
      subst ht
      have hall : js.all (fun j => j.jobId.isSome) = true :=
        List.all_eq_true.mpr fun j hj => hid j ((sortJobs_perm js).mem_iff.mpr hj)
      show (sortJobs js).Pairwise _
      unfold sortJobs
      rw [if_pos hall]
      have : Std.Total (fun a b : Job => (a.jobId.getD []).map Char.toNat ≤ (b.jobId.getD []).map Char.toNat) :=
        ⟨fun a b => le_total _ _⟩
      have : IsTrans Job (fun a b : Job => (a.jobId.getD []).map Char.toNat ≤ (b.jobId.getD []).map Char.toNat) :=
        ⟨fun a b c => le_trans⟩
      exact List.pairwise_insertionSort _ _

/-- Job 10 is listed before job 9. -/
theorem jobs_sorted_false : ∃ (w : WorkDir) (t : Task), taskReport w = .ok t ∧
    t.jobs.map (·.jobId) = [some "10".toList, some "9".toList] := by
  refine ⟨⟨"CMBPowerSpectrum".toList, false, [("a".toList, [⟨"job.out".toList, "Job 9:".toList, 6⟩]),
    ("b".toList, [⟨"job.out".toList, "Job 10:".toList, 7⟩])]⟩, _, rfl, by decide +kernel⟩

/-! ### What the patterns mean -/

/-- Characters of a host: small letters, digits and the star of `4*host`. -/
theorem host_char (c : Char) : isHostChar c = true ↔ isLower c = true ∨ isDigit c = true ∨ c = '*' := by
  unfold isHostChar
  simp [or_assoc]

/-- A file is taken for a core dump exactly if its name begins with `core.` and a digit. -/
theorem core_file (name : Str) : isCoreFile name = true ↔ ∃ d r, isDigit d = true ∧ name = "core.".toList ++ d :: r := by
  unfold isCoreFile
  cases h : stripPrefix "core.".toList name with
  | none =>
    constructor
    · intro h'; cases h'
    · rintro ⟨d, r, -, e⟩
      rw [(stripPrefix_eq_some _ _ _).mpr e] at h
      cases h
  | some x =>
    have e := (stripPrefix_eq_some _ _ _).mp h
    cases x with
    | nil =>
      constructor
      · intro h'; cases h'
      · rintro ⟨d, r, -, e'⟩
        have := List.append_cancel_left (e.symm.trans e')
        cases this
    | cons c x =>
      constructor
      · intro h'; exact ⟨c, x, h', e⟩
      · rintro ⟨d, r, hd, e'⟩
        have := List.append_cancel_left (e.symm.trans e')
        cases this
        exact hd

theorem search_isSome {α : Type} (m : Str → Option α) (s : Str) : (search m s).isSome = true ↔ ∃ u v, s = u ++ v ∧ (m v).isSome = true := by
  induction s with
  | nil =>
    constructor
    · intro h; exact ⟨[], [], rfl, h⟩
    · rintro ⟨u, v, e, h⟩
      have : v = [] := (List.append_eq_nil_iff.mp e.symm).2
      subst this
      exact h
  | cons c s ih =>
    rw [search]
    constructor
    · intro h
      cases hm : m (c :: s) with
      | some x => exact ⟨[], c :: s, rfl, by rw [hm]; rfl⟩
      | none =>
        rw [hm] at h
        obtain ⟨u, v, e, h⟩ := ih.mp h
        exact ⟨c :: u, v, by rw [e]; rfl, h⟩
    · rintro ⟨u, v, e, h⟩
      cases u with
      | nil =>
        rw [List.nil_append] at e
        rw [e]
        cases hm : m v with
        | some x => rfl
        | none => rw [hm] at h; cases h
      | cons d u =>
        rw [List.cons_append] at e
        injection e with e1 e2
        have := ih.mpr ⟨u, v, e2, h⟩
        cases hm : m (c :: s) with
        | some x => rfl
        | none => exact this

theorem two_forms {a b s r : Str} (h : (stripPrefix a s).or (stripPrefix b s) = some r) : s = a ++ r ∨ s = b ++ r := by
  cases ha : stripPrefix a s with
  | some x =>
    rw [ha] at h
    cases h
    exact Or.inl ((stripPrefix_eq_some _ _ _).mp ha)
  | none =>
    rw [ha] at h
    exact Or.inr ((stripPrefix_eq_some _ _ _).mp h)

/-- Matching one of two words of one length. -/
theorem two_forms_back {a b r : Str} (hl : a.length = b.length) :
    (stripPrefix a (a ++ r)).or (stripPrefix b (a ++ r)) = some r ∧ (stripPrefix a (b ++ r)).or (stripPrefix b (b ++ r)) = some r := by
  constructor
  · rw [stripPrefix_append]; rfl
  · cases ha : stripPrefix a (b ++ r) with
    | none => rw [stripPrefix_append]; rfl
    | some x =>
      have e := (stripPrefix_eq_some _ _ _).mp ha
      have := (List.append_inj e hl.symm).2
      rw [← this]; rfl

/-- A log of errors tells of a core dump exactly if it holds the two words, white space between them. -/
theorem core_message (text : Str) : (search matchCore text).isSome = true ↔
    ∃ u sp v a b, text = u ++ (a ++ (sp ++ (b ++ v))) ∧ (a = "core".toList ∨ a = "Core".toList) ∧
      (b = "dump".toList ∨ b = "Dump".toList) ∧ sp ≠ [] ∧ ∀ c ∈ sp, isSpace c = true := by
  rw [search_isSome]
  constructor
  · rintro ⟨u, v, rfl, h⟩
    unfold matchCore at h
    obtain ⟨x, hx⟩ := Option.isSome_iff_exists.mp h
    obtain ⟨r, hr, hx⟩ := Option.bind_eq_some_iff.mp hx
    simp only at hx
    by_cases hn : (spanChars isSpace r).1 = []
    · rw [if_pos hn] at hx; cases hx
    · rw [if_neg hn] at hx
      obtain ⟨w, hw, -⟩ := Option.map_eq_some_iff.mp hx
      obtain ⟨e, hall⟩ := span_spec (p := isSpace) (s := r)
      rcases two_forms hr with h1 | h1 <;> rcases two_forms hw with h2 | h2
      · exact ⟨u, _, w, _, _, by rw [← h2, ← e]; exact congrArg (u ++ ·) h1, Or.inl rfl, Or.inl rfl, hn, hall⟩
      · exact ⟨u, _, w, _, _, by rw [← h2, ← e]; exact congrArg (u ++ ·) h1, Or.inl rfl, Or.inr rfl, hn, hall⟩
      · exact ⟨u, _, w, _, _, by rw [← h2, ← e]; exact congrArg (u ++ ·) h1, Or.inr rfl, Or.inl rfl, hn, hall⟩
      · exact ⟨u, _, w, _, _, by rw [← h2, ← e]; exact congrArg (u ++ ·) h1, Or.inr rfl, Or.inr rfl, hn, hall⟩
  · rintro ⟨u, sp, v, a, b, rfl, ha, hb, hn, hall⟩
    refine ⟨u, _, rfl, ?_⟩
    have gen : ∀ (c1 c2 d1 d2 : Str), c1.length = c2.length → d1.length = d2.length → (a = c1 ∨ a = c2) → (b = d1 ∨ b = d2) →
        (∀ c ∈ (b ++ v).head?, isSpace c = false) →
        ((((stripPrefix c1 (a ++ (sp ++ (b ++ v)))).or (stripPrefix c2 (a ++ (sp ++ (b ++ v))))).bind fun r =>
          let a := spanChars isSpace r
          if a.1 = [] then none
          else ((stripPrefix d1 a.2).or (stripPrefix d2 a.2)).map fun _ => ()) : Option Unit).isSome = true := by
      intro c1 c2 d1 d2 hc hd ha hb hs
      have e1 : (stripPrefix c1 (a ++ (sp ++ (b ++ v)))).or (stripPrefix c2 (a ++ (sp ++ (b ++ v)))) = some (sp ++ (b ++ v)) := by
        rcases ha with rfl | rfl
        · exact (two_forms_back hc).1
        · exact (two_forms_back hc).2
      have e2 : (stripPrefix d1 (b ++ v)).or (stripPrefix d2 (b ++ v)) = some v := by
        rcases hb with rfl | rfl
        · exact (two_forms_back hd).1
        · exact (two_forms_back hd).2
      rw [e1, Option.bind_some]
      simp only
      rw [Batch.span_all isSpace sp hall (b ++ v) hs]
      simp only
      rw [if_neg hn, e2]
      rfl
    refine gen _ _ _ _ (by decide) (by decide) ha hb ?_
    rcases hb with rfl | rfl
    · intro c hc; cases hc; decide
    · intro c hc; cases hc; decide

/-- The result of the task `Fisher` is a file ending with `.csv`, that of every other task one ending with `.h5`. -/
theorem task_outputs {w : WorkDir} {t : Task} (h : taskReport w = .ok t) :
    ∀ j ∈ t.jobs, j.status = .success → ∃ q ∈ w.jobs, q.1 = j.name ∧ ∃ f ∈ q.2, j.size = f.size ∧
      (w.name = "Fisher".toList → ∃ m, f.name = m ++ ".csv".toList) ∧ (w.name ≠ "Fisher".toList → ∃ m, f.name = m ++ ".h5".toList) := by
  intro j hj hs
  obtain ⟨-, -, -, -, -, -, -, -, -, hall⟩ := task_report h
  obtain ⟨q, hq, e⟩ := hall j hj
  obtain ⟨f, hf, hr, hz⟩ := (core_and_size e).2.2.2 hs
  refine ⟨q, hq, (jobReport_status e).2.2.symm, f, hf, hz, ?_, ?_⟩
  · intro hn
    unfold outputSuffix at hr
    rw [if_pos hn] at hr
    exact hr
  · intro hn
    unfold outputSuffix at hr
    rw [if_neg hn] at hr
    exact hr

theorem failure_has_text {suf name : Str} {files : List File} {j : Job} (h : jobReport suf name files = .ok j)
    (hf : j.status = .failure) : j.errText ≠ none := by
  obtain ⟨hs, ht, -⟩ := jobReport_status h
  have e1 := (Prod.mk.inj hs).1
  rw [ht]
  cases he : findFile files "job".toList ".err".toList with
  | some e => simp
  | none =>
    rw [he, hf] at e1
    simp only at e1
    split at e1 <;> cases e1

/-- A report is written if every job whose state is not known has a log of errors. -/
theorem run_reported {dirs : List (Option WorkDir)} {ts : List Task} (h : taskReports dirs = .ok ts)
    (hu : ∀ t ∈ ts, ∀ j ∈ t.jobs, j.status = .undefined → j.errText ≠ none) : ∃ st, runReport dirs = .ok (st, ts) := by
  unfold runReport
  rw [h]
  refine ⟨_, if_pos ?_⟩
  rw [List.all_eq_true]
  intro t ht
  rw [List.all_eq_true]
  intro j hj
  obtain ⟨w, -, hw⟩ := forall2_right (mapM_forall2 h) t ht
  obtain ⟨-, -, -, -, -, -, -, -, -, hall⟩ := task_report hw
  obtain ⟨q, -, e⟩ := hall j hj
  have hni := job_not_incomplete e
  unfold reportable
  cases hs : j.status with
  | success => rfl
  | notExecuted => rfl
  | notCompleted => exact absurd hs hni
  | failure =>
    cases ht : j.errText with
    | none => exact absurd ht (failure_has_text e hs)
    | some x => rfl
  | undefined =>
    cases hte : j.errText with
    | none => exact absurd hte (hu t ht j hj hs)
    | some x => rfl

example : (search matchCore "Abort (Core  dumped)".toList).isSome = true ∧ (search matchCore "coredump".toList).isSome = false := by
  decide +kernel

/-! ### Examples -/

def exJob : List File := [⟨"job_1.err".toList, [], 0⟩, ⟨"job_1.out".toList, "Subject: Job 12: <run>\n<ge01.ge.infn.it>".toList, 40⟩,
  ⟨"p_mm.h5".toList, [], 5⟩]

example : jobReport ".h5".toList "j".toList exJob =
    .ok ⟨"j".toList, .success, false, 5, 0, some "12".toList, ["ge01".toList], some []⟩ := by decide +kernel
example : (jobReport ".csv".toList "j".toList exJob).toOption.map (·.status) = some .undefined := by decide +kernel
example : readDate "Fri Feb 28 23:59:58 2020".toList = some ⟨2020, 2, 28, 23, 59, 58⟩ := by decide +kernel
example : executionTime "x\nStarted at Fri Feb 28 23:59:58 2020\n\nResults reported on Sat Feb 29 00:00:03 2020".toList = .ok 5 := by
  decide +kernel
example : (runReport [none, some ⟨"Fisher".toList, false, [("j".toList, exJob)]⟩]).toOption.map (·.1) = some .undefined := by
  decide +kernel

/-- A task with a job that has ended and one that has not begun. -/
def exWork : WorkDir := ⟨"PowerSpectrum".toList, false, [("a".toList, exJob), ("b".toList, [])]⟩

theorem exWork_ok : ∃ t, taskReport exWork = .ok t := by
  cases h : taskReport exWork with
  | ok t => exact ⟨t, rfl⟩
  | error e =>
    have : (taskReport exWork).toOption.isSome = true := by decide +kernel
    rw [h] at this
    cases this

example : ∃ t, taskReport exWork = .ok t ∧ t.nFailed + t.nSucceeded + t.nNotExecuted + t.nUndefined = 2 ∧
    t.totalMB * 1000000 = (t.jobs.map fun j => (j.size : ℚ)).sum ∧ t.good.Nodup := by
  obtain ⟨t, ht⟩ := exWork_ok
  exact ⟨t, ht, (task_report ht).2.2.1, (task_sums ht).2, (task_hosts ht).2.2.1⟩
example : taskStatus [⟨"j".toList, .notExecuted, false, 0, 0, none, [], none⟩] = .notExecuted ↔
    TaskSpec [⟨"j".toList, .notExecuted, false, 0, 0, none, [], none⟩] .notExecuted := task_status (by decide) _
example : runReport [none, some { exWork with link := true }] = .ok (.success, []) :=
  empty_run_success _ (by
    intro w hw x hx
    simp only [List.mem_cons, List.not_mem_nil, or_false] at hw
    rcases hw with rfl | rfl
    · cases hx
    · cases hx
      rfl)
example : runStatus [.success, .notCompleted] = .undefined := half_done_undefined _ (by decide) (by decide)
example : ∃ e, runReport [some exWork, some ⟨"Fisher".toList, false, []⟩] = .error e := by
  obtain ⟨t, ht⟩ := exWork_ok
  exact ⟨_, empty_task_fails [some exWork] [] "Fisher".toList (by
    cases h : taskReports [some exWork] with
    | ok ts => exact ⟨ts, rfl⟩
    | error e =>
      have : (taskReports [some exWork]).toOption.isSome = true := by decide +kernel
      rw [h] at this
      cases this)⟩
example : readDate (logDate "Fri".toList ⟨2020, 2, 28, 23, 59, 58⟩) = some ⟨2020, 2, 28, 23, 59, 58⟩ :=
  readDate_spec (by decide) (by decide)
example : search matchJob ("Subject: ".toList ++ ("Job".toList ++ (" ".toList ++ ("12".toList ++ ": x".toList)))) =
    some "12".toList :=
  job_number (by decide) (by decide) (by decide) (by decide) (by decide) (by decide)

end Seyfert.Report
