import Verif.Spec.FisherTask
import Verif.Lemmas.PyDict
import Mathlib.Data.List.Nodup
import Mathlib.Data.List.Perm.Subperm
import Mathlib.Order.WellFounded

/-! Lemmas on the jobs of the Fisher task. -/

namespace Seyfert.FTask

open Resume (File)

variable {V : Type} {C : Comp V}

/-! ### The steps of a job -/

/-- The steps of a job, case by case. -/
inductive Does (C : Comp V) : Disk V → Job V → Disk V → Job V → Prop
  | skip {d : Disk V} {name : Str} {rest : List Str} (h : (d.fishers.lookup name).isSome) :
      Does C d ⟨name :: rest, .idle, false⟩ d ⟨rest, .idle, false⟩
  | enter {d : Disk V} {name : Str} {rest : List Str} {k : Str} {t : Dict Str V} (hf : d.fishers.lookup name = none)
      (hk : C.single name = some k)
      (ht : (d.autos = none ∧ t = [(k, C.table k)]) ∨ ∃ t0, d.autos = some (.full t0) ∧ t = PyDict.set t0 k (C.table k)) :
      Does C d ⟨name :: rest, .idle, false⟩ { d with autos := some .unreadable } ⟨name :: rest, .opened t, false⟩
  | use {d : Disk V} {name : Str} {rest : List Str} {t : Dict Str V} (hf : d.fishers.lookup name = none)
      (hk : C.single name = none) (ht : d.autos = some (.full t)) (h3 : 3 ≤ t.length)
      (hp : ∀ p ∈ C.probes name, (t.lookup p).isSome) :
      Does C d ⟨name :: rest, .idle, false⟩ d ⟨name :: rest, .computed (C.fisher name fun p => t.lookup p), false⟩
  | refuse {d : Disk V} {name : Str} {rest : List Str} (hf : d.fishers.lookup name = none) (hb : Blocked C d name) :
      Does C d ⟨name :: rest, .idle, false⟩ d ⟨name :: rest, .idle, true⟩
  | leave {d : Disk V} {name : Str} {rest : List Str} {t : Dict Str V} :
      Does C d ⟨name :: rest, .opened t, false⟩ { d with autos := some (.full t) }
        ⟨name :: rest, .computed (C.autoFisher name), false⟩
  | create {d : Disk V} {name : Str} {rest : List Str} {v : V} (hf : d.fishers.lookup name = none) :
      Does C d ⟨name :: rest, .computed v, false⟩ { d with fishers := PyDict.set d.fishers name .unreadable }
        ⟨name :: rest, .saving v, false⟩
  | clash {d : Disk V} {name : Str} {rest : List Str} {v : V} (hf : (d.fishers.lookup name).isSome) :
      Does C d ⟨name :: rest, .computed v, false⟩ d ⟨name :: rest, .idle, true⟩
  | save {d : Disk V} {name : Str} {rest : List Str} {v : V} :
      Does C d ⟨name :: rest, .saving v, false⟩ { d with fishers := PyDict.set d.fishers name (.full v) }
        ⟨rest, .idle, false⟩

theorem start_does {d d' : Disk V} {name : Str} {rest : List Str} {j' : Job V} (hf : d.fishers.lookup name = none)
    (h : start C d name rest = (d', j')) : Does C d ⟨name :: rest, .idle, false⟩ d' j' := by
  unfold start at h
  split at h
  · rename_i k hs ha
    obtain ⟨rfl, rfl⟩ := h
    exact .refuse hf (Or.inl ⟨by simp [hs], ha⟩)
  · rename_i k hs ha
    obtain ⟨rfl, rfl⟩ := h
    exact .enter hf hs (Or.inl ⟨ha, rfl⟩)
  · rename_i k t hs ha
    obtain ⟨rfl, rfl⟩ := h
    exact .enter hf hs (Or.inr ⟨t, ha, rfl⟩)
  · rename_i t hs ha
    split at h
    · rename_i h3
      obtain ⟨rfl, rfl⟩ := h
      exact .refuse hf (Or.inr ⟨hs, fun t' ht' => by
        rw [ha] at ht'; cases ht'; exact Or.inl h3⟩)
    · rename_i h3
      split at h
      · rename_i hp
        obtain ⟨rfl, rfl⟩ := h
        exact .use hf hs ha (by omega) (by simpa using hp)
      · rename_i hp
        obtain ⟨rfl, rfl⟩ := h
        refine .refuse hf (Or.inr ⟨hs, fun t' ht' => ?_⟩)
        rw [ha] at ht'; cases ht'
        rw [List.all_eq_true] at hp
        push Not at hp
        obtain ⟨p, h1, h2⟩ := hp
        exact Or.inr ⟨p, h1, Option.not_isSome_iff_eq_none.1 h2⟩
  · rename_i hs ha
    obtain ⟨rfl, rfl⟩ := h
    exact .refuse hf (Or.inr ⟨hs, fun t' ht' => absurd ht' (ha t')⟩)

theorem step_does {d d' : Disk V} {j j' : Job V} (h : step C d j = some (d', j')) : Does C d j d' j' := by
  obtain ⟨q, st, fl⟩ := j
  unfold step at h
  cases fl with
  | true => simp at h
  | false =>
    simp only [Bool.false_eq_true, if_false] at h
    cases q with
    | nil => simp at h
    | cons name rest =>
      simp only [Option.some.injEq] at h
      cases st with
      | idle =>
        simp only at h
        split at h
        · rename_i hs
          obtain ⟨rfl, rfl⟩ := h
          exact .skip hs
        · rename_i hs
          exact start_does (Option.not_isSome_iff_eq_none.1 hs) h
      | opened t =>
        obtain ⟨rfl, rfl⟩ := h
        exact .leave
      | computed v =>
        simp only at h
        split at h
        · rename_i hs
          obtain ⟨rfl, rfl⟩ := h
          exact .clash hs
        · rename_i hs
          obtain ⟨rfl, rfl⟩ := h
          exact .create (Option.not_isSome_iff_eq_none.1 hs)
      | saving v =>
        obtain ⟨rfl, rfl⟩ := h
        exact .save

/-- A job is over when it has failed or nothing is left to do. -/
theorem over_iff {d : Disk V} {j : Job V} : step C d j = none ↔ j.failed = true ∨ j.queue = [] := by
  obtain ⟨q, st, fl⟩ := j
  unfold step
  cases fl <;> cases q <;> simp

/-! ### Every schedule ends -/

def Stage.left : Stage V → Nat
  | .idle => 4
  | .opened _ => 3
  | .computed _ => 2
  | .saving _ => 1

def Job.left (j : Job V) : Nat := if j.failed then 0 else match j.queue with
  | [] => 0
  | _ :: rest => j.stage.left + 4 * rest.length

theorem Does.left {d d' : Disk V} {j j' : Job V} (h : Does C d j d' j') : j'.left < j.left := by
  cases h
  case skip name rest h => cases rest <;> simp [Job.left, Stage.left] <;> omega
  case save name rest v => cases rest <;> simp [Job.left, Stage.left] <;> omega
  all_goals simp [Job.left, Stage.left]

theorem sum_set_lt {l : List (Job V)} {i : Nat} {j j' : Job V} (h : l[i]? = some j) (hlt : j'.left < j.left) :
    ((l.set i j').map Job.left).sum < (l.map Job.left).sum := by
  induction l generalizing i with
  | nil => simp at h
  | cons a l ih =>
    cases i with
    | zero =>
      simp only [List.getElem?_cons_zero, Option.some.injEq] at h
      subst h
      simpa using hlt
    | succ i =>
      simp only [List.getElem?_cons_succ] at h
      simpa using ih h

theorem run_left {s s' : Sys V} (h : Run C s s') : (s'.jobs.map Job.left).sum < (s.jobs.map Job.left).sum := by
  cases h with
  | run i j j' d' hj hs => exact sum_set_lt hj (step_does hs).left

theorem run_wf (C : Comp V) : WellFounded (fun s' s : Sys V => Run C s s') :=
  Subrelation.wf (fun h => run_left h) (measure (fun s : Sys V => (s.jobs.map Job.left).sum)).wf

theorem ends_from (s : Sys V) : ∃ s', Relation.ReflTransGen (Run C) s s' ∧ ∀ j ∈ s'.jobs, step C s'.disk j = none := by
  induction s using (run_wf C).induction with
  | _ s ih =>
    by_cases h : ∀ j ∈ s.jobs, step C s.disk j = none
    · exact ⟨s, .refl, h⟩
    · push Not at h
      obtain ⟨j, hj, hs⟩ := h
      obtain ⟨i, hi⟩ := List.getElem?_of_mem hj
      obtain ⟨⟨d', j'⟩, hd⟩ := Option.ne_none_iff_exists'.1 hs
      have hr : Run C s ⟨d', s.jobs.set i j'⟩ := .run i j j' d' hi hd
      obtain ⟨s', h1, h2⟩ := ih _ hr
      exact ⟨s', .head hr h1, h2⟩

theorem phase_exists (C : Comp V) (d : Disk V) (qs : List (List Str)) : ∃ d' ok, Phase C d qs d' ok := by
  obtain ⟨⟨d', js⟩, h1, h2⟩ := ends_from (C := C) ⟨d, qs.map fresh⟩
  exact ⟨d', _, js, h1, h2, rfl⟩

/-- What every step keeps holds of the end of a phase. -/
theorem phase_rule {I : Sys V → Prop} (hI : ∀ s s', I s → Run C s s' → I s') {d d' : Disk V} {qs : List (List Str)}
    {ok : Bool} (h0 : I ⟨d, qs.map fresh⟩) (h : Phase C d qs d' ok) :
    ∃ js, I ⟨d', js⟩ ∧ (∀ j ∈ js, j.failed = true ∨ j.queue = []) ∧ ok = js.all (fun j => !j.failed) := by
  obtain ⟨js, hr, ho, rfl⟩ := h
  refine ⟨js, ?_, fun j hj => over_iff.1 (ho j hj), rfl⟩
  have : ∀ s, Relation.ReflTransGen (Run C) ⟨d, qs.map fresh⟩ s → I s := by
    intro s hs
    induction hs with
    | refl => exact h0
    | tail _ h ih => exact hI _ _ ih h
  exact this _ hr

/-! ### Nothing wrong is ever written -/

/-- What a job holds is right. -/
def JobRight (C : Comp V) (j : Job V) : Prop :=
  ∀ name rest, j.queue = name :: rest → match j.stage with
    | .idle => True
    | .opened t => (C.single name).isSome ∧ ∀ k v, t.lookup k = some v → v = C.table k
    | .computed v => v = C.right name
    | .saving v => v = C.right name

theorem jobRight_idle (C : Comp V) (q : List Str) (b : Bool) : JobRight C ⟨q, .idle, b⟩ := fun _ _ _ => trivial

theorem right_of_tables (hC : C.Local) {name : Str} (hk : C.single name = none) {t : Dict Str V}
    (hr : ∀ k v, t.lookup k = some v → v = C.table k) (hp : ∀ p ∈ C.probes name, (t.lookup p).isSome) :
    C.fisher name (fun p => t.lookup p) = C.right name := by
  unfold Comp.right
  rw [hk]
  apply hC
  intro p hp'
  obtain ⟨v, hv⟩ := Option.isSome_iff_exists.1 (hp p hp')
  rw [hv, hr p v hv]

theorem does_right (hC : C.Local) {d d' : Disk V} {j j' : Job V} (h : Does C d j d' j') (hd : Right C d)
    (hj : JobRight C j) : Right C d' ∧ JobRight C j' := by
  cases h
  case skip name rest h => exact ⟨hd, jobRight_idle C _ _⟩
  case enter name rest k t hf hk ht =>
    refine ⟨⟨hd.fishers, fun t' k' v h => by simp at h⟩, ?_⟩
    intro n r hq
    simp only [List.cons.injEq] at hq
    obtain ⟨rfl, rfl⟩ := hq
    refine ⟨by simp [hk], fun k' v hv => ?_⟩
    rcases ht with ⟨_, rfl⟩ | ⟨t0, h0, rfl⟩
    · rw [List.lookup_cons] at hv
      split at hv
      · rename_i he
        simp only [Option.some.injEq] at hv
        rw [← hv, LawfulBEq.eq_of_beq he]
      · simp at hv
    · rw [PyDict.lookup_set] at hv
      split at hv
      · rename_i he
        simp only [Option.some.injEq] at hv
        rw [← hv, he]
      · exact hd.autos _ _ _ h0 hv
  case use name rest t hf hk ht h3 hp =>
    refine ⟨hd, ?_⟩
    intro n r hq
    simp only [List.cons.injEq] at hq
    obtain ⟨rfl, rfl⟩ := hq
    exact right_of_tables hC hk (fun k v => hd.autos _ _ _ ht) hp
  case refuse name rest hf hb => exact ⟨hd, jobRight_idle C _ _⟩
  case leave name rest t =>
    obtain ⟨h1, h2⟩ := hj name rest rfl
    refine ⟨⟨hd.fishers, fun t' k v ht hv => ?_⟩, ?_⟩
    · simp only [Option.some.injEq, File.full.injEq] at ht
      subst ht
      exact h2 _ _ hv
    · intro n r hq
      simp only [List.cons.injEq] at hq
      obtain ⟨rfl, rfl⟩ := hq
      obtain ⟨k, hk⟩ := Option.isSome_iff_exists.1 h1
      simp only [Comp.right, hk]
  case create name rest v hf =>
    refine ⟨⟨fun n w hw => ?_, hd.autos⟩, fun n r hq => hj n r hq⟩
    rw [PyDict.lookup_set] at hw
    split at hw
    · simp at hw
    · exact hd.fishers _ _ hw
  case clash name rest v hf => exact ⟨hd, jobRight_idle C _ _⟩
  case save name rest v =>
    refine ⟨⟨fun n w hw => ?_, hd.autos⟩, jobRight_idle C _ _⟩
    rw [PyDict.lookup_set] at hw
    split at hw
    · rename_i he
      simp only [Option.some.injEq, File.full.injEq] at hw
      rw [← hw, he]
      exact hj name rest rfl
    · exact hd.fishers _ _ hw

/-! ### One writer per file -/

/-- The live jobs with a file open are its only writers, and the file is cut off meanwhile. -/
structure Excl (s : Sys V) : Prop where
  opened : ∀ (i : Nat) j t, s.jobs[i]? = some j → j.failed = false → j.stage = .opened t → s.disk.autos = some .unreadable
  one : ∀ (i i' : Nat) j j' t t', s.jobs[i]? = some j → s.jobs[i']? = some j' → j.failed = false → j'.failed = false →
    j.stage = .opened t → j'.stage = .opened t' → i = i'
  saving : ∀ (i : Nat) j v n r, s.jobs[i]? = some j → j.failed = false → j.stage = .saving v → j.queue = n :: r →
    s.disk.fishers.lookup n = some .unreadable
  single : ∀ (i i' : Nat) j j' v v' n r r', s.jobs[i]? = some j → s.jobs[i']? = some j' → j.failed = false →
    j'.failed = false → j.stage = .saving v → j'.stage = .saving v' → j.queue = n :: r → j'.queue = n :: r' → i = i'

theorem get_set {l : List (Job V)} {i i' : Nat} {j' a : Job V} (h : (l.set i j')[i']? = some a) :
    (i' = i ∧ a = j') ∨ (i' ≠ i ∧ l[i']? = some a) := by
  rw [List.getElem?_set] at h
  split at h
  · rename_i he
    split at h
    · exact Or.inl ⟨he.symm, by simpa using h.symm⟩
    · simp at h
  · rename_i he
    exact Or.inr ⟨fun hc => he hc.symm, h⟩

theorem Does.enters {d d' : Disk V} {j j' : Job V} {t : Dict Str V} (h : Does C d j d' j') (hs : j'.stage = .opened t) :
    d.autos ≠ some .unreadable ∧ d'.autos = some .unreadable := by
  cases h
  case enter ht => rcases ht with ⟨h, _⟩ | ⟨_, h, _⟩ <;> simp [h]
  all_goals simp at hs

theorem Does.creates {d d' : Disk V} {j j' : Job V} {v : V} {n : Str} {r : List Str} (h : Does C d j d' j')
    (hs : j'.stage = .saving v) (hq : j'.queue = n :: r) :
    d.fishers.lookup n = none ∧ d'.fishers.lookup n = some .unreadable := by
  cases h
  case create name rest v' hf =>
    simp only [List.cons.injEq] at hq
    obtain ⟨rfl, rfl⟩ := hq
    exact ⟨hf, by simp [PyDict.lookup_set]⟩
  all_goals simp at hs

theorem Does.autos {d d' : Disk V} {j j' : Job V} (h : Does C d j d' j') (hu : d.autos = some .unreadable)
    (hj : ∀ t, j.stage ≠ .opened t) : d'.autos = some .unreadable := by
  cases h
  case leave t => exact absurd rfl (hj t)
  all_goals first | exact hu | rfl

theorem Does.fishers {d d' : Disk V} {j j' : Job V} {n : Str} (h : Does C d j d' j')
    (hu : d.fishers.lookup n = some .unreadable) (hj : ∀ v r, j.stage = .saving v → j.queue ≠ n :: r) :
    d'.fishers.lookup n = some .unreadable := by
  cases h
  case create => 
    simp only [PyDict.lookup_set]
    split
    · rfl
    · exact hu
  case save name rest v =>
    simp only [PyDict.lookup_set]
    split
    · rename_i he
      subst he
      exact absurd rfl (hj v rest rfl)
    · exact hu
  all_goals exact hu

theorem excl_run {s s' : Sys V} (hs : Excl s) (h : Run C s s') : Excl s' := by
  cases h with
  | run i j j' d' hj hst =>
    have hd := step_does hst
    have hlive : j.failed = false := by cases hd <;> rfl
    constructor
    · intro a ja t ha hfl hstg
      rcases get_set ha with ⟨rfl, rfl⟩ | ⟨hne, ha'⟩
      · exact (hd.enters hstg).2
      · exact hd.autos (hs.opened a ja t ha' hfl hstg)
          (fun t' ht' => hne (hs.one a i _ _ _ _ ha' hj hfl hlive hstg ht'))
    · intro a b ja jb t t' ha hb hfa hfb hsa hsb
      rcases get_set ha with ⟨rfl, rfl⟩ | ⟨hna, ha'⟩
      · rcases get_set hb with ⟨rfl, rfl⟩ | ⟨hnb, hb'⟩
        · rfl
        · exact absurd (hs.opened b jb t' hb' hfb hsb) (hd.enters hsa).1
      · rcases get_set hb with ⟨rfl, rfl⟩ | ⟨hnb, hb'⟩
        · exact absurd (hs.opened a ja t ha' hfa hsa) (hd.enters hsb).1
        · exact hs.one a b ja jb t t' ha' hb' hfa hfb hsa hsb
    · intro a ja v n r ha hfl hstg hq
      rcases get_set ha with ⟨rfl, rfl⟩ | ⟨hne, ha'⟩
      · exact (hd.creates hstg hq).2
      · exact hd.fishers (hs.saving a ja v n r ha' hfl hstg hq)
          (fun v' r' hv' hq' => hne (hs.single a i _ _ _ _ n _ _ ha' hj hfl hlive hstg hv' hq hq'))
    · intro a b ja jb v v' n r r' ha hb hfa hfb hsa hsb hqa hqb
      rcases get_set ha with ⟨rfl, rfl⟩ | ⟨hna, ha'⟩
      · rcases get_set hb with ⟨rfl, rfl⟩ | ⟨hnb, hb'⟩
        · rfl
        · have := hs.saving b jb v' n r' hb' hfb hsb hqb
          rw [(hd.creates hsa hqa).1] at this
          simp at this
      · rcases get_set hb with ⟨rfl, rfl⟩ | ⟨hnb, hb'⟩
        · have := hs.saving a ja v n r ha' hfa hsa hqa
          rw [(hd.creates hsb hqb).1] at this
          simp at this
        · exact hs.single a b ja jb v v' n r r' ha' hb' hfa hfb hsa hsb hqa hqb

/-! ### Tables are never lost -/

/-- The table of a probe is in the file, or in what the only writer of the file will leave in it. -/
def Has (s : Sys V) (k : Str) : Prop :=
  (∃ t, s.disk.autos = some (.full t) ∧ (t.lookup k).isSome) ∨
    (s.disk.autos = some .unreadable ∧ ∀ (i : Nat) j t, s.jobs[i]? = some j → j.failed = false → j.stage = .opened t →
      (t.lookup k).isSome)

theorem has_run {s s' : Sys V} (hs : Excl s) {k : Str} (hk : Has s k) (h : Run C s s') : Has s' k := by
  cases h with
  | run i j j' d' hj hst =>
    have hd := step_does hst
    cases hd
    case enter name rest k' t hf hk' ht =>
      refine Or.inr ⟨rfl, fun a ja t' ha hfl hstg => ?_⟩
      rcases get_set ha with ⟨rfl, rfl⟩ | ⟨hne, ha'⟩
      · simp only [Stage.opened.injEq] at hstg
        subst hstg
        rcases ht with ⟨h0, _⟩ | ⟨t0, h0, rfl⟩
        · rcases hk with ⟨t1, h1, _⟩ | ⟨h1, _⟩ <;> simp [h0] at h1
        · rcases hk with ⟨t1, h1, h2⟩ | ⟨h1, _⟩
          · rw [h0] at h1
            cases h1
            rw [PyDict.lookup_set]
            split
            · rfl
            · exact h2
          · simp [h0] at h1
      · have := hs.opened a ja t' ha' hfl hstg
        rcases ht with ⟨h0, _⟩ | ⟨t0, h0, _⟩ <;> simp [h0] at this
    case leave name rest t =>
      have := hs.opened i _ t hj rfl rfl
      rcases hk with ⟨t1, h1, _⟩ | ⟨_, h1⟩
      · simp [this] at h1
      · exact Or.inl ⟨t, rfl, h1 i _ t hj rfl rfl⟩
    all_goals
      rcases hk with hk | ⟨h0, h1⟩
      · exact Or.inl hk
      · refine Or.inr ⟨h0, fun a ja t' ha hfl hstg => ?_⟩
        rcases get_set ha with ⟨rfl, rfl⟩ | ⟨hne, ha'⟩
        · simp at hstg
        · exact h1 a ja t' ha' hfl hstg

/-- Jobs and files of auto-correlations come after the tables. -/
structure After (C : Comp V) (s : Sys V) : Prop where
  files : ∀ name k, C.single name = some k → (s.disk.fishers.lookup name).isSome → Has s k
  jobs : ∀ (i : Nat) j name rest k, s.jobs[i]? = some j → j.failed = false → j.queue = name :: rest →
    C.single name = some k → match j.stage with
      | .idle => True
      | .opened t => (t.lookup k).isSome
      | .computed _ => Has s k
      | .saving _ => Has s k

theorem after_run {s s' : Sys V} (hs : Excl s) (ha : After C s) (h : Run C s s') : After C s' := by
  have hkeep : ∀ k, Has s k → Has s' k := fun k hk => has_run hs hk h
  cases h with
  | run i j j' d' hj hst =>
    have hd := step_does hst
    constructor
    · intro name k hk hf
      cases hd
      case create n r v hf' =>
        simp only [PyDict.lookup_set] at hf
        split at hf
        · rename_i he
          subst he
          exact hkeep k (ha.jobs i _ name r k hj rfl rfl hk)
        · exact hkeep k (ha.files name k hk hf)
      case save n r v =>
        simp only [PyDict.lookup_set] at hf
        split at hf
        · rename_i he
          subst he
          exact hkeep k (ha.jobs i _ name r k hj rfl rfl hk)
        · exact hkeep k (ha.files name k hk hf)
      all_goals exact hkeep k (ha.files name k hk hf)
    · intro a ja name rest k hja hfl hq hk
      rcases get_set hja with ⟨rfl, rfl⟩ | ⟨hne, hja'⟩
      · cases hd
        case skip => trivial
        case enter n r k' t hf hk' ht =>
          simp only [List.cons.injEq] at hq
          obtain ⟨rfl, rfl⟩ := hq
          rw [hk] at hk'
          cases hk'
          rcases ht with ⟨_, rfl⟩ | ⟨t0, _, rfl⟩
          · simp
          · simp [PyDict.lookup_set]
        case use n r t hf hk' ht h3 hp =>
          simp only [List.cons.injEq] at hq
          obtain ⟨rfl, rfl⟩ := hq
          simp [hk] at hk'
        case refuse => trivial
        case leave n r t =>
          have := ha.jobs a _ name rest k hj rfl hq hk
          exact Or.inl ⟨t, rfl, this⟩
        case create n r v hf =>
          exact hkeep k (ha.jobs a _ name rest k hj rfl hq hk)
        case clash => trivial
        case save => trivial
      · have := ha.jobs a ja name rest k hja' hfl hq hk
        cases hstg : ja.stage <;> rw [hstg] at this
        · trivial
        · exact this
        · exact hkeep k this
        · exact hkeep k this

end Seyfert.FTask
