import Verif.Model.Resume
import Verif.Lemmas.PyDict

/-! Rules for programs that change the run directory, and what no stage ever changes. -/

set_option linter.unusedSectionVars false

namespace Seyfert.Resume

variable {V : Type} {α β : Type}

/-- All states, the last included. -/
def All (o : Out V α) (P : Disk V → Prop) : Prop := (∀ d ∈ o.trace, P d) ∧ P o.final

theorem All.ret {P : Disk V → Prop} {d : Disk V} (a : α) (h : P d) : All (Resume.ret a d) P :=
  ⟨fun _ h => absurd h (by simp [Resume.ret]), h⟩

theorem All.fail {P : Disk V → Prop} {d : Disk V} (h : P d) : All (Resume.fail (α := α) d) P :=
  ⟨fun _ h => absurd h (by simp [Resume.fail]), h⟩

theorem All.put {P : Disk V → Prop} {d : Disk V} (f : Disk V → Disk V) (h : P (f d)) : All (Resume.put f d) P := by
  refine ⟨fun d' h' => ?_, h⟩
  simp only [Resume.put, List.mem_singleton] at h'
  rw [h']
  exact h

theorem All.bind {P : Disk V → Prop} {d : Disk V} {m : Prog V α} {k : α → Prog V β} (h : All (m d) P)
    (hk : ∀ a, (m d).res = some a → All (k a (m d).final) P) : All (Resume.bind m k d) P := by
  unfold Resume.bind
  cases hr : (m d).res with
  | none => exact h
  | some a =>
    obtain ⟨h1, h2⟩ := hk a hr
    refine ⟨fun d' hd => ?_, h2⟩
    rcases List.mem_append.mp hd with hd | hd
    · exact h.1 d' hd
    · exact h1 d' hd

theorem All.mono {P Q : Disk V → Prop} {o : Out V α} (h : All o P) (hpq : ∀ d, P d → Q d) : All o Q :=
  ⟨fun d hd => hpq d (h.1 d hd), hpq _ h.2⟩

/-- The program succeeds, all states before the end satisfy `P`, result and last state `Q`. -/
def Tr (o : Out V α) (P : Disk V → Prop) (Q : α → Disk V → Prop) : Prop :=
  (∀ d ∈ o.trace, P d) ∧ ∃ a, o.res = some a ∧ Q a o.final

theorem Tr.ret {P : Disk V → Prop} {Q : α → Disk V → Prop} {d : Disk V} (a : α) (h : Q a d) : Tr (Resume.ret a d) P Q :=
  ⟨fun _ h => absurd h (by simp [Resume.ret]), a, rfl, h⟩

theorem Tr.put {P : Disk V → Prop} {Q : Unit → Disk V → Prop} {d : Disk V} (f : Disk V → Disk V) (h : P (f d)) (h' : Q () (f d)) :
    Tr (Resume.put f d) P Q := by
  refine ⟨fun d' h1 => ?_, (), rfl, h'⟩
  simp only [Resume.put, List.mem_singleton] at h1
  rw [h1]
  exact h

theorem Tr.bind {P : Disk V → Prop} {Q : α → Disk V → Prop} {R : β → Disk V → Prop} {d : Disk V} {m : Prog V α} {k : α → Prog V β}
    (h : Tr (m d) P Q) (hk : ∀ a d', Q a d' → Tr (k a d') P R) : Tr (Resume.bind m k d) P R := by
  obtain ⟨h1, a, h2, h3⟩ := h
  obtain ⟨h4, b, h5, h6⟩ := hk a _ h3
  unfold Resume.bind
  rw [h2]
  refine ⟨fun d' hd => ?_, b, h5, h6⟩
  rcases List.mem_append.mp hd with hd | hd
  · exact h1 d' hd
  · exact h4 d' hd

theorem Tr.mono {P P' : Disk V → Prop} {Q Q' : α → Disk V → Prop} {o : Out V α} (h : Tr o P Q) (hp : ∀ d, P d → P' d)
    (hq : ∀ a d, Q a d → Q' a d) : Tr o P' Q' := by
  obtain ⟨h1, a, h2, h3⟩ := h
  exact ⟨fun d hd => hp d (h1 d hd), a, h2, hq a _ h3⟩

/-- What is there stays as it is: complete and incomplete files, except that tables are added to a readable
`autos` file. -/
structure Le (d d' : Disk V) : Prop where
  niz : d.niz ≠ none → d'.niz = d.niz
  cls : d.cls ≠ none → d'.cls = d.cls
  ders : d.derDir = true → d'.derDir = true ∧ d'.ders = d.ders
  delta : d.delta ≠ none → d'.delta = d.delta
  autos : d.autos = some .unreadable → d'.autos = some .unreadable
  fishers : ∀ k f, d.fishers.lookup k = some f → d'.fishers.lookup k = some f
  gcsp : d.gcsp ≠ none → d'.gcsp = d.gcsp
  results : ∀ k f, d.results.lookup k = some f → d'.results.lookup k = some f

theorem Le.refl (d : Disk V) : Le d d :=
  ⟨fun _ => rfl, fun _ => rfl, fun h => ⟨h, rfl⟩, fun _ => rfl, id, fun _ _ h => h, fun _ => rfl, fun _ _ h => h⟩

theorem Le.trans {a b c : Disk V} (h : Le a b) (k : Le b c) : Le a c where
  niz := fun x => by
    have e := h.niz x
    rw [k.niz (by rw [e]; exact x), e]
  cls := fun x => by
    have e := h.cls x
    rw [k.cls (by rw [e]; exact x), e]
  ders := fun x => by
    obtain ⟨e1, e2⟩ := h.ders x
    obtain ⟨e3, e4⟩ := k.ders e1
    exact ⟨e3, e4.trans e2⟩
  delta := fun x => by
    have e := h.delta x
    rw [k.delta (by rw [e]; exact x), e]
  autos := fun x => k.autos (h.autos x)
  fishers := fun n f x => k.fishers n f (h.fishers n f x)
  gcsp := fun x => by
    have e := h.gcsp x
    rw [k.gcsp (by rw [e]; exact x), e]
  results := fun n f x => k.results n f (h.results n f x)

theorem Le.setNiz {d : Disk V} (h : d.niz = none) (x) : Le d { d with niz := x } :=
  { Le.refl d with niz := fun h' => absurd h h' }
theorem Le.setCls {d : Disk V} (h : d.cls = none) (x) : Le d { d with cls := x } :=
  { Le.refl d with cls := fun h' => absurd h h' }
theorem Le.setDers {d : Disk V} (h : d.derDir = false) (b x) : Le d { d with derDir := b, ders := x } :=
  { Le.refl d with ders := fun h' => by rw [h] at h'; simp at h' }
theorem Le.setDelta {d : Disk V} (h : d.delta = none) (x) : Le d { d with delta := x } :=
  { Le.refl d with delta := fun h' => absurd h h' }
theorem Le.setGcsp {d : Disk V} (h : d.gcsp = none) (x) : Le d { d with gcsp := x } :=
  { Le.refl d with gcsp := fun h' => absurd h h' }
theorem Le.setAutos {d : Disk V} (h : d.autos ≠ some .unreadable) (x) : Le d { d with autos := x } :=
  { Le.refl d with autos := fun h' => absurd h' h }

theorem lookup_set_ne {υ : Type} (l : Dict Str υ) (n : Str) (v : υ) (h : l.lookup n = none) (k : Str) (f : υ)
    (hk : l.lookup k = some f) : (PyDict.set l n v).lookup k = some f := by
  rw [PyDict.lookup_set, if_neg, hk]
  rintro rfl
  rw [h] at hk
  simp at hk

theorem set_set {υ : Type} (l : Dict Str υ) (n : Str) (v w : υ) : PyDict.set (PyDict.set l n v) n w = PyDict.set l n w := by
  induction l with
  | nil => simp [PyDict.set]
  | cons p l ih =>
    obtain ⟨a, b⟩ := p
    rw [PyDict.set, PyDict.set]
    by_cases h : a = n
    · simp [h, PyDict.set]
    · simp [h, PyDict.set, ih]

theorem Le.setFisher {d : Disk V} {n : Str} (h : d.fishers.lookup n = none) (x) :
    Le d { d with fishers := PyDict.set d.fishers n x } :=
  { Le.refl d with fishers := fun k f hk => lookup_set_ne _ _ _ h k f hk }
theorem Le.setResult {d : Disk V} {n : Str} (h : d.results.lookup n = none) (x) :
    Le d { d with results := PyDict.set d.results n x } :=
  { Le.refl d with results := fun k f hk => lookup_set_ne _ _ _ h k f hk }

/-! ### No stage changes what is there -/

theorem writeNiz_frame (C : Comp V) (done : Dict Str V) (ps : List Str) (d : Disk V) :
    All (writeNiz C done ps d) (fun d' => ∃ x, d' = { d with niz := x }) := by
  induction ps generalizing done d with
  | nil => exact All.ret _ ⟨d.niz, rfl⟩
  | cons p ps ih =>
    refine All.bind (All.put _ ⟨_, rfl⟩) fun _ _ => All.bind (All.put _ ⟨_, rfl⟩) fun _ _ => (ih _ _).mono ?_
    rintro d' ⟨x, rfl⟩
    exact ⟨x, rfl⟩

theorem densities_le (C : Comp V) (d : Disk V) : All (densities C d) (fun d' => Le d d' ∧ d'.fishers = d.fishers) := by
  unfold densities
  split
  · rename_i h
    have := writeNiz_frame C [] C.probes d
    refine All.bind (this.mono ?_) fun a _ => All.ret _ ?_
    · rintro d' ⟨x, rfl⟩
      exact ⟨Le.setNiz h x, rfl⟩
    · obtain ⟨x, hx⟩ := this.2
      rw [hx]
      exact ⟨Le.setNiz h x, rfl⟩
  · exact All.fail ⟨Le.refl d, rfl⟩
  · exact All.ret _ ⟨Le.refl d, rfl⟩

theorem fiducial_le (C : Comp V) (n : Dict Str V) (d : Disk V) :
    All (fiducial C n d) (fun d' => Le d d' ∧ d'.fishers = d.fishers) := by
  unfold fiducial
  split
  · rename_i h
    split
    · exact All.bind (All.put _ ⟨Le.setCls h _, rfl⟩) fun _ _ => All.bind (All.put _ ⟨Le.setCls h _, rfl⟩) fun _ _ =>
        All.ret _ ⟨Le.setCls h _, rfl⟩
    · exact All.fail ⟨Le.refl d, rfl⟩
  · exact All.fail ⟨Le.refl d, rfl⟩
  · exact All.ret _ ⟨Le.refl d, rfl⟩

theorem derivatives_le (C : Comp V) (n : Dict Str V) (c : V) (d : Disk V) :
    All (derivatives C n c d) (fun d' => Le d d' ∧ d'.fishers = d.fishers) := by
  unfold derivatives
  split
  · split
    · exact All.fail ⟨Le.refl d, rfl⟩
    · exact All.fail ⟨Le.refl d, rfl⟩
    · exact All.ret _ ⟨Le.refl d, rfl⟩
  · rename_i h
    simp only [Bool.not_eq_true] at h
    exact All.bind (All.put _ ⟨Le.setDers h _ _, rfl⟩) fun _ _ => All.bind (All.put _ ⟨Le.setDers h _ _, rfl⟩) fun _ _ =>
      All.bind (All.put _ ⟨Le.setDers h _ _, rfl⟩) fun _ _ => All.ret _ ⟨Le.setDers h _ _, rfl⟩

theorem covariance_le (C : Comp V) (d : Disk V) : All (covariance C d) (fun d' => Le d d' ∧ d'.fishers = d.fishers) := by
  unfold covariance
  split
  · exact All.fail ⟨Le.refl d, rfl⟩
  · exact All.ret _ ⟨Le.refl d, rfl⟩
  · rename_i h
    split
    · exact All.bind (All.put _ ⟨Le.setDelta h _, rfl⟩) fun _ _ => All.bind (All.put _ ⟨Le.setDelta h _, rfl⟩) fun _ _ =>
        All.ret _ ⟨Le.setDelta h _, rfl⟩
    · exact All.fail ⟨Le.refl d, rfl⟩

theorem addTable_le (k : Str) (v : V) (d : Disk V) :
    All (addTable k v d) (fun d' => Le d d' ∧ d'.fishers = d.fishers) := by
  unfold addTable
  split
  · exact All.fail ⟨Le.refl d, rfl⟩
  · rename_i h
    have h' : d.autos ≠ some .unreadable := by rw [h]; simp
    exact All.bind (All.put _ ⟨Le.setAutos h' _, rfl⟩) fun _ _ => All.put _ ⟨Le.setAutos h' _, rfl⟩
  · rename_i t h
    have h' : d.autos ≠ some .unreadable := by rw [h]; simp
    exact All.bind (All.put _ ⟨Le.setAutos h' _, rfl⟩) fun _ _ => All.put _ ⟨Le.setAutos h' _, rfl⟩

theorem writeFisher_le (name : Str) (v : V) (d : Disk V) (h : d.fishers.lookup name = none) :
    All (writeFisher name v d) (Le d) := by
  refine All.bind (All.put _ (Le.setFisher h _)) fun _ _ => All.put _ ?_
  show Le d { d with fishers := PyDict.set (PyDict.set d.fishers name .unreadable) name (.full v) }
  rw [set_set]
  exact Le.setFisher h _

theorem oneFisher_le (C : Comp V) (v x : V) (name : Str) (d : Disk V) (h : d.fishers.lookup name = none) :
    All (oneFisher C v x name d) (Le d) := by
  unfold oneFisher
  split
  · refine All.bind ((addTable_le _ _ d).mono fun _ h => h.1) fun a _ => ?_
    obtain ⟨h1, h2⟩ := (addTable_le _ _ d).2
    refine (writeFisher_le name _ _ (by rw [h2]; exact h)).mono fun d' hd => h1.trans hd
  · split
    · split
      · exact All.fail (Le.refl d)
      · exact writeFisher_le name _ d h
    · exact All.fail (Le.refl d)

theorem saveFishers_le (C : Comp V) (v x : V) (l : List Str) (d : Disk V) : All (saveFishers C v x l d) (Le d) := by
  induction l generalizing d with
  | nil => exact All.ret _ (Le.refl d)
  | cons name l ih =>
    rw [saveFishers]
    beta_reduce
    split
    · exact ih d
    · rename_i h
      have h1 := oneFisher_le C v x name d h
      exact All.bind h1 fun a _ => (ih _).mono fun d' hd => h1.2.trans hd

theorem writeGcsp_le (C : Comp V) (d : Disk V) : All (writeGcsp C d) (Le d) := by
  unfold writeGcsp
  split
  · exact All.fail (Le.refl d)
  · rename_i h
    exact All.bind (All.put _ (Le.setGcsp h _)) fun _ _ => All.put _ (Le.setGcsp h _)

theorem writeResults_le (C : Comp V) (f : Dict Str V) (rs : List Str) (d : Disk V) : All (writeResults C f rs d) (Le d) := by
  induction rs generalizing d with
  | nil => exact All.ret _ (Le.refl d)
  | cons r rs ih =>
    rw [writeResults]
    beta_reduce
    split
    · exact All.fail (Le.refl d)
    · rename_i h
      refine All.bind (All.put _ (Le.setResult h _)) fun _ _ => ?_
      have e : Le d ({ d with results := (PyDict.set (PyDict.set d.results r .unreadable) r
          (.full (C.result r (fun k => f.lookup k) C.gcsp))) } : Disk V) := by
        rw [set_set]
        exact Le.setResult h _
      exact All.bind (All.put _ e) fun _ _ => (ih _).mono fun d' hd => e.trans hd

theorem finalResults_le (C : Comp V) (d : Disk V) : All (finalResults C d) (Le d) := by
  unfold finalResults
  split
  · exact writeResults_le C _ _ d
  · exact All.fail (Le.refl d)

theorem bind_le {m : Prog V α} {k : α → Prog V β} (hm : ∀ d, All (m d) (Le d)) (hk : ∀ a d, All (k a d) (Le d)) (d : Disk V) :
    All (bind m k d) (Le d) :=
  All.bind (hm d) fun a _ => (hk a _).mono fun _ h => (hm d).2.trans h

theorem le_of {o : Out V α} {d : Disk V} (h : All o (fun d' => Le d d' ∧ d'.fishers = d.fishers)) : All o (Le d) :=
  h.mono fun _ h => h.1

theorem forecast_le (C : Comp V) (d : Disk V) : All (forecast C d) (Le d) :=
  bind_le (fun d => le_of (densities_le C d)) (fun n => bind_le (fun d => le_of (fiducial_le C n d)) fun c =>
    bind_le (fun d => le_of (derivatives_le C n c d)) fun x => bind_le (fun d => le_of (covariance_le C d)) fun v =>
      bind_le (saveFishers_le C v x _) fun _ => bind_le (saveFishers_le C v x _) fun _ => bind_le (writeGcsp_le C) fun _ =>
        finalResults_le C) d

/-- A program fails if its second part fails on whatever the first leaves. -/
theorem bind_fails {m : Prog V α} {k : α → Prog V β} {d : Disk V} {P : Disk V → Prop} (hm : P (m d).final)
    (hk : ∀ a d', P d' → (k a d').res = none) : (bind m k d).res = none := by
  unfold bind
  cases h : (m d).res with
  | none => rfl
  | some a => exact hk a _ hm

theorem bind_fails_first {m : Prog V α} {k : α → Prog V β} {d : Disk V} (hm : (m d).res = none) : (bind m k d).res = none := by
  unfold bind
  rw [hm]

end Seyfert.Resume
