import Verif.Lemmas.FisherHistory

/-!
C121. The Fisher task: whatever is killed, started again or run at the same time, no wrong Fisher matrix is ever written
and none is lost; from a fresh directory or with overwriting both ways of running it give all Fisher matrices, in any
order of the steps of the jobs; which interrupted directories each way of running can and cannot complete.
-/

namespace Seyfert.FTask

open Resume (File)

variable {V : Type} {C : Comp V}

/-! ### Any history -/

/-- Whatever jobs are started, at whatever times, with whatever data vectors, in whatever order their steps are made and
wherever they are killed, every Fisher matrix and table that can be read is right. -/
theorem never_wrong (hC : C.Local) {s : Sys V} (h : Relation.ReflTransGen (Happens C) Sys.empty s) : Right C s.disk :=
  (inv_history hC (inv_empty C) h).right

/-- And a Fisher matrix that is there stays. -/
theorem never_lost (hC : C.Local) {s s' : Sys V} (h : Relation.ReflTransGen (Happens C) Sys.empty s)
    (h' : Relation.ReflTransGen (Happens C) s s') {name : Str} {v : V}
    (hv : s.disk.fishers.lookup name = some (.full v)) : s'.disk.fishers.lookup name = some (.full v) := by
  have hs := inv_history hC (inv_empty C) h
  clear h
  induction h' with
  | refl => exact hv
  | @tail s1 s2 h1 h2 ih =>
    have hs1 := inv_history hC hs h1
    cases h2 with
    | run h =>
      cases h with
      | run i j j' d' hj hst =>
        have hd := step_does hst
        cases hd
        case create n r w hf =>
          have hne : name ≠ n := by
            rintro rfl
            simp [ih] at hf
          simp only [PyDict.lookup_set, hne, if_false]
          exact ih
        case save n r w =>
          have hne : name ≠ n := by
            rintro rfl
            have := hs1.excl.saving i _ w name r hj rfl rfl rfl
            simp [ih] at this
          simp only [PyDict.lookup_set, hne, if_false]
          exact ih
        all_goals exact ih
    | kill i j hj => exact ih
    | start q => exact ih

/-- Nor is a table: the file of tables, if it can be read, has all that it ever had. -/
theorem tables_never_lost (hC : C.Local) {s s' : Sys V} (h : Relation.ReflTransGen (Happens C) Sys.empty s)
    (h' : Relation.ReflTransGen (Happens C) s s') {t t' : Dict Str V} {k : Str} {v : V}
    (ht : s.disk.autos = some (.full t)) (hk : t.lookup k = some v) (ht' : s'.disk.autos = some (.full t')) :
    t'.lookup k = some v := by
  have hs := inv_history hC (inv_empty C) h
  have hh : Has s' k := by
    have h0 : Has s k := Or.inl ⟨t, ht, by simp [hk]⟩
    clear ht'
    induction h' with
    | refl => exact h0
    | tail h1 h2 ih => exact has_happens (inv_history hC hs h1).excl ih h2
  have hs' := inv_history hC hs h'
  rcases hh with ⟨t1, h1, h2⟩ | ⟨h1, _⟩
  · rw [ht'] at h1
    cases h1
    obtain ⟨w, hw⟩ := Option.isSome_iff_exists.1 h2
    rw [hw, hs'.right.autos t' k w ht' hw, hs.right.autos t k v ht hk]
  · simp [ht'] at h1

/-- In every history the Fisher matrix of an auto-correlation is written after its table. -/
theorem tables_first (hC : C.Local) {s : Sys V} (h : Relation.ReflTransGen (Happens C) Sys.empty s)
    (hw : s.disk.autos ≠ some .unreadable) : Tables C s.disk := by
  have hs := inv_history hC (inv_empty C) h
  intro name k hk hf
  rcases hs.after.files name k hk hf with h1 | ⟨h1, _⟩
  · exact h1
  · exact absurd h1 hw

/-! ### The task -/

theorem task_exists (C : Comp V) (m : Mode) (ow : Bool) (d : Disk V) : ∃ d' ok, Task C m ow d d' ok := by
  obtain ⟨d1, ok1, h1⟩ := phase_exists C (clear ow d) (autoJobs C m (clear ow d))
  cases ok1 with
  | false => exact ⟨d1, false, d1, false, h1, rfl, rfl⟩
  | true =>
    obtain ⟨d', ok, h2⟩ := phase_exists C d1 (crossJobs C m)
    exact ⟨d', ok, d1, true, h1, h2⟩

/-- Which state the task ends in, when no auto-correlation has a Fisher matrix without a table and, in a batch run, none
has a table without a Fisher matrix: in every order of the steps of the jobs it does not fail, computes what was missing
and keeps every file that was there. -/
theorem task_result (hC : C.WF) {m : Mode} {ow : Bool} {d d' : Disk V} {ok : Bool} (hr : (clear ow d).autos ≠ some .unreadable)
    (hd : Right C (clear ow d)) (ht : Tables C (clear ow d))
    (hm : m = .interactive ∨ (clear ow d).autos = none ∨ ∀ a ∈ C.autos, ((clear ow d).fishers.lookup a).isSome)
    (h : Task C m ow d d' ok) :
    ok = true ∧
      (∀ n, d'.fishers.lookup n =
        if n ∈ C.autos ++ C.cross then after C (clear ow d) n else (clear ow d).fishers.lookup n) ∧
      ∃ t, d'.autos = some (.full t) ∧ ∀ a ∈ C.autos, ∀ k, C.single a = some k → t.lookup k = some (C.table k) := by
  obtain ⟨d1, ok1, h1, h2⟩ := h
  generalize clear ow d = d0 at hr hd ht hm h1
  obtain ⟨rfl, ha, hf⟩ := first_phase hC hr hm h1
  obtain ⟨t, hau, hs, hk⟩ := autos_serve hC hr hd ht
  have hnd := List.nodup_append.1 hC.nodup
  obtain ⟨rfl, ha', hf'⟩ := cross_phase hC.isLocal (t := t) (by rw [ha, hau]) (by rw [cross_flatten]; exact hs)
    (by rw [cross_flatten]; exact hnd.2.1) h2
  refine ⟨rfl, fun n => ?_, t, by rw [ha', ha, hau], hk⟩
  rw [hf' n, cross_flatten]
  by_cases hc : n ∈ C.cross
  · have hna : n ∉ C.autos := fun hna => hnd.2.2 n hna n hc rfl
    rw [if_pos hc, if_pos (List.mem_append_right _ hc)]
    unfold after
    rw [hf n, if_neg hna]
  · rw [if_neg hc, hf n]
    by_cases hna : n ∈ C.autos
    · rw [if_pos hna, if_pos (List.mem_append_left _ hna)]
    · rw [if_neg hna, if_neg (by simp [hna, hc])]

theorem right_empty (C : Comp V) : Right C (⟨none, []⟩ : Disk V) := ⟨by simp, by simp⟩

theorem tables_empty (C : Comp V) : Tables C (⟨none, []⟩ : Disk V) := by
  intro n k _ hf
  simp at hf

/-- In a fresh directory, or with `overwrite_results` whatever is there, the task can be run, and however the steps of its
jobs follow each other it does not fail and leaves the right Fisher matrices of all selected data vectors and nothing
else, in a batch run as in an interactive one. -/
theorem completes (hC : C.WF) (m : Mode) {ow : Bool} {d : Disk V} (h0 : ow = true ∨ d = ⟨none, []⟩) :
    (∃ d' ok, Task C m ow d d' ok) ∧ ∀ d' ok, Task C m ow d d' ok → ok = true ∧
      (∀ n, d'.fishers.lookup n = if n ∈ C.autos ++ C.cross then some (.full (C.right n)) else none) ∧
      ∃ t, d'.autos = some (.full t) ∧ ∀ a ∈ C.autos, ∀ k, C.single a = some k → t.lookup k = some (C.table k) := by
  have hc : clear ow d = ⟨none, []⟩ := by
    rcases h0 with rfl | rfl
    · rfl
    · cases ow <;> rfl
  refine ⟨task_exists C m ow d, fun d' ok h => ?_⟩
  obtain ⟨h1, h2, h3⟩ := task_result hC (by simp [hc]) (by rw [hc]; exact right_empty C) (by rw [hc]; exact tables_empty C)
    (Or.inr (Or.inl (by rw [hc]))) h
  refine ⟨h1, fun n => ?_, h3⟩
  rw [h2 n, hc]
  simp [after]

/-- Both ways of running give the same Fisher matrices. -/
theorem same_in_both_modes (hC : C.WF) {ow ow' : Bool} {d1 d2 d1' d2' : Disk V} {ok1 ok2 : Bool}
    (h1 : ow = true ∨ d1 = ⟨none, []⟩) (h2 : ow' = true ∨ d2 = ⟨none, []⟩) (t1 : Task C .interactive ow d1 d1' ok1)
    (t2 : Task C .batch ow' d2 d2' ok2) (n : Str) : d1'.fishers.lookup n = d2'.fishers.lookup n := by
  rw [((completes hC .interactive h1).2 _ _ t1).2.1 n, ((completes hC .batch h2).2 _ _ t2).2.1 n]

/-! ### After an interruption -/

theorem done_of_after {d d' : Disk V} {names : List Str} (hd : Right C d) (hw : Whole d)
    (h : ∀ n ∈ names, d'.fishers.lookup n = after C d n) : Done C names d' := by
  intro n hn
  rw [h n hn]
  match hf : d.fishers.lookup n with
  | none => exact after_none hf
  | some .unreadable => exact absurd hf (hw.2 n)
  | some (.full v) =>
    rw [after_some (by simp [hf]), hf, hd.fishers n v hf]

/-- Whatever was run and killed before, in whatever order: if it left no file cut off, running the task interactively
again does not fail and completes the directory. -/
theorem interactive_recovers (hC : C.WF) {s : Sys V} (h : Relation.ReflTransGen (Happens C) Sys.empty s)
    (hw : Whole s.disk) : ∀ d' ok, Task C .interactive false s.disk d' ok → ok = true ∧ Done C (C.autos ++ C.cross) d' := by
  intro d' ok ht
  obtain ⟨h1, h2, _⟩ := task_result (ow := false) hC hw.1 (never_wrong hC.isLocal h) (tables_first hC.isLocal h hw.1)
    (Or.inl rfl) ht
  exact ⟨h1, done_of_after (never_wrong hC.isLocal h) hw fun n hn => by rw [h2 n, if_pos hn]; rfl⟩

/-- A batch run completes the directory if, in addition, the job for the auto-correlations was not begun or was through
with them. (It does not otherwise: `batch_stuck`.) -/
theorem batch_recovers_partial (hC : C.WF) {s : Sys V} (h : Relation.ReflTransGen (Happens C) Sys.empty s)
    (hw : Whole s.disk) (ha : s.disk.autos = none ∨ ∀ a ∈ C.autos, (s.disk.fishers.lookup a).isSome) :
    ∀ d' ok, Task C .batch false s.disk d' ok → ok = true ∧ Done C (C.autos ++ C.cross) d' := by
  intro d' ok ht
  obtain ⟨h1, h2, _⟩ := task_result (ow := false) hC hw.1 (never_wrong hC.isLocal h) (tables_first hC.isLocal h hw.1)
    (Or.inr ha) ht
  exact ⟨h1, done_of_after (never_wrong hC.isLocal h) hw fun n hn => by rw [h2 n, if_pos hn]; rfl⟩

/-- The task run again and again without `overwrite_results`. -/
def Again (C : Comp V) (m : Mode) : Disk V → Disk V → Prop :=
  Relation.ReflTransGen fun d d' => ∃ ok, Task C m false d d' ok

theorem blocked_congr {d d' : Disk V} {n : Str} (h : Blocked C d n) (he : d'.autos = d.autos) : Blocked C d' n := by
  unfold Blocked at *
  rw [he]
  exact h

theorem blocked_task (hC : C.WF) {m : Mode} {d d' : Disk V} {ok : Bool} {n : Str} (hn : n ∈ C.autos ++ C.cross)
    (hb : Blocked C d n) (hf : d.fishers.lookup n = none)
    (hm : (d.autos = some .unreadable ∧ (m = .interactive ∨ n ∈ C.cross)) ∨ (m = .batch ∧ d.autos.isSome ∧ n ∈ C.cross))
    (h : Task C m false d d' ok) : ok = false ∧ d'.autos = d.autos ∧ d'.fishers.lookup n = none := by
  obtain ⟨d1, ok1, h1, h2⟩ := h
  rw [show clear false d = d from rfl] at h1
  have hx : (∀ q ∈ autoJobs C m d, ∀ a ∈ q, C.single a = none) ∨ d.autos = some .unreadable := by
    rcases hm with hm | ⟨rfl, hs, _⟩
    · exact Or.inr hm.1
    · exact Or.inl (by simp [autoJobs, hs])
  obtain ⟨e1, e2, e3⟩ := blocked_phase hb hf hx h1
  cases ok1 with
  | false =>
    obtain ⟨rfl, rfl⟩ := h2
    exact ⟨rfl, e1, e2⟩
  | true =>
    have hcr : ∀ q ∈ crossJobs C m, ∀ a ∈ q, C.single a = none := fun q hq a ha =>
      hC.cross a (by rw [← cross_flatten C m]; exact List.mem_flatten.2 ⟨q, hq, ha⟩)
    obtain ⟨g1, g2, g3⟩ := blocked_phase (blocked_congr hb e1) e2 (Or.inl hcr) h2
    refine ⟨?_, g1.trans e1, g2⟩
    by_cases hc : n ∈ C.cross
    · exact g3 (by rw [cross_flatten]; exact hc)
    · have hna : n ∈ C.autos := by
        rcases List.mem_append.1 hn with hna | hx
        · exact hna
        · exact absurd hx hc
      rcases hm with ⟨_, hm | hx⟩ | ⟨_, _, hx⟩
      · exact absurd (e3 (by simp [autoJobs, hm, hna])) (by simp)
      · exact absurd hx hc
      · exact absurd hx hc

theorem again_blocked (hC : C.WF) {m : Mode} {d d' : Disk V} {n : Str} (hn : n ∈ C.autos ++ C.cross)
    (hb : Blocked C d n) (hf : d.fishers.lookup n = none)
    (hm : (d.autos = some .unreadable ∧ (m = .interactive ∨ n ∈ C.cross)) ∨ (m = .batch ∧ d.autos.isSome ∧ n ∈ C.cross))
    (h : Again C m d d') : d'.autos = d.autos ∧ d'.fishers.lookup n = none := by
  induction h with
  | refl => exact ⟨rfl, hf⟩
  | tail _ h ih =>
    obtain ⟨ok, h⟩ := h
    obtain ⟨_, h1, h2⟩ := blocked_task hC hn (blocked_congr hb ih.1) ih.2 (by rw [ih.1]; exact hm) h
    exact ⟨h1.trans ih.1, h2⟩

/-- A batch run that finds too few tables, or not those of some data vector without a file, fails, and so does every one
after it: nothing is ever added to a file of tables that exists. -/
theorem batch_stuck (hC : C.WF) {d d' d'' : Disk V} {t : Dict Str V} {n : Str} {ok : Bool}
    (ht : d.autos = some (.full t)) (hn : n ∈ C.cross) (hf : d.fishers.lookup n = none)
    (hb : t.length < 3 ∨ ∃ p ∈ C.probes n, t.lookup p = none) (h : Again C .batch d d') (h' : Task C .batch false d' d'' ok) :
    ok = false ∧ d''.fishers.lookup n = none := by
  have hbl : Blocked C d n := Or.inr ⟨hC.cross n hn, fun t' ht' => by rw [ht] at ht'; cases ht'; exact hb⟩
  have hn' : n ∈ C.autos ++ C.cross := List.mem_append_right _ hn
  obtain ⟨h1, h2⟩ := again_blocked hC hn' hbl hf (Or.inr ⟨rfl, by simp [ht], hn⟩) h
  obtain ⟨g1, _, g2⟩ := blocked_task hC hn' (blocked_congr hbl h1) h2 (Or.inr ⟨rfl, by simp [h1, ht], hn⟩) h'
  exact ⟨g1, g2⟩

/-- A file of tables that was cut off makes the task fail for ever, in both ways of running it, while a data vector other
than an auto-correlation has no file. -/
theorem cut_off_tables_stuck (hC : C.WF) {m : Mode} {d d' d'' : Disk V} {n : Str} {ok : Bool}
    (ht : d.autos = some .unreadable) (hn : n ∈ C.cross) (hf : d.fishers.lookup n = none)
    (h : Again C m d d') (h' : Task C m false d' d'' ok) : ok = false ∧ d''.fishers.lookup n = none := by
  have hbl : Blocked C d n := Or.inr ⟨hC.cross n hn, fun t' ht' => by simp [ht] at ht'⟩
  have hn' : n ∈ C.autos ++ C.cross := List.mem_append_right _ hn
  obtain ⟨h1, h2⟩ := again_blocked hC hn' hbl hf (Or.inl ⟨ht, Or.inr hn⟩) h
  obtain ⟨g1, _, g2⟩ := blocked_task hC hn' (blocked_congr hbl h1) h2 (Or.inl ⟨by rw [h1, ht], Or.inr hn⟩) h'
  exact ⟨g1, g2⟩

/-- Without `overwrite_results` the task changes no file of a Fisher matrix that is there, complete or not, whether or not
it fails: one cut off stays so. -/
theorem task_keeps {m : Mode} {d d' : Disk V} {ok : Bool} {n : Str} {f : File V} (hf : d.fishers.lookup n = some f)
    (h : Task C m false d d' ok) : d'.fishers.lookup n = some f := by
  obtain ⟨d1, ok1, h1, h2⟩ := h
  have hf1 := phase_keeps (C := C) (show (clear false d).fishers.lookup n = some f from hf) h1
  cases ok1 with
  | false =>
    obtain ⟨rfl, _⟩ := h2
    exact hf1
  | true => exact phase_keeps hf1 h2

/-- And one cut off does not make it fail: after a history that left Fisher matrices cut off but not the tables, the
interactive task reports success with every other Fisher matrix right and those cut off as they were. -/
theorem cut_off_skipped (hC : C.WF) {s : Sys V} (h : Relation.ReflTransGen (Happens C) Sys.empty s)
    (hw : s.disk.autos ≠ some .unreadable) {d' : Disk V} {ok : Bool} (ht : Task C .interactive false s.disk d' ok) :
    ok = true ∧ ∀ n ∈ C.autos ++ C.cross,
      (s.disk.fishers.lookup n = some .unreadable → d'.fishers.lookup n = some .unreadable) ∧
      (s.disk.fishers.lookup n ≠ some .unreadable → d'.fishers.lookup n = some (.full (C.right n))) := by
  have hr := never_wrong hC.isLocal h
  obtain ⟨h1, h2, _⟩ := task_result (ow := false) hC hw hr (tables_first hC.isLocal h hw) (Or.inl rfl) ht
  refine ⟨h1, fun n hn => ⟨fun hu => task_keeps hu ht, fun hu => ?_⟩⟩
  rw [h2 n, if_pos hn]
  show after C s.disk n = _
  match hf : s.disk.fishers.lookup n with
  | none => exact after_none hf
  | some .unreadable => exact absurd hf hu
  | some (.full v) => rw [after_some (by simp [hf]), hf, hr.fishers n v hf]

/-- A batch run that finds all tables computes no auto-correlation: it reports success, and a Fisher matrix of an
auto-correlation that was missing is still missing. -/
theorem batch_incomplete (hC : C.WF) {d d' : Disk V} {t : Dict Str V} {ok : Bool} (hd : Right C d)
    (ht : d.autos = some (.full t)) (hk : ∀ a ∈ C.autos, ∀ k, C.single a = some k → (t.lookup k).isSome)
    (h3 : 3 ≤ t.length) (h : Task C .batch false d d' ok) :
    ok = true ∧ (∀ n ∈ C.cross, d'.fishers.lookup n = after C d n) ∧
      ∀ a ∈ C.autos, d'.fishers.lookup a = d.fishers.lookup a := by
  obtain ⟨d1, ok1, h1, h2⟩ := h
  rw [show clear false d = d from rfl, show autoJobs C .batch d = [] by simp [autoJobs, ht]] at h1
  obtain ⟨rfl, rfl⟩ := no_phase h1
  have hs : Serves C t C.cross := ⟨h3, fun k v => hd.autos t k v ht, hC.cross, fun n hn p hp => by
    obtain ⟨a, ha, hka⟩ := hC.probes n hn p hp
    exact hk a ha p hka⟩
  have hnd := List.nodup_append.1 hC.nodup
  obtain ⟨rfl, _, hf⟩ := cross_phase hC.isLocal ht (by rw [cross_flatten]; exact hs) (by rw [cross_flatten]; exact hnd.2.1) h2
  refine ⟨rfl, fun n hn => ?_, fun a ha => ?_⟩
  · rw [hf n, cross_flatten, if_pos hn]
  · rw [hf a, cross_flatten, if_neg fun hc => hnd.2.2 a ha a hc rfl]

/-! ### The selected data vectors -/

/-- The brief strings of the auto-correlations selected. -/
def autoNames : List Str := ["wlwl".toList, "phph".toList, "spsp".toList]

/-- Those of the other data vectors selected. -/
def crossNames : List Str :=
  ["wlwl_phph".toList, "wlwl_phph_wlph".toList, "wlwl_wlph".toList, "phph_wlph".toList, "wlph".toList,
   "wlwl_spsp".toList, "wlwl_spsp_wlsp".toList, "wlwl_wlsp".toList, "spsp_wlsp".toList, "wlsp".toList,
   "phph_spsp".toList, "phph_spsp_phsp".toList, "phph_phsp".toList, "spsp_phsp".toList, "phsp".toList,
   "wlwl_phph_spsp".toList, "wlwl_phph_spsp_wlph_wlsp_phsp".toList, "wlwl_phph_spsp_wlph_phsp".toList,
   "wlwl_phph_spsp_wlph_wlsp".toList, "wlwl_phph_spsp_wlsp_phsp".toList, "wlwl_phph_spsp_wlph".toList,
   "wlwl_phph_spsp_wlsp".toList, "wlwl_phph_spsp_phsp".toList, "wlwl_phph_wlph_wlsp_phsp".toList,
   "wlwl_phph_wlph_wlsp".toList, "wlwl_phph_wlph_phsp".toList, "wlwl_phph_wlsp_phsp".toList,
   "wlwl_phph_wlsp".toList, "wlwl_phph_phsp".toList, "spsp_wlph".toList]

theorem selected_names : (match loadSelected selectedLines with
    | .ok dvs => (match briefStrings dvs with
      | .ok p => decide (p = (autoNames, crossNames))
      | .error _ => false)
    | .error _ => false) = true := by decide +kernel

theorem selected_autos : (autoNames.all (fun n => (singleOf n).isSome) && decide (3 ≤ autoNames.length) &&
    decide ((autoNames.map singleOf).Nodup)) = true := by decide +kernel

theorem selected_nodup : (decide ((autoNames ++ crossNames).Nodup) && decide (crossNames ≠ []) &&
    decide ((autoNames ++ crossNames).length = 33)) = true := by decide +kernel

theorem selected_cross : (crossNames.all (fun n => (singleOf n).isNone)) = true := by decide +kernel

theorem selected_probes : (crossNames.all (fun n => (probesOf n).all fun p =>
    autoNames.any fun x => decide (singleOf x = some p))) = true := by decide +kernel

/-- The task on the selected data vectors. -/
def selectedComp (table autoFisher : Str → V) (fisher : Str → (Str → Option V) → V) : Comp V :=
  ⟨autoNames, crossNames, singleOf, probesOf, table, autoFisher, fisher⟩

/-- The file of selected data vectors is read: 33 data vectors, the first three single auto-correlations of different
probes, and what the task needs of them holds. -/
theorem selected_wf (table autoFisher : Str → V) (fisher : Str → (Str → Option V) → V)
    (hl : ∀ name f g, (∀ p ∈ probesOf name, f p = g p) → fisher name f = fisher name g) :
    compOf selectedLines table autoFisher fisher = .ok (selectedComp table autoFisher fisher) ∧
      (selectedComp table autoFisher fisher).WF ∧ (autoNames ++ crossNames).length = 33 := by
  have h1 := selected_autos
  have h2 := selected_nodup
  have h3 := selected_cross
  have h4 := selected_probes
  simp only [Bool.and_eq_true, decide_eq_true_eq, List.all_eq_true, List.any_eq_true] at h1 h2 h3 h4
  refine ⟨?_, ⟨hl, h1.1.1, h1.1.2, h1.2, fun n hn => Option.isNone_iff_eq_none.1 (h3 n hn), h4, h2.1.1, h2.1.2⟩, h2.2⟩
  have h := selected_names
  unfold compOf
  split at h
  · rename_i dvs hd
    split at h
    · rename_i p hb
      rw [decide_eq_true_eq] at h
      subst h
      rw [hd]
      simp only [hb]
      rfl
    · simp at h
  · simp at h

/-! ### Histories that need care -/

/-- What happens next: a job makes a step, is killed, is started. -/
inductive Act where
  | run (i : Nat)
  | kill (i : Nat)
  | start (queue : List Str)

def perform (C : Comp V) (s : Sys V) : Act → Option (Sys V)
  | .run i => match s.jobs[i]? with
    | none => none
    | some j => (step C s.disk j).map fun r => ⟨r.1, s.jobs.set i r.2⟩
  | .kill i => (s.jobs[i]?).map fun j => ⟨s.disk, s.jobs.set i { j with failed := true }⟩
  | .start q => some ⟨s.disk, s.jobs ++ [fresh q]⟩

theorem perform_happens {s s' : Sys V} {a : Act} (h : perform C s a = some s') : Happens C s s' := by
  cases a with
  | run i =>
    unfold perform at h
    cases hj : s.jobs[i]? with
    | none => simp [hj] at h
    | some j =>
      simp only [hj, Option.map_eq_some_iff] at h
      obtain ⟨⟨d', j'⟩, h1, rfl⟩ := h
      exact .run (.run i j j' d' hj h1)
  | kill i =>
    unfold perform at h
    rw [Option.map_eq_some_iff] at h
    obtain ⟨j, h1, rfl⟩ := h
    exact .kill i j h1
  | start q =>
    cases h
    exact .start q

theorem script_happens {l : List Act} {s s' : Sys V} (h : l.foldlM (perform C) s = some s') :
    Relation.ReflTransGen (Happens C) s s' := by
  induction l generalizing s with
  | nil =>
    cases h
    exact .refl
  | cons a l ih =>
    rw [List.foldlM_cons] at h
    obtain ⟨s1, h1, h2⟩ := Option.bind_eq_some_iff.1 h
    exact .head (perform_happens h1) (ih h2)

def readable (d : Disk V) : Bool := d.fishers.all fun p => match p.2 with
  | .full _ => true
  | .unreadable => false

theorem whole_of_readable {d : Disk V} {t : Dict Str V} (h : readable d = true) (ht : d.autos = some (.full t)) : Whole d := by
  refine ⟨by simp [ht], fun n hn => ?_⟩
  have := List.all_eq_true.1 h _ (PyDict.mem_of_lookup hn)
  simp at this

/-- The task on the selected data vectors, with numbers for matrices. -/
def exC : Comp Nat := selectedComp (fun k => k.length) (fun n => 10 * n.length) (fun n f => 100 * n.length +
  ((probesOf n).map fun p => (f p).getD 7).sum)

theorem exC_wf : exC.WF := by
  refine (selected_wf _ _ _ fun name f g h => ?_).2.1
  have : ((probesOf name).map fun p => (f p).getD 7) = (probesOf name).map fun p => (g p).getD 7 :=
    List.map_congr_left fun p hp => by rw [h p hp]
  rw [this]

/-- A history in which the first job makes some steps and is killed. -/
def cutAfter (n : Nat) : List Act := .start autoNames :: (List.replicate n (.run 0) ++ [.kill 0])

theorem script_state {C : Comp V} {l : List Act} {chk : Sys V → Bool}
    (h : (match l.foldlM (perform C) Sys.empty with
      | some s => s.jobs.all (fun j => j.failed) && chk s
      | none => false) = true) :
    ∃ s, Relation.ReflTransGen (Happens C) Sys.empty s ∧ (∀ j ∈ s.jobs, step C s.disk j = none) ∧ chk s = true := by
  split at h
  · rename_i s hs
    rw [Bool.and_eq_true, List.all_eq_true] at h
    exact ⟨s, script_happens hs, fun j hj => over_iff.2 (Or.inl (h.1 j hj)), h.2⟩
  · simp at h

def chkStuck (s : Sys Nat) : Bool := readable s.disk && (s.disk.fishers.lookup "wlph".toList).isNone &&
  match s.disk.autos with
  | some (.full t) => decide (t.length < 3)
  | _ => false

/-- A job for the auto-correlations killed between two of them leaves complete files only, and yet no batch run without
`overwrite_results` ever succeeds again in that directory. -/
theorem batch_can_get_stuck : ∃ s, Relation.ReflTransGen (Happens exC) Sys.empty s ∧
    (∀ j ∈ s.jobs, step exC s.disk j = none) ∧ Whole s.disk ∧
    ∀ d' d'' ok, Again exC .batch s.disk d' → Task exC .batch false d' d'' ok → ok = false := by
  obtain ⟨s, h1, h2, h3⟩ := script_state (C := exC) (l := cutAfter 4) (chk := chkStuck) (by decide +kernel)
  unfold chkStuck at h3
  simp only [Bool.and_eq_true, Option.isNone_iff_eq_none] at h3
  obtain ⟨⟨hr, hn⟩, ht⟩ := h3
  match hau : s.disk.autos with
  | none => simp [hau] at ht
  | some .unreadable => simp [hau] at ht
  | some (.full t) =>
    rw [hau] at ht
    simp only [decide_eq_true_eq] at ht
    refine ⟨s, h1, h2, whole_of_readable hr hau, fun d' d'' ok ha hta => ?_⟩
    have hmem : "wlph".toList ∈ exC.cross := by
      show "wlph".toList ∈ crossNames
      decide +kernel
    exact (batch_stuck exC_wf hau hmem hn (Or.inl ht) ha hta).1

def chkIncomplete (s : Sys Nat) : Bool := readable s.disk && (s.disk.fishers.lookup "spsp".toList).isNone &&
  match s.disk.autos with
  | some (.full t) => decide (3 ≤ t.length) && autoNames.all fun a => match singleOf a with
    | some k => (t.lookup k).isSome
    | none => false
  | _ => false

/-- Killed between the last table and the last Fisher matrix, it leaves a directory in which a batch run succeeds and the
Fisher matrix of that auto-correlation is still missing. -/
theorem batch_can_be_incomplete : ∃ s, Relation.ReflTransGen (Happens exC) Sys.empty s ∧
    (∀ j ∈ s.jobs, step exC s.disk j = none) ∧ Whole s.disk ∧ "spsp".toList ∈ exC.autos ∧
    ∀ d' ok, Task exC .batch false s.disk d' ok → ok = true ∧ d'.fishers.lookup "spsp".toList = none := by
  obtain ⟨s, h1, h2, h3⟩ := script_state (C := exC) (l := cutAfter 10) (chk := chkIncomplete) (by decide +kernel)
  unfold chkIncomplete at h3
  simp only [Bool.and_eq_true, Option.isNone_iff_eq_none] at h3
  obtain ⟨⟨hr, hn⟩, ht⟩ := h3
  have hmem : "spsp".toList ∈ exC.autos := by
    show "spsp".toList ∈ autoNames
    decide +kernel
  match hau : s.disk.autos with
  | none => simp [hau] at ht
  | some .unreadable => simp [hau] at ht
  | some (.full t) =>
    rw [hau] at ht
    simp only [Bool.and_eq_true, decide_eq_true_eq, List.all_eq_true] at ht
    refine ⟨s, h1, h2, whole_of_readable hr hau, hmem, fun d' ok hta => ?_⟩
    obtain ⟨g1, _, g2⟩ := batch_incomplete exC_wf (never_wrong exC_wf.isLocal h1) hau (fun a ha k hk => by
      have := ht.2 a ha
      rw [show singleOf a = some k from hk] at this
      exact this) ht.1 hta
    exact ⟨g1, by rw [g2 _ hmem, hn]⟩

def chkCut (s : Sys Nat) : Bool := (match s.disk.fishers.lookup "wlwl".toList with
  | some .unreadable => true
  | _ => false) && match s.disk.autos with
  | some (.full _) => true
  | _ => false

/-- Killed while it writes a Fisher matrix, it leaves a directory in which the interactive task succeeds and that file is
still unreadable. -/
theorem cut_off_can_be_skipped : ∃ s, Relation.ReflTransGen (Happens exC) Sys.empty s ∧
    (∀ j ∈ s.jobs, step exC s.disk j = none) ∧ "wlwl".toList ∈ exC.autos ∧
    ∀ d' ok, Task exC .interactive false s.disk d' ok →
      ok = true ∧ d'.fishers.lookup "wlwl".toList = some .unreadable := by
  obtain ⟨s, h1, h2, h3⟩ := script_state (C := exC) (l := cutAfter 3) (chk := chkCut) (by decide +kernel)
  unfold chkCut at h3
  simp only [Bool.and_eq_true] at h3
  obtain ⟨hf, ht⟩ := h3
  have hmem : "wlwl".toList ∈ exC.autos := by
    show "wlwl".toList ∈ autoNames
    decide +kernel
  split at hf
  · rename_i hfl
    split at ht
    · rename_i t hau
      refine ⟨s, h1, h2, hmem, fun d' ok hta => ?_⟩
      obtain ⟨g1, g2⟩ := cut_off_skipped exC_wf h1 (by rw [hau]; exact fun hc => by cases hc) hta
      exact ⟨g1, (g2 _ (List.mem_append_left _ hmem)).1 hfl⟩
    · cases ht
  · cases hf

/-! ### Examples -/

example (d : Disk Nat) : ∀ d' ok, Task exC .batch true d d' ok → ok = true ∧
    d'.fishers.lookup "wlwl_wlph".toList = some (.full 902) := by
  intro d' ok h
  obtain ⟨h1, h2, _⟩ := (completes exC_wf .batch (Or.inl rfl)).2 d' ok h
  refine ⟨h1, ?_⟩
  rw [h2, if_pos (show "wlwl_wlph".toList ∈ exC.autos ++ exC.cross by decide +kernel)]
  rw [show exC.right "wlwl_wlph".toList = 902 by decide +kernel]

end Seyfert.FTask
