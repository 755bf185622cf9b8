import Verif.Lemmas.FisherTask
import Mathlib.Data.List.Induction

/-! Lemmas on the two phases of the Fisher task. -/

namespace Seyfert.FTask

open Resume (File)

variable {V : Type} {C : Comp V}

theorem fresh_get {qs : List (List Str)} {i : Nat} {j : Job V} (h : (qs.map fresh)[i]? = some j) :
    ∃ q, qs[i]? = some q ∧ j = fresh q := by
  rw [List.getElem?_map, Option.map_eq_some_iff] at h
  obtain ⟨q, h1, h2⟩ := h
  exact ⟨q, h1, h2.symm⟩

/-! ### Data vectors that use tables -/

/-- Where a job is that began with the data vectors `q` in the directory `d0`. -/
def AtStage (C : Comp V) (d0 d : Disk V) : Stage V → List Str → Prop
  | .idle, l => ∀ n ∈ l, d.fishers.lookup n = d0.fishers.lookup n
  | .computed v, n :: r => v = C.right n ∧ d0.fishers.lookup n = none ∧
      ∀ m ∈ n :: r, d.fishers.lookup m = d0.fishers.lookup m
  | .saving v, n :: r => v = C.right n ∧ d0.fishers.lookup n = none ∧ ∀ m ∈ r, d.fishers.lookup m = d0.fishers.lookup m
  | _, _ => False

structure CrossJob (C : Comp V) (d0 d : Disk V) (q : List Str) (j : Job V) : Prop where
  live : j.failed = false
  part : ∃ pre, q = pre ++ j.queue ∧ ∀ n ∈ pre, d.fishers.lookup n = after C d0 n
  at_ : AtStage C d0 d j.stage j.queue

/-- The file of tables serves these data vectors. -/
structure Serves (C : Comp V) (t : Dict Str V) (names : List Str) : Prop where
  three : 3 ≤ t.length
  right : ∀ k v, t.lookup k = some v → v = C.table k
  cross : ∀ n ∈ names, C.single n = none
  probes : ∀ n ∈ names, ∀ p ∈ C.probes n, (t.lookup p).isSome

theorem after_none {d : Disk V} {n : Str} (h : d.fishers.lookup n = none) : after C d n = some (.full (C.right n)) := by
  simp [after, h]

theorem after_some {d : Disk V} {n : Str} (h : (d.fishers.lookup n).isSome) : after C d n = d.fishers.lookup n := by
  obtain ⟨v, hv⟩ := Option.isSome_iff_exists.1 h
  simp [after, hv]

theorem CrossJob.frame {d0 d d' : Disk V} {q : List Str} {j : Job V} (h : CrossJob C d0 d q j)
    (he : ∀ n ∈ q, d'.fishers.lookup n = d.fishers.lookup n) : CrossJob C d0 d' q j := by
  obtain ⟨pre, hq, hp⟩ := h.part
  have hin : ∀ n ∈ j.queue, n ∈ q := fun n hn => by rw [hq]; exact List.mem_append_right _ hn
  refine ⟨h.live, ⟨pre, hq, fun n hn => ?_⟩, ?_⟩
  · rw [he n (by rw [hq]; exact List.mem_append_left _ hn)]
    exact hp n hn
  · have ha := h.at_
    generalize j.stage = st at ha ⊢
    generalize j.queue = l at ha hin ⊢
    cases st with
    | idle => exact fun n hn => by rw [he n (hin n hn)]; exact ha n hn
    | opened t => exact ha
    | computed v =>
      cases l with
      | nil => exact ha
      | cons n r => exact ⟨ha.1, ha.2.1, fun m hm => by rw [he m (hin m hm)]; exact ha.2.2 m hm⟩
    | saving v =>
      cases l with
      | nil => exact ha
      | cons n r =>
        exact ⟨ha.1, ha.2.1, fun m hm => by rw [he m (hin m (List.mem_cons_of_mem _ hm))]; exact ha.2.2 m hm⟩

theorem cross_does (hC : C.Local) {d0 d d' : Disk V} {q : List Str} {j j' : Job V} {t : Dict Str V}
    (ht : d.autos = some (.full t)) (hs : Serves C t q) (hq : q.Nodup) (h : CrossJob C d0 d q j) (hd : Does C d j d' j') :
    CrossJob C d0 d' q j' ∧ d'.autos = d.autos ∧ ∀ n, n ∉ q → d'.fishers.lookup n = d.fishers.lookup n := by
  obtain ⟨hlive, ⟨pre, hpre, hdone⟩, ha⟩ := h
  cases hd
  case skip n r hf =>
    have hn : d.fishers.lookup n = d0.fishers.lookup n := ha n (by simp)
    refine ⟨⟨rfl, ⟨pre ++ [n], by simpa using hpre, fun m hm => ?_⟩, fun m hm => ha m (List.mem_cons_of_mem _ hm)⟩,
      rfl, fun _ _ => rfl⟩
    rcases List.mem_append.1 hm with hm | hm
    · exact hdone m hm
    · obtain rfl := List.mem_singleton.1 hm
      rw [hn, after_some (by rw [← hn]; exact hf)]
  case enter n r k t' hf hk _ =>
    have := hs.cross n (by rw [hpre]; simp)
    simp [hk] at this
  case use n r t' hf hk ht' h3 hp =>
    refine ⟨⟨rfl, ⟨pre, hpre, hdone⟩, ?_, ?_, ha⟩, rfl, fun _ _ => rfl⟩
    · rw [ht] at ht'
      cases ht'
      exact right_of_tables hC hk hs.right hp
    · rw [← ha n (by simp)]
      exact hf
  case refuse n r hf hb =>
    exfalso
    have hn : n ∈ q := by rw [hpre]; simp
    rcases hb with ⟨h1, _⟩ | ⟨_, hb⟩
    · rw [hs.cross n hn] at h1
      simp at h1
    · rcases hb t ht with h3 | ⟨p, hp, hpn⟩
      · exact absurd hs.three (by omega)
      · have := hs.probes n hn p hp
        simp [hpn] at this
  case leave n r t' => exact ha.elim
  case create n r v hf =>
    have hnd : (n :: r).Nodup := by
      rw [hpre] at hq
      exact hq.of_append_right
    refine ⟨⟨rfl, ⟨pre, hpre, fun m hm => ?_⟩, ha.1, ha.2.1, fun m hm => ?_⟩, rfl, fun m hm => ?_⟩
    · have : m ≠ n := by
        rintro rfl
        rw [hpre] at hq
        exact (List.nodup_append.1 hq).2.2 m hm m (by simp) rfl
      simp only [PyDict.lookup_set, this, if_false]
      exact hdone m hm
    · have : m ≠ n := fun he => (List.nodup_cons.1 hnd).1 (he ▸ hm)
      simp only [PyDict.lookup_set, this, if_false]
      exact ha.2.2 m (List.mem_cons_of_mem _ hm)
    · have : m ≠ n := by
        rintro rfl
        exact hm (by rw [hpre]; simp)
      simp only [PyDict.lookup_set, this, if_false]
  case clash n r v hf =>
    exfalso
    rw [ha.2.2 n (by simp), ha.2.1] at hf
    simp at hf
  case save n r v =>
    have hnd : (n :: r).Nodup := by
      rw [hpre] at hq
      exact hq.of_append_right
    refine ⟨⟨rfl, ⟨pre ++ [n], by simpa using hpre, fun m hm => ?_⟩, fun m hm => ?_⟩, rfl, fun m hm => ?_⟩
    · rcases List.mem_append.1 hm with hm' | hm
      · have : m ≠ n := by
          rintro rfl
          rw [hpre] at hq
          exact (List.nodup_append.1 hq).2.2 m hm' m (by simp) rfl
        simp only [PyDict.lookup_set, this, if_false]
        exact hdone m hm'
      · obtain rfl := List.mem_singleton.1 hm
        simp only [PyDict.lookup_set, if_true]
        rw [after_none ha.2.1, ha.1]
    · have : m ≠ n := fun he => (List.nodup_cons.1 hnd).1 (he ▸ hm)
      simp only [PyDict.lookup_set, this, if_false]
      exact ha.2.2 m hm
    · have : m ≠ n := by
        rintro rfl
        exact hm (by rw [hpre]; simp)
      simp only [PyDict.lookup_set, this, if_false]

structure CrossInv (C : Comp V) (d0 : Disk V) (qs : List (List Str)) (s : Sys V) : Prop where
  autos : s.disk.autos = d0.autos
  len : s.jobs.length = qs.length
  jobs : ∀ (i : Nat) j q, s.jobs[i]? = some j → qs[i]? = some q → CrossJob C d0 s.disk q j
  other : ∀ n, n ∉ qs.flatten → s.disk.fishers.lookup n = d0.fishers.lookup n

theorem disjoint_get {qs : List (List Str)} (h : qs.flatten.Nodup) {i i' : Nat} {q q' : List Str} (hi : qs[i]? = some q)
    (hi' : qs[i']? = some q') (hne : i ≠ i') {n : Str} (hn : n ∈ q) : n ∉ q' := by
  have hp := (List.nodup_flatten.1 h).2
  rw [List.pairwise_iff_getElem] at hp
  obtain ⟨l1, e1⟩ := List.getElem?_eq_some_iff.1 hi
  obtain ⟨l2, e2⟩ := List.getElem?_eq_some_iff.1 hi'
  intro hn'
  rcases Nat.lt_or_gt_of_ne hne with hlt | hlt
  · have := hp i i' l1 l2 hlt
    rw [e1, e2] at this
    exact this hn hn'
  · have := hp i' i l2 l1 hlt
    rw [e1, e2] at this
    exact this hn' hn

/-- Data vectors that use tables, shared out to any number of jobs. -/
theorem cross_phase (hC : C.Local) {d d' : Disk V} {qs : List (List Str)} {ok : Bool} {t : Dict Str V}
    (ht : d.autos = some (.full t)) (hs : Serves C t qs.flatten) (hq : qs.flatten.Nodup) (h : Phase C d qs d' ok) :
    ok = true ∧ d'.autos = d.autos ∧
      ∀ n, d'.fishers.lookup n = if n ∈ qs.flatten then after C d n else d.fishers.lookup n := by
  have hinq : ∀ {i : Nat} {q : List Str}, qs[i]? = some q → ∀ n ∈ q, n ∈ qs.flatten := fun hi n hn =>
    List.mem_flatten.2 ⟨_, List.mem_of_getElem? hi, hn⟩
  have hstep : ∀ s s', CrossInv C d qs s → Run C s s' → CrossInv C d qs s' := by
    intro s s' hinv hr
    cases hr with
    | run i j j' d1 hj hst =>
      have hil : i < qs.length := by
        rw [← hinv.len]
        exact (List.getElem?_eq_some_iff.1 hj).1
      have hi : qs[i]? = some qs[i] := List.getElem?_eq_getElem hil
      have hsq : Serves C t qs[i] := ⟨hs.three, hs.right, fun n hn => hs.cross n (hinq hi n hn),
        fun n hn => hs.probes n (hinq hi n hn)⟩
      obtain ⟨h1, h2, h3⟩ := cross_does hC (by rw [hinv.autos]; exact ht) hsq
        ((List.nodup_flatten.1 hq).1 _ (List.getElem_mem hil)) (hinv.jobs i j _ hj hi) (step_does hst)
      refine ⟨by rw [h2]; exact hinv.autos, by simpa using hinv.len, fun a ja q ha hqa => ?_, fun n hn => ?_⟩
      · rcases get_set ha with ⟨rfl, rfl⟩ | ⟨hne, ha'⟩
        · rw [hi] at hqa
          cases hqa
          exact h1
        · exact (hinv.jobs a ja q ha' hqa).frame fun n hn => h3 n (disjoint_get hq hqa hi hne hn)
      · rw [h3 n (fun hc => hn (hinq hi n hc))]
        exact hinv.other n hn
  have h0 : CrossInv C d qs ⟨d, qs.map fresh⟩ := by
    refine ⟨rfl, by simp, fun i j q hj hqi => ?_, fun _ _ => rfl⟩
    obtain ⟨q', h1, rfl⟩ := fresh_get hj
    rw [hqi] at h1
    cases h1
    exact ⟨rfl, ⟨[], rfl, by simp⟩, fun _ _ => rfl⟩
  obtain ⟨js, hinv, hover, rfl⟩ := phase_rule hstep h0 h
  have hlen : js.length = qs.length := hinv.len
  have hjob : ∀ j ∈ js, j.failed = false := fun j hj => by
    obtain ⟨i, hi⟩ := List.getElem?_of_mem hj
    have hil : i < qs.length := by
      rw [← hlen]
      exact (List.getElem?_eq_some_iff.1 hi).1
    exact (hinv.jobs i j _ hi (List.getElem?_eq_getElem hil)).live
  refine ⟨by simpa using hjob, hinv.autos, fun n => ?_⟩
  split
  · rename_i hn
    obtain ⟨q, hqm, hnq⟩ := List.mem_flatten.1 hn
    obtain ⟨i, hi⟩ := List.getElem?_of_mem hqm
    have hil : i < js.length := by
      rw [hlen]
      exact (List.getElem?_eq_some_iff.1 hi).1
    have hji : js[i]? = some js[i] := List.getElem?_eq_getElem hil
    obtain ⟨pre, hpre, hdone⟩ := (hinv.jobs i _ q hji hi).part
    have hempty : js[i].queue = [] := by
      rcases hover _ (List.getElem_mem hil) with hf | he
      · simp [hjob _ (List.getElem_mem hil)] at hf
      · exact he
    rw [hempty, List.append_nil] at hpre
    exact hdone n (hpre ▸ hnq)
  · rename_i hn
    exact hinv.other n hn

/-! ### Auto-correlations -/

def addTable (C : Comp V) (d0 : Disk V) (o : Option (File (Dict Str V))) (a : Str) : Option (File (Dict Str V)) :=
  if (d0.fishers.lookup a).isSome then o
  else match C.single a, o with
    | some k, none => some (.full [(k, C.table k)])
    | some k, some (.full t) => some (.full (PyDict.set t k (C.table k)))
    | _, _ => o

def autosAfter (C : Comp V) (d0 : Disk V) (l : List Str) : Option (File (Dict Str V)) := l.foldl (addTable C d0) d0.autos

theorem autosAfter_snoc (C : Comp V) (d0 : Disk V) (l : List Str) (a : Str) :
    autosAfter C d0 (l ++ [a]) = addTable C d0 (autosAfter C d0 l) a := by
  simp [autosAfter]

def tabs : Option (File (Dict Str V)) → Dict Str V
  | some (.full t) => t
  | _ => []

theorem addTable_readable {d0 : Disk V} {o : Option (File (Dict Str V))} (h : o ≠ some .unreadable) (a : Str) :
    addTable C d0 o a ≠ some .unreadable := by
  unfold addTable
  split
  · exact h
  · split <;> simp_all

theorem autosAfter_readable {d0 : Disk V} (h : d0.autos ≠ some .unreadable) (l : List Str) :
    autosAfter C d0 l ≠ some .unreadable := by
  induction l using List.reverseRecOn with
  | nil => exact h
  | append_singleton l a ih =>
    rw [autosAfter_snoc]
    exact addTable_readable ih a

theorem addTable_lookup {d0 : Disk V} {o : Option (File (Dict Str V))} (h : o ≠ some .unreadable) (a k : Str) :
    (tabs (addTable C d0 o a)).lookup k =
      if d0.fishers.lookup a = none ∧ C.single a = some k then some (C.table k) else (tabs o).lookup k := by
  unfold addTable
  by_cases hf : (d0.fishers.lookup a).isSome
  · rw [if_pos hf, if_neg]
    rintro ⟨h1, _⟩
    rw [h1] at hf
    simp at hf
  · rw [if_neg hf]
    have hf' := Option.not_isSome_iff_eq_none.1 hf
    cases hs : C.single a with
    | none => simp
    | some k' =>
      rcases o with _ | _ | t
      · by_cases he : k = k'
        · subst he
          simp [tabs, hf']
        · have : ¬ k' = k := fun hc => he hc.symm
          have hb : (k == k') = false := beq_eq_false_iff_ne.2 he
          simp [tabs, hf', this, List.lookup_cons, hb]
      · exact absurd rfl h
      · simp only [tabs, PyDict.lookup_set, hf', true_and, Option.some.injEq]
        by_cases he : k = k'
        · subst he
          simp
        · have : ¬ k' = k := fun hc => he hc.symm
          simp [he, this]

theorem autosAfter_lookup {d0 : Disk V} (h : d0.autos ≠ some .unreadable) (l : List Str) (k : Str) :
    ((∃ a ∈ l, d0.fishers.lookup a = none ∧ C.single a = some k) →
      (tabs (autosAfter C d0 l)).lookup k = some (C.table k)) ∧
    ((¬ ∃ a ∈ l, d0.fishers.lookup a = none ∧ C.single a = some k) →
      (tabs (autosAfter C d0 l)).lookup k = (tabs d0.autos).lookup k) := by
  induction l using List.reverseRecOn with
  | nil => exact ⟨by simp, fun _ => rfl⟩
  | append_singleton l a ih =>
    rw [autosAfter_snoc, addTable_lookup (autosAfter_readable h l)]
    constructor
    · rintro ⟨b, hb, h1, h2⟩
      split
      · rfl
      · rename_i hn
        rcases List.mem_append.1 hb with hb | hb
        · exact ih.1 ⟨b, hb, h1, h2⟩
        · obtain rfl := List.mem_singleton.1 hb
          exact absurd ⟨h1, h2⟩ hn
    · intro hn
      rw [if_neg (fun hc => hn ⟨a, by simp, hc⟩)]
      exact ih.2 fun ⟨b, hb, hc⟩ => hn ⟨b, List.mem_append_left _ hb, hc⟩

/-- Where the only job of the first phase is. -/
def AutoStage (C : Comp V) (d0 d : Disk V) (pre : List Str) : Stage V → List Str → Prop
  | .idle, l => d.autos = autosAfter C d0 pre ∧ ∀ n ∈ l, d.fishers.lookup n = d0.fishers.lookup n
  | .opened t, n :: r => some (.full t) = autosAfter C d0 (pre ++ [n]) ∧ d0.fishers.lookup n = none ∧
      ∀ m ∈ n :: r, d.fishers.lookup m = d0.fishers.lookup m
  | .computed v, n :: r => v = C.right n ∧ d.autos = autosAfter C d0 (pre ++ [n]) ∧ d0.fishers.lookup n = none ∧
      ∀ m ∈ n :: r, d.fishers.lookup m = d0.fishers.lookup m
  | .saving v, n :: r => v = C.right n ∧ d.autos = autosAfter C d0 (pre ++ [n]) ∧ d0.fishers.lookup n = none ∧
      ∀ m ∈ r, d.fishers.lookup m = d0.fishers.lookup m
  | _, _ => False

structure AutoJob (C : Comp V) (d0 d : Disk V) (q : List Str) (j : Job V) : Prop where
  live : j.failed = false
  part : ∃ pre, q = pre ++ j.queue ∧ (∀ n ∈ pre, d.fishers.lookup n = after C d0 n) ∧
    AutoStage C d0 d pre j.stage j.queue
  other : ∀ n, n ∉ q → d.fishers.lookup n = d0.fishers.lookup n

theorem auto_does {d0 d d' : Disk V} {q : List Str} {j j' : Job V} (hr : d0.autos ≠ some .unreadable)
    (hs : ∀ n ∈ q, (C.single n).isSome) (hq : q.Nodup) (h : AutoJob C d0 d q j) (hd : Does C d j d' j') :
    AutoJob C d0 d' q j' := by
  obtain ⟨hlive, ⟨pre, hpre, hdone, ha⟩, hother⟩ := h
  cases hd
  case skip n r hf =>
    have hn : d.fishers.lookup n = d0.fishers.lookup n := ha.2 n (by simp)
    have hf0 : (d0.fishers.lookup n).isSome := by rw [← hn]; exact hf
    refine ⟨rfl, ⟨pre ++ [n], by simpa using hpre, fun m hm => ?_, ?_, fun m hm => ha.2 m (List.mem_cons_of_mem _ hm)⟩,
      hother⟩
    · rcases List.mem_append.1 hm with hm | hm
      · exact hdone m hm
      · obtain rfl := List.mem_singleton.1 hm
        rw [hn, after_some hf0]
    · rw [autosAfter_snoc]
      unfold addTable
      rw [if_pos hf0]
      exact ha.1
  case enter n r k t hf hk ht =>
    have hf0 : d0.fishers.lookup n = none := by rw [← ha.2 n (by simp)]; exact hf
    refine ⟨rfl, ⟨pre, hpre, hdone, ?_, hf0, ha.2⟩, hother⟩
    rw [autosAfter_snoc]
    unfold addTable
    rw [hf0, ← ha.1, hk]
    rcases ht with ⟨h1, rfl⟩ | ⟨t0, h1, rfl⟩ <;> rw [h1] <;> rfl
  case use n r t hf hk ht h3 hp =>
    have := hs n (by rw [hpre]; simp)
    simp [hk] at this
  case refuse n r hf hb =>
    exfalso
    rcases hb with ⟨_, h1⟩ | ⟨h1, _⟩
    · rw [ha.1] at h1
      exact autosAfter_readable hr pre h1
    · have := hs n (by rw [hpre]; simp)
      simp [h1] at this
  case leave n r t =>
    refine ⟨rfl, ⟨pre, hpre, hdone, ?_, ha.1, ha.2⟩, hother⟩
    obtain ⟨k, hk⟩ := Option.isSome_iff_exists.1 (hs n (by rw [hpre]; simp))
    simp only [Comp.right, hk]
  case create n r v hf =>
    have hnd : (n :: r).Nodup := by
      rw [hpre] at hq
      exact hq.of_append_right
    refine ⟨rfl, ⟨pre, hpre, fun m hm => ?_, ha.1, ha.2.1, ha.2.2.1, fun m hm => ?_⟩, fun m hm => ?_⟩
    · have : m ≠ n := by
        rintro rfl
        rw [hpre] at hq
        exact (List.nodup_append.1 hq).2.2 m hm m (by simp) rfl
      simp only [PyDict.lookup_set, this, if_false]
      exact hdone m hm
    · have : m ≠ n := fun he => (List.nodup_cons.1 hnd).1 (he ▸ hm)
      simp only [PyDict.lookup_set, this, if_false]
      exact ha.2.2.2 m (List.mem_cons_of_mem _ hm)
    · have : m ≠ n := by
        rintro rfl
        exact hm (by rw [hpre]; simp)
      simp only [PyDict.lookup_set, this, if_false]
      exact hother m hm
  case clash n r v hf =>
    exfalso
    rw [ha.2.2.2 n (by simp), ha.2.2.1] at hf
    simp at hf
  case save n r v =>
    have hnd : (n :: r).Nodup := by
      rw [hpre] at hq
      exact hq.of_append_right
    refine ⟨rfl, ⟨pre ++ [n], by simpa using hpre, fun m hm => ?_, ha.2.1, fun m hm => ?_⟩, fun m hm => ?_⟩
    · rcases List.mem_append.1 hm with hm' | hm
      · have : m ≠ n := by
          rintro rfl
          rw [hpre] at hq
          exact (List.nodup_append.1 hq).2.2 m hm' m (by simp) rfl
        simp only [PyDict.lookup_set, this, if_false]
        exact hdone m hm'
      · obtain rfl := List.mem_singleton.1 hm
        simp only [PyDict.lookup_set, if_true]
        rw [after_none ha.2.2.1, ha.1]
    · have : m ≠ n := fun he => (List.nodup_cons.1 hnd).1 (he ▸ hm)
      simp only [PyDict.lookup_set, this, if_false]
      exact ha.2.2.2 m hm
    · have : m ≠ n := by
        rintro rfl
        exact hm (by rw [hpre]; simp)
      simp only [PyDict.lookup_set, this, if_false]
      exact hother m hm

theorem auto_phase {d d' : Disk V} {q : List Str} {ok : Bool} (hr : d.autos ≠ some .unreadable)
    (hs : ∀ n ∈ q, (C.single n).isSome) (hq : q.Nodup) (h : Phase C d [q] d' ok) :
    ok = true ∧ d'.autos = autosAfter C d q ∧
      ∀ n, d'.fishers.lookup n = if n ∈ q then after C d n else d.fishers.lookup n := by
  have hstep : ∀ s s', (∃ j, s.jobs = [j] ∧ AutoJob C d s.disk q j) → Run C s s' →
      ∃ j, s'.jobs = [j] ∧ AutoJob C d s'.disk q j := by
    rintro s s' ⟨j0, hj0, hinv⟩ hrun
    cases hrun with
    | run i j j' d1 hj hst =>
      rw [hj0] at hj
      cases i with
      | succ i => simp at hj
      | zero =>
        simp only [List.getElem?_cons_zero, Option.some.injEq] at hj
        subst hj
        exact ⟨j', by simp [hj0], auto_does hr hs hq hinv (step_does hst)⟩
  have h0 : ∃ j, ([q].map fresh : List (Job V)) = [j] ∧ AutoJob C d d q j :=
    ⟨fresh q, rfl, rfl, ⟨[], rfl, by simp, rfl, fun _ _ => rfl⟩, fun _ _ => rfl⟩
  obtain ⟨js, ⟨j, hjs, hlive, ⟨pre, hpre, hdone, ha⟩, hother⟩, hover, rfl⟩ :=
    phase_rule (I := fun s => ∃ j, s.jobs = [j] ∧ AutoJob C d s.disk q j) hstep h0 h
  simp only at hjs
  subst hjs
  have hempty : j.queue = [] := by
    rcases hover j (by simp) with hf | he
    · simp [hlive] at hf
    · exact he
  rw [hempty, List.append_nil] at hpre
  subst hpre
  refine ⟨by simp [hlive], ?_, fun n => ?_⟩
  · rw [hempty] at ha
    cases hst : j.stage <;> rw [hst] at ha
    · exact ha.1
    all_goals exact ha.elim
  · split
    · rename_i hn
      exact hdone n hn
    · rename_i hn
      exact hother n hn

/-! ### Data vectors that cannot be computed -/

structure Kept (C : Comp V) (d0 : Disk V) (n : Str) (s : Sys V) : Prop where
  autos : s.disk.autos = d0.autos
  none : s.disk.fishers.lookup n = none
  jobs : ∀ j ∈ s.jobs, (∀ t, j.stage ≠ .opened t) ∧ (j.stage ≠ .idle → ∀ r, j.queue ≠ n :: r) ∧
    ((∀ m ∈ j.queue, C.single m = Option.none) ∨ d0.autos = some .unreadable)

theorem kept_run {d0 : Disk V} {n : Str} (hb : Blocked C d0 n) {s s' : Sys V} (h : Kept C d0 n s) (hr : Run C s s') :
    Kept C d0 n s' := by
  cases hr with
  | run i j j' d1 hj hst =>
    obtain ⟨ho, hi, hx⟩ := h.jobs j (List.mem_of_getElem? hj)
    have hd := step_does hst
    have key : d1.autos = d0.autos ∧ d1.fishers.lookup n = none ∧ (∀ t, j'.stage ≠ .opened t) ∧
        (j'.stage ≠ .idle → ∀ r, j'.queue ≠ n :: r) ∧
        ((∀ m ∈ j'.queue, C.single m = Option.none) ∨ d0.autos = some .unreadable) := by
      have h1 := h.autos
      have h2 := h.none
      cases hd
      case skip m r hf =>
        exact ⟨h1, h2, by simp, by simp, hx.imp (fun hx a ha => hx a (List.mem_cons_of_mem _ ha)) id⟩
      case enter m r k t hf hk ht =>
        exfalso
        rcases hx with hx | hx
        · have := hx m (by simp)
          simp [hk] at this
        · rcases ht with ⟨h0, _⟩ | ⟨t0, h0, _⟩ <;> simp [h1, hx] at h0
      case use m r t hf hk ht h3 hp =>
        refine ⟨h1, h2, by simp, fun _ r' he => ?_, hx⟩
        simp only [List.cons.injEq] at he
        obtain ⟨rfl, rfl⟩ := he
        rcases hb with ⟨hb, _⟩ | ⟨_, hb⟩
        · simp [hk] at hb
        · rcases hb t (by rw [← h1]; exact ht) with hb | ⟨p, hpm, hpn⟩
          · omega
          · have := hp p hpm
            simp [hpn] at this
      case refuse m r hf hb' => exact ⟨h1, h2, by simp, by simp, hx⟩
      case leave m r t => exact absurd rfl (ho t)
      case create m r v hf =>
        have hne : n ≠ m := fun he => hi (by simp) r (by rw [he])
        refine ⟨h1, ?_, by simp, fun _ => hi (by simp), hx⟩
        simp only [PyDict.lookup_set, hne, if_false]
        exact h2
      case clash m r v hf => exact ⟨h1, h2, by simp, by simp, hx⟩
      case save m r v =>
        have hne : n ≠ m := fun he => hi (by simp) r (by rw [he])
        refine ⟨h1, ?_, by simp, by simp, hx.imp (fun hx a ha => hx a (List.mem_cons_of_mem _ ha)) id⟩
        simp only [PyDict.lookup_set, hne, if_false]
        exact h2
    refine ⟨key.1, key.2.1, fun a ha => ?_⟩
    obtain ⟨b, hb'⟩ := List.getElem?_of_mem ha
    rcases get_set hb' with ⟨_, rfl⟩ | ⟨_, hb''⟩
    · exact key.2.2
    · exact h.jobs a (List.mem_of_getElem? hb'')

theorem waits_run {n : Str} {s s' : Sys V} {i : Nat} (hn : s.disk.fishers.lookup n = none)
    (hi : ∃ j, s.jobs[i]? = some j ∧ n ∈ j.queue) (hk : ∀ j ∈ s.jobs, j.stage ≠ .idle → ∀ r, j.queue ≠ n :: r)
    (hr : Run C s s') : ∃ j, s'.jobs[i]? = some j ∧ n ∈ j.queue := by
  obtain ⟨j0, hj0, hm0⟩ := hi
  cases hr with
  | run a j j' d1 hj hst =>
    by_cases hai : a = i
    · subst hai
      rw [hj0] at hj
      cases hj
      refine ⟨j', by simp [(List.getElem?_eq_some_iff.1 hj0).1], ?_⟩
      have hkj := hk _ (List.mem_of_getElem? hj0)
      have hd := step_does hst
      cases hd
      case skip m r hf =>
        rcases List.mem_cons.1 hm0 with rfl | hm
        · simp [hn] at hf
        · exact hm
      case save m r v =>
        rcases List.mem_cons.1 hm0 with rfl | hm
        · exact absurd rfl (hkj (by simp) r)
        · exact hm
      all_goals exact hm0
    · exact ⟨j0, by rw [List.getElem?_set, if_neg hai]; exact hj0, hm0⟩

/-- A phase leaves what blocks a data vector as it is, and fails if the data vector is its business. -/
theorem blocked_phase {d d' : Disk V} {qs : List (List Str)} {ok : Bool} {n : Str} (hb : Blocked C d n)
    (hn : d.fishers.lookup n = none)
    (hx : (∀ q ∈ qs, ∀ m ∈ q, C.single m = none) ∨ d.autos = some .unreadable) (h : Phase C d qs d' ok) :
    d'.autos = d.autos ∧ d'.fishers.lookup n = none ∧ (n ∈ qs.flatten → ok = false) := by
  have h0 : Kept C d n ⟨d, qs.map fresh⟩ := by
    refine ⟨rfl, hn, fun j hj => ?_⟩
    obtain ⟨q, hq, rfl⟩ := List.mem_map.1 hj
    exact ⟨by simp [fresh], by simp [fresh], hx.imp (fun hx => hx q hq) id⟩
  by_cases hm : n ∈ qs.flatten
  · obtain ⟨q, hq, hnq⟩ := List.mem_flatten.1 hm
    obtain ⟨i, hi⟩ := List.getElem?_of_mem hq
    obtain ⟨js, ⟨hk, j, hj, hjn⟩, hover, rfl⟩ := phase_rule
      (I := fun s => Kept C d n s ∧ ∃ j, s.jobs[i]? = some j ∧ n ∈ j.queue)
      (fun s s' hI hr => ⟨kept_run hb hI.1 hr, waits_run hI.1.none hI.2 (fun j hj => (hI.1.jobs j hj).2.1) hr⟩)
      ⟨h0, fresh q, by simp [List.getElem?_map, hi], hnq⟩ h
    refine ⟨hk.autos, hk.none, fun _ => ?_⟩
    have hfail : j.failed = true := by
      rcases hover j (List.mem_of_getElem? hj) with hf | he
      · exact hf
      · rw [he] at hjn
        simp at hjn
    rw [List.all_eq_false]
    exact ⟨j, List.mem_of_getElem? hj, by simp [hfail]⟩
  · obtain ⟨js, hk, _, _⟩ := phase_rule (I := Kept C d n) (fun s s' hI hr => kept_run hb hI hr) h0 h
    exact ⟨hk.autos, hk.none, fun hc => absurd hc hm⟩

/-! ### Files that are there -/

/-- A phase changes no file of Fisher matrices that was there before. -/
theorem phase_keeps {d d' : Disk V} {qs : List (List Str)} {ok : Bool} {n : Str} {f : File V}
    (hf : d.fishers.lookup n = some f) (h : Phase C d qs d' ok) : d'.fishers.lookup n = some f := by
  have hstep : ∀ s s' : Sys V, (s.disk.fishers.lookup n = some f ∧
      ∀ j ∈ s.jobs, ∀ v r, j.stage = .saving v → j.queue ≠ n :: r) → Run C s s' →
      (s'.disk.fishers.lookup n = some f ∧ ∀ j ∈ s'.jobs, ∀ v r, j.stage = .saving v → j.queue ≠ n :: r) := by
    rintro s s' ⟨h1, h2⟩ hr
    cases hr with
    | run i j j' d1 hj hst =>
      have hj2 := h2 j (List.mem_of_getElem? hj)
      have hd := step_does hst
      constructor
      · cases hd
        case create m r v hf =>
          have hne : n ≠ m := by
            rintro rfl
            simp [h1] at hf
          simp only [PyDict.lookup_set, hne, if_false]
          exact h1
        case save m r v =>
          have hne : n ≠ m := fun he => hj2 v r rfl (by rw [he])
          simp only [PyDict.lookup_set, hne, if_false]
          exact h1
        all_goals exact h1
      · intro a ha v r hv hq
        obtain ⟨b, hb⟩ := List.getElem?_of_mem ha
        rcases get_set hb with ⟨_, rfl⟩ | ⟨_, hb'⟩
        · have := (hd.creates hv hq).1
          simp [h1] at this
        · exact h2 a (List.mem_of_getElem? hb') v r hv hq
  obtain ⟨js, hI, _, _⟩ := phase_rule (I := fun s => s.disk.fishers.lookup n = some f ∧
      ∀ j ∈ s.jobs, ∀ v r, j.stage = .saving v → j.queue ≠ n :: r) hstep
    ⟨hf, fun j hj v r hv => by
      obtain ⟨q, _, rfl⟩ := List.mem_map.1 hj
      simp [fresh] at hv⟩ h
  exact hI.1

end Seyfert.FTask
