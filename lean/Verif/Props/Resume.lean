import Verif.Lemmas.Resume
import Mathlib.Data.List.Perm.Subperm

/-! C31: starting an interrupted forecast again. -/

set_option linter.unusedSectionVars false

namespace Seyfert.Resume

variable {V : Type}

/-! ### Specification -/

/-- What every configuration satisfies: a probe, no name twice, and the auto-correlations of three probes. -/
structure Valid (C : Comp V) : Prop where
  probes : C.probes ≠ []
  probesNodup : C.probes.Nodup
  names : (C.autos.map (·.1)).Nodup
  keys : (C.autos.map (·.2)).Nodup
  three : 3 ≤ C.autos.length
  results : C.resNames.Nodup

/-- The names of all Fisher matrices of the run. -/
def names (C : Comp V) : List Str := C.autos.map (·.1) ++ C.selected

/-- The run directory contains something that stops every later start: a file cut off in the middle, a densities file without
one of the probes, the directory of the derivatives without them, the external Fisher matrix. -/
inductive Bad (C : Comp V) (d : Disk V) : Prop
  | niz (h : d.niz = some .unreadable)
  | probe (n : Dict Str V) (p : Str) (h : d.niz = some (.full n)) (hp : p ∈ C.probes) (hn : n.lookup p = none) (hc : d.cls = none)
  | cls (h : d.cls = some .unreadable)
  | ders (h : d.derDir = true) (hd : d.ders = none ∨ d.ders = some .unreadable)
  | delta (h : d.delta = some .unreadable)
  | autos (name : Str) (h : d.autos = some .unreadable) (hn : name ∈ names C) (hf : d.fishers.lookup name = none)
  | fisher (name : Str) (h : d.fishers.lookup name = some .unreadable)
  | gcsp (h : d.gcsp ≠ none)

/-- The same files with the same contents; dictionaries by what is found under a name. -/
structure Same (d d' : Disk V) : Prop where
  niz : d.niz = d'.niz
  cls : d.cls = d'.cls
  derDir : d.derDir = d'.derDir
  ders : d.ders = d'.ders
  delta : d.delta = d'.delta
  autos : ∃ t t', d.autos = some (.full t) ∧ d'.autos = some (.full t') ∧ ∀ k, t.lookup k = t'.lookup k
  fishers : ∀ k, d.fishers.lookup k = d'.fishers.lookup k
  gcsp : d.gcsp = d'.gcsp
  results : ∀ k, d.results.lookup k = d'.results.lookup k

/-- States after any number of further interrupted starts. -/
inductive Later (C : Comp V) (d : Disk V) : Disk V → Prop
  | here : Later C d d
  | crash {d' d'' : Disk V} (h : Later C d d') (h' : d'' ∈ (forecast C d').trace) : Later C d d''

/-! ### What is right -/

def nizD (C : Comp V) : Dict Str V := C.probes.map fun p => (p, C.niz p)
def c0 (C : Comp V) : V := C.cls fun p => (nizD C).lookup p
def x0 (C : Comp V) : V := C.ders (fun p => (nizD C).lookup p) (c0 C)
def v0 (C : Comp V) : V := C.delta (fun p => (nizD C).lookup p) (c0 C)
def tab (C : Comp V) (k : Str) : Option V := if k ∈ C.autos.map (·.2) then some (C.autoTable k (v0 C) (x0 C)) else none
def F0 (C : Comp V) (name : Str) : V :=
  match C.autos.lookup name with
  | some _ => C.autoFisher name (v0 C) (x0 C)
  | none => C.fisher name (v0 C) (x0 C) (tab C)
def FF (C : Comp V) (name : Str) : Option V := if name ∈ names C then some (F0 C name) else none

def AutosOk (C : Comp V) (d : Disk V) : Prop :=
  (d.autos = none ∧ ∀ name k, C.autos.lookup name = some k → d.fishers.lookup name = none) ∨
  ∃ t, d.autos = some (.full t) ∧ (∀ k v, t.lookup k = some v → tab C k = some v) ∧
    ∀ name k, C.autos.lookup name = some k → d.fishers.lookup name ≠ none → t.lookup k ≠ none

structure Tail (C : Comp V) (d : Disk V) : Prop where
  autos : AutosOk C d
  fishers : ∀ k f, d.fishers.lookup k = some f → k ∈ names C ∧ f = .full (F0 C k)
  gcsp : d.gcsp = none
  results : d.results = []
  nodup : (d.fishers.map (·.1)).Nodup

structure Good (C : Comp V) (d : Disk V) : Prop where
  niz : d.niz = none ∨ d.niz = some (.full (nizD C))
  nizCls : d.niz = none → d.cls = none
  cls : d.cls = none ∨ d.cls = some (.full (c0 C))
  ders : (d.derDir = false ∧ d.ders = none) ∨ (d.derDir = true ∧ d.ders = some (.full (x0 C)))
  delta : d.delta = none ∨ d.delta = some (.full (v0 C))
  tail : Tail C d

structure Mid (C : Comp V) (d : Disk V) : Prop where
  niz : d.niz = some (.full (nizD C))
  cls : d.cls = some (.full (c0 C))
  derDir : d.derDir = true
  ders : d.ders = some (.full (x0 C))
  delta : d.delta = some (.full (v0 C))
  tail : Tail C d

structure Done (C : Comp V) (d : Disk V) : Prop where
  niz : d.niz = some (.full (nizD C))
  cls : d.cls = some (.full (c0 C))
  derDir : d.derDir = true
  ders : d.ders = some (.full (x0 C))
  delta : d.delta = some (.full (v0 C))
  autos : ∃ t, d.autos = some (.full t) ∧ ∀ k, t.lookup k = tab C k
  fishers : ∀ k, d.fishers.lookup k = (FF C k).map .full
  gcsp : d.gcsp = some (.full C.gcsp)
  results : ∀ k, d.results.lookup k = if k ∈ C.resNames then some (.full (C.result k (FF C) C.gcsp)) else none

def GB (C : Comp V) (d : Disk V) : Prop := Good C d ∨ Bad C d

theorem Mid.good {C : Comp V} {d : Disk V} (h : Mid C d) : Good C d :=
  ⟨.inr h.niz, fun e => by rw [h.niz] at e; simp at e, .inr h.cls, .inr ⟨h.derDir, h.ders⟩, .inr h.delta, h.tail⟩

theorem good_empty (C : Comp V) : Good C Disk.empty :=
  ⟨.inl rfl, fun _ => rfl, .inl rfl, .inl ⟨rfl, rfl⟩, .inl rfl, .inl ⟨rfl, fun _ _ _ => rfl⟩,
    fun k f h => by simp [Disk.empty] at h, rfl, rfl, by simp [Disk.empty]⟩

theorem lookup_map (f : Str → V) (l : List Str) (p : Str) : (l.map fun q => (q, f q)).lookup p = if p ∈ l then some (f p) else none := by
  induction l with
  | nil => rfl
  | cons q l ih =>
    rw [List.map_cons, List.lookup_cons]
    by_cases h : p = q
    · subst h; simp
    · have : (p == q) = false := by simpa using h
      rw [this, ih]
      simp [h]

/-! ### From a good state -/

theorem writeNiz_tr {C : Comp V} (hC : Valid C) {d0 : Disk V} (hg : Good C d0) (hn : d0.niz = none) (pre ps : List Str)
    (hp : pre ++ ps = C.probes) (x : Option (File (Dict Str V)))
    (hx : ps = [] → x = some (.full (nizD C))) :
    Tr (writeNiz C (pre.map fun p => (p, C.niz p)) ps { d0 with niz := x }) (GB C)
      (fun _ d' => d' = { d0 with niz := some (.full (nizD C)) }) := by
  induction ps generalizing pre x with
  | nil => rw [hx rfl]; exact Tr.ret _ rfl
  | cons p ps ih =>
    refine Tr.bind (Q := fun _ d' => d' = { d0 with niz := some .unreadable }) (Tr.put _ (.inr (.niz rfl)) rfl) ?_
    rintro _ _ rfl
    have e : pre.map (fun p => (p, C.niz p)) ++ [(p, C.niz p)] = (pre ++ [p]).map fun p => (p, C.niz p) := by simp
    rw [e]
    refine Tr.bind (Q := fun _ d' => d' = { d0 with niz := some (.full ((pre ++ [p]).map fun p => (p, C.niz p))) })
      (Tr.put _ ?_ rfl) ?_
    · cases ps with
      | nil =>
        left
        refine ⟨.inr ?_, fun h => by simp at h, hg.cls, hg.ders, hg.delta, hg.tail.autos, hg.tail.fishers, hg.tail.gcsp, hg.tail.results, hg.tail.nodup⟩
        show some (File.full _) = _
        rw [hp]
        rfl
      | cons q qs =>
        right
        refine .probe _ q rfl ?_ ?_ (hg.nizCls hn)
        · rw [← hp]; simp
        · rw [lookup_map, if_neg]
          have := hC.probesNodup
          rw [← hp] at this
          intro hq
          have h2 : (pre ++ [p] ++ q :: qs).Nodup := by simpa using this
          exact (List.nodup_append.mp h2).2.2 q hq q (by simp) rfl
    · rintro _ _ rfl
      refine ih (pre ++ [p]) (by simpa using hp) _ ?_
      rintro rfl
      rw [hp]
      rfl

theorem densities_tr {C : Comp V} (hC : Valid C) {d : Disk V} (hg : Good C d) :
    Tr (densities C d) (GB C) (fun n d' => n = nizD C ∧ Good C d' ∧ d'.niz = some (.full (nizD C))) := by
  unfold densities
  rcases hg.niz with h | h
  · rw [h]
    have := writeNiz_tr hC hg h [] C.probes rfl none (fun e => absurd e hC.probes)
    have e : ({ d with niz := none } : Disk V) = d := by rw [← h]
    rw [e] at this
    refine Tr.bind this ?_
    rintro _ _ rfl
    exact Tr.ret _ ⟨rfl, ⟨.inr rfl, fun h => by simp at h, hg.cls, hg.ders, hg.delta, hg.tail.autos, hg.tail.fishers, hg.tail.gcsp, hg.tail.results, hg.tail.nodup⟩, rfl⟩
  · rw [h]
    exact Tr.ret _ ⟨rfl, hg, h⟩

theorem fiducial_tr {C : Comp V} {d : Disk V} (hg : Good C d) (hn : d.niz = some (.full (nizD C))) :
    Tr (fiducial C (nizD C) d) (GB C)
      (fun c d' => c = c0 C ∧ Good C d' ∧ d'.niz = some (.full (nizD C)) ∧ d'.cls = some (.full (c0 C))) := by
  unfold fiducial
  rcases hg.cls with h | h
  · rw [h]
    have e : (C.probes.all fun p => ((nizD C).lookup p).isSome) = true := by
      rw [List.all_eq_true]
      intro p hp
      unfold nizD
      rw [lookup_map, if_pos hp]
      rfl
    simp only [e, if_true]
    have hg' : Good C { d with cls := some (.full (c0 C)) } :=
      ⟨.inr hn, fun h => by rw [show d.niz = none from h] at hn; simp at hn, .inr rfl, hg.ders, hg.delta, hg.tail.autos, hg.tail.fishers, hg.tail.gcsp, hg.tail.results, hg.tail.nodup⟩
    refine Tr.bind (Q := fun _ d' => d' = { d with cls := some .unreadable }) (Tr.put _ (.inr (.cls rfl)) rfl) ?_
    rintro _ _ rfl
    refine Tr.bind (Q := fun _ d' => d' = { d with cls := some (.full (c0 C)) }) (Tr.put _ (.inl hg') rfl) ?_
    rintro _ _ rfl
    exact Tr.ret _ ⟨rfl, hg', hn, rfl⟩
  · rw [h]
    exact Tr.ret _ ⟨rfl, hg, hn, h⟩

theorem derivatives_tr {C : Comp V} {d : Disk V} (hg : Good C d) (hn : d.niz = some (.full (nizD C)))
    (hc : d.cls = some (.full (c0 C))) :
    Tr (derivatives C (nizD C) (c0 C) d) (GB C)
      (fun x d' => x = x0 C ∧ Good C d' ∧ d'.niz = some (.full (nizD C)) ∧ d'.cls = some (.full (c0 C)) ∧
        d'.derDir = true ∧ d'.ders = some (.full (x0 C))) := by
  unfold derivatives
  rcases hg.ders with ⟨h, h'⟩ | ⟨h, h'⟩
  · rw [h]
    simp only [Bool.false_eq_true, if_false]
    have hg' : Good C { d with derDir := true, ders := some (.full (x0 C)) } :=
      ⟨hg.niz, hg.nizCls, hg.cls, .inr ⟨rfl, rfl⟩, hg.delta, hg.tail.autos, hg.tail.fishers, hg.tail.gcsp, hg.tail.results, hg.tail.nodup⟩
    refine Tr.bind (Q := fun _ d' => d' = { d with derDir := true }) (Tr.put _ (.inr (.ders rfl (.inl h'))) rfl) ?_
    rintro _ _ rfl
    refine Tr.bind (Q := fun _ d' => d' = { d with derDir := true, ders := some .unreadable })
      (Tr.put _ (.inr (.ders rfl (.inr rfl))) rfl) ?_
    rintro _ _ rfl
    refine Tr.bind (Q := fun _ d' => d' = { d with derDir := true, ders := some (.full (x0 C)) })
      (Tr.put _ (.inl hg') rfl) ?_
    rintro _ _ rfl
    exact Tr.ret _ ⟨rfl, hg', hn, hc, rfl, rfl⟩
  · rw [h, h']
    exact Tr.ret _ ⟨rfl, hg, hn, hc, h, h'⟩

theorem covariance_tr {C : Comp V} {d : Disk V} (hg : Good C d) (hn : d.niz = some (.full (nizD C)))
    (hc : d.cls = some (.full (c0 C))) (hd : d.derDir = true) (hx : d.ders = some (.full (x0 C))) :
    Tr (covariance C d) (GB C) (fun v d' => v = v0 C ∧ Mid C d') := by
  unfold covariance
  rcases hg.delta with h | h
  · rw [h, hn, hc]
    have hm : Mid C { d with delta := some (.full (v0 C)) } := ⟨hn, hc, hd, hx, rfl, hg.tail.autos, hg.tail.fishers, hg.tail.gcsp, hg.tail.results, hg.tail.nodup⟩
    refine Tr.bind (Q := fun _ d' => d' = { d with delta := some .unreadable }) (Tr.put _ (.inr (.delta rfl)) rfl) ?_
    rintro _ _ rfl
    refine Tr.bind (Q := fun _ d' => d' = { d with delta := some (.full (v0 C)) }) (Tr.put _ (.inl hm.good) rfl) ?_
    rintro _ _ rfl
    exact Tr.ret _ ⟨rfl, hm⟩
  · rw [h]
    exact Tr.ret _ ⟨rfl, hn, hc, hd, hx, h, hg.tail.autos, hg.tail.fishers, hg.tail.gcsp, hg.tail.results, hg.tail.nodup⟩

theorem lookup_key_mem {C : Comp V} {name k : Str} (h : C.autos.lookup name = some k) : k ∈ C.autos.map (·.2) :=
  List.mem_map.mpr ⟨(name, k), PyDict.mem_of_lookup h, rfl⟩

theorem addTable_tr {C : Comp V} {d : Disk V} (hm : Mid C d) {name k : Str} (hk : C.autos.lookup name = some k)
    (hf : d.fishers.lookup name = none) :
    Tr (addTable k (C.autoTable k (v0 C) (x0 C)) d) (GB C)
      (fun _ d' => Mid C d' ∧ d'.fishers = d.fishers ∧ ∃ t, d'.autos = some (.full t) ∧ t.lookup k ≠ none) := by
  have hmem : name ∈ names C := List.mem_append_left _ (List.mem_map.mpr ⟨(name, k), PyDict.mem_of_lookup hk, rfl⟩)
  have htab : tab C k = some (C.autoTable k (v0 C) (x0 C)) := by rw [tab, if_pos (lookup_key_mem hk)]
  have key : ∀ t, AutosOk C { d with autos := some (.full t) } → Mid C { d with autos := some (.full t) } := fun t ht =>
    ⟨hm.niz, hm.cls, hm.derDir, hm.ders, hm.delta, ht, hm.tail.fishers, hm.tail.gcsp, hm.tail.results, hm.tail.nodup⟩
  have write : ∀ t, AutosOk C { d with autos := some (.full t) } → t.lookup k ≠ none →
      Tr (bind (put fun d => { d with autos := some .unreadable }) (fun _ => put fun d => { d with autos := some (.full t) }) d)
        (GB C) (fun _ d' => Mid C d' ∧ d'.fishers = d.fishers ∧ ∃ t, d'.autos = some (.full t) ∧ t.lookup k ≠ none) := by
    intro t ht hl
    refine Tr.bind (Q := fun _ d' => d' = { d with autos := some .unreadable }) (Tr.put _ (.inr (.autos name rfl hmem hf)) rfl) ?_
    rintro _ _ rfl
    exact Tr.put _ (.inl (key t ht).good) ⟨key t ht, rfl, t, rfl, hl⟩
  unfold addTable
  rcases hm.tail.autos with ⟨h, hn⟩ | ⟨t, h, ht, hp⟩
  · rw [h]
    refine write _ (.inr ⟨_, rfl, ?_, ?_⟩) ?_
    · intro k' v' hl
      rw [List.lookup_cons] at hl
      by_cases e : k' = k
      · subst e
        simp only [beq_self_eq_true, Option.some.injEq] at hl
        rw [htab, hl]
      · have : (k' == k) = false := by simpa using e
        rw [this] at hl
        simp at hl
    · intro name' k' hk' hf'
      exact absurd (hn name' k' hk') hf'
    · simp
  · rw [h]
    refine write _ (.inr ⟨_, rfl, ?_, ?_⟩) ?_
    · intro k' v' hl
      rw [PyDict.lookup_set] at hl
      split at hl
      · rename_i e
        subst e
        rw [htab, hl]
      · exact ht k' v' hl
    · intro name' k' hk' hf'
      rw [PyDict.lookup_set]
      split
      · simp
      · exact hp name' k' hk' hf'
    · rw [PyDict.lookup_set, if_pos rfl]
      simp

theorem writeFisher_tr {C : Comp V} {d : Disk V} (hm : Mid C d) {name : Str} (hf : d.fishers.lookup name = none) (hn : name ∈ names C)
    (ha : ∀ k, C.autos.lookup name = some k → ∃ t, d.autos = some (.full t) ∧ t.lookup k ≠ none) :
    Tr (writeFisher name (F0 C name) d) (GB C)
      (fun _ d' => Mid C d' ∧ d'.fishers = PyDict.set d.fishers name (.full (F0 C name))) := by
  have hm' : Mid C { d with fishers := PyDict.set d.fishers name (.full (F0 C name)) } := by
    refine ⟨hm.niz, hm.cls, hm.derDir, hm.ders, hm.delta, ?_, ?_, hm.tail.gcsp, hm.tail.results,
      PyDict.nodup_set _ _ _ hm.tail.nodup⟩
    · rcases hm.tail.autos with ⟨h, h'⟩ | ⟨t, h, ht, hp⟩
      · left
        refine ⟨h, fun name' k hk => ?_⟩
        show (PyDict.set _ _ _).lookup _ = _
        rw [PyDict.lookup_set, if_neg, h' name' k hk]
        rintro rfl
        obtain ⟨t, h1, _⟩ := ha k hk
        rw [h] at h1
        simp at h1
      · right
        refine ⟨t, h, ht, fun name' k hk hne => ?_⟩
        replace hne : (PyDict.set d.fishers name (.full (F0 C name))).lookup name' ≠ none := hne
        rw [PyDict.lookup_set] at hne
        split at hne
        · rename_i e
          subst e
          obtain ⟨t', h1, h2⟩ := ha k hk
          rw [h] at h1
          simp only [Option.some.injEq, File.full.injEq] at h1
          rw [h1]
          exact h2
        · exact hp name' k hk hne
    · intro k f h
      replace h : (PyDict.set d.fishers name (.full (F0 C name))).lookup k = some f := h
      rw [PyDict.lookup_set] at h
      split at h
      · rename_i e
        subst e
        simp only [Option.some.injEq] at h
        exact ⟨hn, h.symm⟩
      · exact hm.tail.fishers k f h
  refine Tr.bind (Q := fun _ d' => d' = { d with fishers := PyDict.set d.fishers name .unreadable })
    (Tr.put _ (.inr (.fisher name ?_)) rfl) ?_
  · show (PyDict.set _ _ _).lookup _ = _
    rw [PyDict.lookup_set, if_pos rfl]
  · rintro _ _ rfl
    have e : ({ d with fishers := (PyDict.set (PyDict.set d.fishers name .unreadable) name (.full (F0 C name))) } : Disk V) =
        { d with fishers := PyDict.set d.fishers name (.full (F0 C name)) } := by rw [set_set]
    refine Tr.put _ ?_ ?_
    · show GB C ({ d with fishers := (PyDict.set (PyDict.set d.fishers name .unreadable) name (.full (F0 C name))) } : Disk V)
      rw [e]
      exact .inl hm'.good
    · refine ⟨?_, set_set _ _ _ _⟩
      show Mid C ({ d with fishers := (PyDict.set (PyDict.set d.fishers name .unreadable) name (.full (F0 C name))) } : Disk V)
      rw [e]
      exact hm'

/-- The Fisher matrices of all auto-correlations are there. -/
def AllAutos (C : Comp V) (d : Disk V) : Prop := ∀ name k, C.autos.lookup name = some k → d.fishers.lookup name ≠ none

theorem autos_lookup {C : Comp V} (hC : Valid C) {k : Str} (h : k ∈ C.autos.map (·.2)) : ∃ name, C.autos.lookup name = some k := by
  obtain ⟨p, hp, rfl⟩ := List.mem_map.mp h
  exact ⟨p.1, PyDict.lookup_of_mem _ hC.names hp⟩

theorem all_tables {C : Comp V} (hC : Valid C) {d : Disk V} (hm : Tail C d) (ha : AllAutos C d) :
    ∃ t, d.autos = some (.full t) ∧ 3 ≤ t.length ∧ (fun k => t.lookup k) = tab C := by
  rcases hm.autos with ⟨h, hn⟩ | ⟨t, h, ht, hp⟩
  · exfalso
    have h3 := hC.three
    cases he : C.autos with
    | nil => rw [he] at h3; simp at h3
    | cons p l =>
      have hl : C.autos.lookup p.1 = some p.2 := by rw [he]; exact List.lookup_cons_self
      exact ha _ _ hl (hn _ _ hl)
  · have hall : ∀ k ∈ C.autos.map (·.2), t.lookup k ≠ none := by
      intro k hk
      obtain ⟨name, hl⟩ := autos_lookup hC hk
      exact hp name k hl (ha name k hl)
    refine ⟨t, h, ?_, ?_⟩
    · have hsub : C.autos.map (·.2) ⊆ t.map (·.1) := by
        intro k hk
        have := hall k hk
        by_contra hno
        exact this ((PyDict.lookup_none_iff t k).mpr hno)
      have := (List.subperm_of_subset hC.keys hsub).length_le
      simp only [List.length_map] at this
      have := hC.three
      omega
    · funext k
      cases hl : t.lookup k with
      | some v => rw [ht k v hl]
      | none =>
        rw [tab, if_neg]
        intro hk
        exact hall k hk hl

theorem oneFisher_tr {C : Comp V} (hC : Valid C) {d : Disk V} (hm : Mid C d) {name : Str} (hf : d.fishers.lookup name = none)
    (hn : name ∈ names C) (ha : C.autos.lookup name ≠ none ∨ AllAutos C d) :
    Tr (oneFisher C (v0 C) (x0 C) name d) (GB C)
      (fun _ d' => Mid C d' ∧ d'.fishers = PyDict.set d.fishers name (.full (F0 C name))) := by
  unfold oneFisher
  cases hk : C.autos.lookup name with
  | some k =>
    have e : C.autoFisher name (v0 C) (x0 C) = F0 C name := by rw [F0, hk]
    rw [e]
    refine Tr.bind (addTable_tr hm hk hf) ?_
    rintro _ d' ⟨h1, h2, t, h3, h4⟩
    rw [← h2]
    refine writeFisher_tr h1 (by rw [h2]; exact hf) hn fun k' hk' => ?_
    rw [hk] at hk'
    obtain rfl := Option.some.inj hk'
    exact ⟨t, h3, h4⟩
  | none =>
    obtain ⟨t, h1, h2, h3⟩ := all_tables hC hm.tail (ha.resolve_left (fun h => h hk))
    have e : C.fisher name (v0 C) (x0 C) (fun k => t.lookup k) = F0 C name := by rw [F0, hk, h3]
    simp only [h1, if_neg (Nat.not_lt.mpr h2)]
    rw [e]
    refine writeFisher_tr hm hf hn fun k' hk' => ?_
    rw [hk] at hk'
    simp at hk'

theorem saveFishers_tr {C : Comp V} (hC : Valid C) (l : List Str) (hl : ∀ n ∈ l, n ∈ names C) (d : Disk V) (hm : Mid C d)
    (ha : ∀ n ∈ l, C.autos.lookup n ≠ none ∨ AllAutos C d) :
    Tr (saveFishers C (v0 C) (x0 C) l d) (GB C)
      (fun _ d' => Mid C d' ∧ (∀ n ∈ l, d'.fishers.lookup n ≠ none) ∧ ∀ n, d.fishers.lookup n ≠ none → d'.fishers.lookup n ≠ none) := by
  induction l generalizing d with
  | nil => exact Tr.ret _ ⟨hm, fun n h => absurd h (by simp), fun _ h => h⟩
  | cons name l ih =>
    rw [saveFishers]
    beta_reduce
    cases hf : d.fishers.lookup name with
    | some f =>
      refine (ih (fun n h => hl n (List.mem_cons_of_mem _ h)) d hm fun n h => ha n (List.mem_cons_of_mem _ h)).mono
        (fun _ h => h) ?_
      rintro _ d' ⟨h1, h2, h3⟩
      refine ⟨h1, fun n h => ?_, h3⟩
      rcases List.mem_cons.mp h with rfl | h
      · exact h3 n (by rw [hf]; simp)
      · exact h2 n h
    | none =>
      refine Tr.bind (oneFisher_tr hC hm hf (hl name (by simp)) (ha name (by simp))) ?_
      rintro _ d1 ⟨h1, h2⟩
      have mono : ∀ n, d.fishers.lookup n ≠ none → d1.fishers.lookup n ≠ none := by
        intro n h
        rw [h2, PyDict.lookup_set]
        split
        · simp
        · exact h
      refine (ih (fun n h => hl n (List.mem_cons_of_mem _ h)) d1 h1 fun n h => ?_).mono (fun _ h => h) ?_
      · rcases ha n (List.mem_cons_of_mem _ h) with h | h
        · exact .inl h
        · exact .inr fun m k hk => mono m (h m k hk)
      · rintro _ d' ⟨h3, h4, h5⟩
        refine ⟨h3, fun n h => ?_, fun n h => h5 n (mono n h)⟩
        rcases List.mem_cons.mp h with rfl | h
        · refine h5 n ?_
          rw [h2, PyDict.lookup_set, if_pos rfl]
          simp
        · exact h4 n h

theorem readAll_some {l : Dict Str (File V)} {g : Str → V} (h : ∀ k f, l.lookup k = some f → f = .full (g k)) (hn : (l.map (·.1)).Nodup) :
    ∃ f, readAll l = some f ∧ ∀ k, l.lookup k = (f.lookup k).map .full := by
  induction l with
  | nil => exact ⟨[], rfl, fun _ => rfl⟩
  | cons p l ih =>
    obtain ⟨k, v⟩ := p
    rw [List.map_cons, List.nodup_cons] at hn
    obtain ⟨f, h1, h2⟩ := ih (fun k' f' hl => h k' f' (by
      rw [List.lookup_cons]
      have : (k' == k) = false := by
        simp only [beq_eq_false_iff_ne, ne_eq]
        rintro rfl
        rw [(PyDict.lookup_none_iff l k').mpr hn.1] at hl
        simp at hl
      rw [this, hl])) hn.2
    have := h k v (by simp)
    subst this
    refine ⟨(k, g k) :: f, by simp [readAll, h1], fun k' => ?_⟩
    rw [List.lookup_cons, List.lookup_cons]
    cases k' == k with
    | true => rfl
    | false => exact h2 k'

theorem writeResults_tr {C : Comp V} (f : Dict Str V) (rs : List Str) (hn : rs.Nodup) (d : Disk V) (hg : d.gcsp ≠ none)
    (h : ∀ r ∈ rs, d.results.lookup r = none) :
    Tr (writeResults C f rs d) (GB C)
      (fun _ d' => (∃ l, d' = { d with results := l }) ∧
        ∀ k, d'.results.lookup k = if k ∈ rs then some (.full (C.result k (fun n => f.lookup n) C.gcsp)) else d.results.lookup k) := by
  induction rs generalizing d with
  | nil => exact Tr.ret _ ⟨⟨d.results, rfl⟩, fun k => by simp⟩
  | cons r rs ih =>
    rw [List.nodup_cons] at hn
    rw [writeResults]
    beta_reduce
    rw [h r (by simp)]
    refine Tr.bind (Q := fun _ d' => d' = { d with results := PyDict.set d.results r .unreadable })
      (Tr.put _ (.inr (.gcsp hg)) rfl) ?_
    rintro _ _ rfl
    refine Tr.bind (Q := fun _ d' => d' = { d with results := PyDict.set d.results r (.full (C.result r (fun n => f.lookup n) C.gcsp)) })
      (Tr.put _ (.inr (.gcsp hg)) ?_) ?_
    · simp only [set_set]
    · rintro _ _ rfl
      refine (ih hn.2 { d with results := PyDict.set d.results r (.full (C.result r (fun n => f.lookup n) C.gcsp)) } hg
        fun r' hr' => ?_).mono (fun _ h => h) ?_
      · show (PyDict.set _ _ _).lookup _ = _
        rw [PyDict.lookup_set, if_neg, h r' (List.mem_cons_of_mem _ hr')]
        rintro rfl
        exact hn.1 hr'
      · rintro _ d' ⟨⟨l, rfl⟩, h2⟩
        refine ⟨⟨l, rfl⟩, fun k => ?_⟩
        rw [h2 k]
        by_cases hk : k ∈ rs
        · simp [hk]
        · rw [if_neg hk]
          show (PyDict.set _ _ _).lookup _ = _
          rw [PyDict.lookup_set]
          by_cases e : k = r
          · subst e; simp
          · simp [e, hk]

/-- A start on a good directory completes, with the right contents, and every state on the way is good or bad. -/
theorem good_run {C : Comp V} (hC : Valid C) {d : Disk V} (hg : Good C d) :
    Tr (forecast C d) (GB C) (fun _ d' => Done C d') := by
  refine Tr.bind (densities_tr hC hg) ?_
  rintro _ d1 ⟨rfl, g1, n1⟩
  refine Tr.bind (fiducial_tr g1 n1) ?_
  rintro _ d2 ⟨rfl, g2, n2, c2⟩
  refine Tr.bind (derivatives_tr g2 n2 c2) ?_
  rintro _ d3 ⟨rfl, g3, n3, c3, e3, x3⟩
  refine Tr.bind (covariance_tr g3 n3 c3 e3 x3) ?_
  rintro _ d4 ⟨rfl, m4⟩
  have hauto : ∀ n ∈ C.autos.map (·.1), C.autos.lookup n ≠ none := fun n hn h =>
    (PyDict.lookup_none_iff _ _).mp h hn
  refine Tr.bind (saveFishers_tr hC _ (fun n hn => List.mem_append_left _ hn) d4 m4 fun n hn => .inl (hauto n hn)) ?_
  rintro _ d5 ⟨m5, p5, _⟩
  have a5 : AllAutos C d5 := fun n k hk => p5 n (List.mem_map.mpr ⟨(n, k), PyDict.mem_of_lookup hk, rfl⟩)
  refine Tr.bind (saveFishers_tr hC _ (fun n hn => List.mem_append_right _ hn) d5 m5 fun n hn => .inr a5) ?_
  rintro _ d6 ⟨m6, p6, q6⟩
  have a6 : AllAutos C d6 := fun n k hk => q6 n (a5 n k hk)
  have f6 : ∀ k, d6.fishers.lookup k = (FF C k).map .full := by
    intro k
    unfold FF
    split
    · rename_i hk
      have hne : d6.fishers.lookup k ≠ none := by
        rcases List.mem_append.mp hk with hk | hk
        · exact q6 k (p5 k hk)
        · exact p6 k hk
      obtain ⟨f, hf⟩ := Option.ne_none_iff_exists'.mp hne
      rw [hf, (m6.tail.fishers k f hf).2]
      rfl
    · rename_i hk
      cases hf : d6.fishers.lookup k with
      | none => rfl
      | some f => exact absurd (m6.tail.fishers k f hf).1 hk
  obtain ⟨f, hr, hf⟩ := readAll_some (g := F0 C) (fun k f hk => (m6.tail.fishers k f hk).2) m6.tail.nodup
  have hF : (fun k => f.lookup k) = FF C := by
    funext k
    have := (f6 k).symm.trans (hf k)
    cases h1 : f.lookup k <;> cases h2 : FF C k <;> simp_all
  obtain ⟨t, t1, _, t3⟩ := all_tables hC m6.tail a6
  refine Tr.bind (Q := fun _ d' => d' = { d6 with gcsp := some (.full C.gcsp) }) ?_ ?_
  · unfold writeGcsp
    rw [m6.tail.gcsp]
    refine Tr.bind (Q := fun _ d' => d' = { d6 with gcsp := some .unreadable }) (Tr.put _ (.inr (.gcsp (by simp))) rfl) ?_
    rintro _ _ rfl
    exact Tr.put _ (.inr (.gcsp (by simp))) rfl
  · rintro _ _ rfl
    unfold finalResults
    simp only [hr]
    refine (writeResults_tr f C.resNames hC.results _ (by simp) fun r _ => ?_).mono (fun _ h => h) ?_
    · show d6.results.lookup r = none
      rw [m6.tail.results]
      rfl
    · rintro _ _ ⟨⟨l, rfl⟩, h⟩
      refine ⟨m6.niz, m6.cls, m6.derDir, m6.ders, m6.delta, ⟨t, t1, fun k => congrFun t3 k⟩, f6, rfl, fun k => ?_⟩
      rw [h k, hF]
      split
      · rfl
      · show d6.results.lookup k = none
        rw [m6.tail.results]
        rfl

/-! ### From a bad state -/

theorem saveFishers_unreadable (C : Comp V) (v x : V) (l : List Str) (d : Disk V) (h : d.autos = some .unreadable) :
    (saveFishers C v x l d).trace = [] ∧ (saveFishers C v x l d).final = d ∧
      ∀ n ∈ l, d.fishers.lookup n = none → (saveFishers C v x l d).res = none := by
  induction l with
  | nil => exact ⟨rfl, rfl, fun n hn => absurd hn (by simp)⟩
  | cons name l ih =>
    rw [saveFishers]
    beta_reduce
    cases hf : d.fishers.lookup name with
    | some f =>
      refine ⟨ih.1, ih.2.1, fun n hn hno => ?_⟩
      rcases List.mem_cons.mp hn with rfl | hn
      · rw [hf] at hno
        simp at hno
      · exact ih.2.2 n hn hno
    | none =>
      have e : oneFisher C v x name d = ⟨[], d, none⟩ := by
        unfold oneFisher
        cases C.autos.lookup name with
        | some k => simp only [bind, addTable, h, fail]
        | none => simp only [h, fail]
      have e' : bind (oneFisher C v x name) (fun _ => saveFishers C v x l) d = ⟨[], d, none⟩ := by
        unfold bind
        rw [e]
      simp only [e']
      simp

theorem readAll_unreadable {l : Dict Str (File V)} {k : Str} (h : l.lookup k = some .unreadable) : readAll l = none := by
  induction l with
  | nil => simp at h
  | cons p l ih =>
    obtain ⟨k', v⟩ := p
    rw [List.lookup_cons] at h
    cases v with
    | unreadable => rfl
    | full v =>
      cases e : k == k' with
      | true => rw [e] at h; simp at h
      | false =>
        rw [e] at h
        rw [readAll, ih h]
        rfl

theorem stages_fail {C : Comp V} {d : Disk V}
    (h : (∀ d', Le d d' → ∀ n, (fiducial C n d').res = none) ∨ (∀ d', Le d d' → ∀ n c, (derivatives C n c d').res = none) ∨
      (∀ d', Le d d' → (covariance C d').res = none) ∨ (∀ d', Le d d' → (writeGcsp C d').res = none) ∨
      (∀ d', Le d d' → (finalResults C d').res = none)) : (forecast C d).res = none := by
  refine bind_fails (P := Le d) (densities_le C d).2.1 fun n d1 l1 => ?_
  rcases h with h | h
  · exact bind_fails_first (h d1 l1 n)
  refine bind_fails (P := Le d) (l1.trans (fiducial_le C n d1).2.1) fun c d2 l2 => ?_
  rcases h with h | h
  · exact bind_fails_first (h d2 l2 n c)
  refine bind_fails (P := Le d) (l2.trans (derivatives_le C n c d2).2.1) fun x d3 l3 => ?_
  rcases h with h | h
  · exact bind_fails_first (h d3 l3)
  refine bind_fails (P := Le d) (l3.trans (covariance_le C d3).2.1) fun v d4 l4 => ?_
  refine bind_fails (P := Le d) (l4.trans (saveFishers_le C v x _ d4).2) fun _ d5 l5 => ?_
  refine bind_fails (P := Le d) (l5.trans (saveFishers_le C v x _ d5).2) fun _ d6 l6 => ?_
  rcases h with h | h
  · exact bind_fails_first (h d6 l6)
  exact bind_fails (P := Le d) (l6.trans (writeGcsp_le C d6).2) fun _ d7 l7 => h d7 l7

theorem all_step {α : Type} {m : Prog V α} {d d1 : Disk V} (hm : ∀ d, All (m d) (fun d' => Le d d' ∧ d'.fishers = d.fishers))
    (h : Le d d1 ∧ d1.fishers = d.fishers) : All (m d1) (fun d' => Le d d' ∧ d'.fishers = d.fishers) :=
  (hm d1).mono fun _ k => ⟨h.1.trans k.1, k.2.trans h.2⟩

/-- While the table file cannot be read and a Fisher matrix is missing, no Fisher matrix is written and the run fails. -/
theorem autos_run {C : Comp V} {d : Disk V} {name : Str} (h : d.autos = some .unreadable) (hn : name ∈ names C)
    (hf : d.fishers.lookup name = none) :
    (forecast C d).res = none ∧ All (forecast C d) (fun d' => Le d d' ∧ d'.fishers = d.fishers) := by
  have two : ∀ (v x : V) (k : Prog V Unit) (d4 : Disk V), Le d d4 ∧ d4.fishers = d.fishers →
      (bind (saveFishers C v x (C.autos.map (·.1))) (fun _ => bind (saveFishers C v x C.selected) fun _ => k) d4).res = none ∧
      All (bind (saveFishers C v x (C.autos.map (·.1))) (fun _ => bind (saveFishers C v x C.selected) fun _ => k) d4)
        (fun d' => Le d d' ∧ d'.fishers = d.fishers) := by
    intro v x k d4 h4
    have ha : d4.autos = some .unreadable := h4.1.autos h
    have hf4 : d4.fishers.lookup name = none := by rw [h4.2]; exact hf
    obtain ⟨t1, f1, r1⟩ := saveFishers_unreadable C v x (C.autos.map (·.1)) d4 ha
    obtain ⟨t2, f2, r2⟩ := saveFishers_unreadable C v x C.selected d4 ha
    have all1 : All (saveFishers C v x (C.autos.map (·.1)) d4) (fun d' => Le d d' ∧ d'.fishers = d.fishers) := by
      refine ⟨fun d' hd => ?_, by rw [f1]; exact h4⟩
      rw [t1] at hd
      simp at hd
    have all2 : All (saveFishers C v x C.selected d4) (fun d' => Le d d' ∧ d'.fishers = d.fishers) := by
      refine ⟨fun d' hd => ?_, by rw [f2]; exact h4⟩
      rw [t2] at hd
      simp at hd
    rcases List.mem_append.mp hn with hm | hm
    · have := r1 name hm hf4
      exact ⟨bind_fails_first this, All.bind all1 fun a ha => by rw [this] at ha; simp at ha⟩
    · have := r2 name hm hf4
      refine ⟨bind_fails (P := fun d' => d' = d4) f1 fun _ d' e => ?_, All.bind all1 fun a _ => ?_⟩
      · rw [e]
        exact bind_fails_first this
      · rw [f1]
        exact All.bind all2 fun a ha => by rw [this] at ha; simp at ha
  refine ⟨?_, ?_⟩
  · refine bind_fails (P := fun d' => Le d d' ∧ d'.fishers = d.fishers) (densities_le C d).2 fun n d1 l1 => ?_
    refine bind_fails (P := fun d' => Le d d' ∧ d'.fishers = d.fishers) (all_step (fiducial_le C n) l1).2 fun c d2 l2 => ?_
    refine bind_fails (P := fun d' => Le d d' ∧ d'.fishers = d.fishers) (all_step (derivatives_le C n c) l2).2 fun x d3 l3 => ?_
    refine bind_fails (P := fun d' => Le d d' ∧ d'.fishers = d.fishers) (all_step (covariance_le C) l3).2 fun v d4 l4 => ?_
    exact (two v x _ d4 l4).1
  · refine All.bind (densities_le C d) fun n _ => ?_
    have l1 := (densities_le C d).2
    generalize (densities C d).final = d1 at l1
    have a2 := all_step (fiducial_le C n) l1
    refine All.bind a2 fun c _ => ?_
    have l2 := a2.2
    generalize (fiducial C n d1).final = d2 at l2
    have a3 := all_step (derivatives_le C n c) l2
    refine All.bind a3 fun x _ => ?_
    have l3 := a3.2
    generalize (derivatives C n c d2).final = d3 at l3
    have a4 := all_step (covariance_le C) l3
    refine All.bind a4 fun v _ => ?_
    exact (two v x _ _ a4.2).2

theorem bad_run {C : Comp V} {d : Disk V} (hb : Bad C d) : (forecast C d).res = none ∧ ∀ d' ∈ (forecast C d).trace, Bad C d' := by
  have keep : (∀ d', Le d d' → Bad C d') → ∀ d' ∈ (forecast C d).trace, Bad C d' := fun h d' hd => h d' ((forecast_le C d).1 d' hd)
  cases hb with
  | niz h =>
    refine ⟨bind_fails_first (by rw [densities, h]; rfl), keep fun d' l => .niz ?_⟩
    rw [l.niz (by rw [h]; simp), h]
  | probe n p h hp hn hc =>
    have e : forecast C d = ⟨[], d, none⟩ := by
      have e1 : densities C d = ⟨[], d, some n⟩ := by rw [densities, h]; rfl
      have e2 : fiducial C n d = ⟨[], d, none⟩ := by
        rw [fiducial, hc]
        have : (C.probes.all fun p => (n.lookup p).isSome) = false := by
          rw [List.all_eq_false]
          exact ⟨p, hp, by rw [hn]; simp⟩
        simp only [this]
        rfl
      unfold forecast
      simp only [bind, e1, e2, List.nil_append]
    rw [e]
    exact ⟨rfl, fun d' hd => absurd hd (by simp)⟩
  | cls h =>
    have hc : ∀ d', Le d d' → d'.cls = some .unreadable := fun d' l => by rw [l.cls (by rw [h]; simp), h]
    exact ⟨stages_fail (.inl fun d' l n => by rw [fiducial, hc d' l]; rfl), keep fun d' l => .cls (hc d' l)⟩
  | ders h hd =>
    refine ⟨stages_fail (.inr (.inl fun d' l n c => ?_)), keep fun d' l => .ders (l.ders h).1 ?_⟩
    · rw [derivatives, (l.ders h).1, (l.ders h).2]
      rcases hd with hd | hd <;> rw [hd] <;> rfl
    · rw [(l.ders h).2]
      exact hd
  | delta h =>
    have hc : ∀ d', Le d d' → d'.delta = some .unreadable := fun d' l => by rw [l.delta (by rw [h]; simp), h]
    exact ⟨stages_fail (.inr (.inr (.inl fun d' l => by rw [covariance, hc d' l]; rfl))), keep fun d' l => .delta (hc d' l)⟩
  | autos name h hn hf =>
    obtain ⟨h1, h2⟩ := autos_run h hn hf
    refine ⟨h1, fun d' hd => .autos name ((h2.1 d' hd).1.autos h) hn ?_⟩
    rw [(h2.1 d' hd).2]
    exact hf
  | fisher name h =>
    refine ⟨stages_fail (.inr (.inr (.inr (.inr fun d' l => ?_)))), keep fun d' l => .fisher name (l.fishers _ _ h)⟩
    rw [finalResults, readAll_unreadable (l.fishers _ _ h)]
    rfl
  | gcsp h =>
    refine ⟨stages_fail (.inr (.inr (.inr (.inl fun d' l => ?_)))), keep fun d' l => .gcsp ?_⟩
    · have := l.gcsp h
      obtain ⟨f, hf⟩ := Option.ne_none_iff_exists'.mp h
      rw [writeGcsp, this, hf]
      rfl
    · rw [l.gcsp h]
      exact h

/-! ### C31 -/

theorem Done.same {C : Comp V} {d d' : Disk V} (h : Done C d) (h' : Done C d') : Same d d' where
  niz := h.niz.trans h'.niz.symm
  cls := h.cls.trans h'.cls.symm
  derDir := h.derDir.trans h'.derDir.symm
  ders := h.ders.trans h'.ders.symm
  delta := h.delta.trans h'.delta.symm
  autos := by
    obtain ⟨t, e, ht⟩ := h.autos
    obtain ⟨t', e', ht'⟩ := h'.autos
    exact ⟨t, t', e, e', fun k => (ht k).trans (ht' k).symm⟩
  fishers := fun k => (h.fishers k).trans (h'.fishers k).symm
  gcsp := h.gcsp.trans h'.gcsp.symm
  results := fun k => (h.results k).trans (h'.results k).symm

theorem reach_good_or_bad {C : Comp V} (hC : Valid C) {d : Disk V} (h : Reach C d) : GB C d := by
  induction h with
  | start => exact .inl (good_empty C)
  | crash _ h' ih =>
    rcases ih with hg | hb
    · exact (good_run hC hg).1 _ h'
    · exact .inr ((bad_run hb).2 _ h')

/-- A forecast not interrupted completes. -/
theorem fresh_completes {C : Comp V} (hC : Valid C) : (forecast C Disk.empty).res = some () := by
  obtain ⟨_, a, h, _⟩ := good_run hC (good_empty C)
  exact h

/-- C31. However often the forecast was interrupted and started again, if a start completes, all files are as if it had never
been interrupted. -/
theorem resume_same {C : Comp V} (hC : Valid C) {d : Disk V} (h : Reach C d) (hs : (forecast C d).res = some ()) :
    Same (forecast C d).final (forecast C Disk.empty).final := by
  obtain ⟨_, _, _, h0⟩ := good_run hC (good_empty C)
  rcases reach_good_or_bad hC h with hg | hb
  · obtain ⟨_, _, _, h1⟩ := good_run hC hg
    exact h1.same h0
  · rw [(bad_run hb).1] at hs
    simp at hs

/-- C31 (partial: whether a start completes depends on where the earlier ones were interrupted). A start completes exactly when
the interruptions left none of the files that stop it. -/
theorem resume_completes_iff_partial {C : Comp V} (hC : Valid C) {d : Disk V} (h : Reach C d) :
    (forecast C d).res = some () ↔ ¬ Bad C d := by
  constructor
  · intro hs hb
    rw [(bad_run hb).1] at hs
    simp at hs
  · intro hb
    rcases reach_good_or_bad hC h with hg | hb'
    · obtain ⟨_, a, h, _⟩ := good_run hC hg
      exact h
    · exact absurd hb' hb

/-- Once a start has failed because of such a file, no later one ever completes, interrupted or not. -/
theorem stuck_forever {C : Comp V} {d d' : Disk V} (hb : Bad C d) (h : Later C d d') : (forecast C d').res = none := by
  have : Bad C d' := by
    induction h with
    | here => exact hb
    | crash _ h' ih => exact (bad_run ih).2 _ h'
  exact (bad_run this).1

/-- What is complete is never touched again: no later state has another content of a Fisher file that is there (nor of the
densities, spectra, covariance), whatever the directory was at first. -/
theorem finished_kept (C : Comp V) {d d' : Disk V} (h : Later C d d') : Le d d' := by
  induction h with
  | here => exact Le.refl d
  | crash _ h' ih => exact ih.trans ((forecast_le C _).1 _ h')

theorem mem_bind_left {α β : Type} {m : Prog V α} {k : α → Prog V β} {d d' : Disk V} (h : d' ∈ (m d).trace) :
    d' ∈ (bind m k d).trace := by
  unfold bind
  cases (m d).res with
  | none => exact h
  | some a => exact List.mem_append_left _ h

theorem mem_bind_right {α β : Type} {m : Prog V α} {k : α → Prog V β} {d d' : Disk V} {a : α} (hr : (m d).res = some a)
    (h : d' ∈ (k a (m d).final).trace) : d' ∈ (bind m k d).trace := by
  unfold bind
  rw [hr]
  exact List.mem_append_right _ h

/-- Not every interruption is recovered from: for every configuration, one during the very first write leaves a directory on
which no later start completes. -/
theorem first_write_fatal {C : Comp V} (hC : Valid C) :
    ∃ d, Reach C d ∧ ∀ d', Later C d d' → (forecast C d').res = none := by
  refine ⟨{ Disk.empty with niz := some .unreadable }, .crash .start (mem_bind_left ?_), fun d' h =>
    stuck_forever (.niz rfl) h⟩
  show _ ∈ (bind (writeNiz C [] C.probes) _ Disk.empty).trace
  refine mem_bind_left ?_
  cases hp : C.probes with
  | nil => exact absurd hp hC.probes
  | cons p ps => exact mem_bind_left (by simp [put])

/-- For every configuration, an interruption while the derivatives are computed (no file is being written then) is fatal: the
directory is there, so they are not computed again, and there is nothing to load. -/
theorem derivatives_interrupted_fatal {C : Comp V} (hC : Valid C) :
    ∃ d, Reach C d ∧ d.derDir = true ∧ d.ders = none ∧ d.niz = some (.full (nizD C)) ∧ d.cls = some (.full (c0 C)) ∧
      ∀ d', Later C d d' → (forecast C d').res = none := by
  obtain ⟨_, n, hn, rfl, g1, n1⟩ := densities_tr hC (good_empty C)
  have e1 : ∃ x, (densities C Disk.empty).final = { Disk.empty with niz := x } := by
    show ∃ x, (bind (writeNiz C [] C.probes) _ Disk.empty).final = _
    exact (All.bind (writeNiz_frame C [] C.probes Disk.empty) fun a ha => All.ret _
      (writeNiz_frame C [] C.probes Disk.empty).2).2
  obtain ⟨_, c, hc, rfl, g2, n2, c2⟩ := fiducial_tr g1 n1
  have e2 : (fiducial C (nizD C) (densities C Disk.empty).final).final.derDir = false ∧
      (fiducial C (nizD C) (densities C Disk.empty).final).final.ders = none := by
    obtain ⟨x, e⟩ := e1
    rw [e]
    unfold fiducial
    show Disk.derDir (Out.final (if _ then _ else _)) = _ ∧ Disk.ders (Out.final (if _ then _ else _)) = _
    split <;> exact ⟨rfl, rfl⟩
  refine ⟨{ (fiducial C (nizD C) (densities C Disk.empty).final).final with derDir := true }, .crash .start ?_, rfl, e2.2, n2, c2,
    fun d' h => by
      refine stuck_forever ?_ h
      exact .ders rfl (.inl e2.2)⟩
  refine mem_bind_right hn (mem_bind_right hc (mem_bind_left ?_))
  unfold derivatives
  simp only [e2.1, Bool.false_eq_true, if_false]
  exact mem_bind_left (by simp [put])

/-- Starting a finished forecast again fails (the external Fisher matrix is there), also when only the final results are to be
made again. -/
theorem finished_again_fails {C : Comp V} (hC : Valid C) {d : Disk V} (h : Reach C d) (hs : (forecast C d).res = some ()) :
    (forecast C (forecast C d).final).res = none := by
  rcases reach_good_or_bad hC h with hg | hb
  · obtain ⟨_, _, _, h1⟩ := good_run hC hg
    exact (bad_run (.gcsp (by rw [h1.gcsp]; simp))).1
  · rw [(bad_run hb).1] at hs
    simp at hs

/-- Complete results in the run directory are used as they are and nothing is written, whatever the configuration says now:
also those of another configuration. -/
theorem stored_reused (C : Comp V) (d : Disk V) (n : Dict Str V) (m : Dict Str V) (a c x v : V)
    (h1 : d.niz = some (.full n)) (h2 : d.cls = some (.full c)) (h3 : d.derDir = true) (h4 : d.ders = some (.full x))
    (h5 : d.delta = some (.full v)) :
    densities C d = ⟨[], d, some n⟩ ∧ fiducial C m d = ⟨[], d, some c⟩ ∧ derivatives C m a d = ⟨[], d, some x⟩ ∧
    covariance C d = ⟨[], d, some v⟩ := by
  refine ⟨?_, ?_, ?_, ?_⟩
  · unfold densities; rw [h1]; rfl
  · unfold fiducial; rw [h2]; rfl
  · unfold derivatives; rw [h3, h4]; rfl
  · unfold covariance; rw [h5]; rfl

/-- Three probes, five Fisher matrices, two results; every interruption in turn. -/
def exComp : Comp Nat where
  probes := ["a".toList, "b".toList, "c".toList]
  niz := fun p => p.length
  cls := fun f => ((f "a".toList).getD 0) + 10
  ders := fun _ c => c + 1
  delta := fun _ c => c + 2
  autos := [("aa".toList, "a".toList), ("bb".toList, "b".toList), ("cc".toList, "c".toList)]
  autoFisher := fun n v x => n.length + v + x
  autoTable := fun _ v x => v * x
  selected := ["ab".toList, "aa".toList]
  fisher := fun _ v x t => v + x + (t "a".toList).getD 0
  gcsp := 7
  resNames := ["r".toList, "s".toList]
  result := fun _ f g => (f "ab".toList).getD 0 + g

theorem exComp_valid : Valid exComp :=
  ⟨by decide +kernel, by decide +kernel, by decide +kernel, by decide +kernel, by decide +kernel, by decide +kernel⟩

example : (forecast exComp Disk.empty).res = some () := fresh_completes exComp_valid
example : ((forecast exComp Disk.empty).trace.map fun d => (forecast exComp d).res.isSome) =
    [false, false, false, false, false, true, false, true, false, false, true, false, true, false, true, false, true, false, true,
      false, true, false, true, false, true, false, true, false, false, false, false, false, false] := by decide +kernel

end Seyfert.Resume
