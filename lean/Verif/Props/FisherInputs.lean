import Verif.Lemmas.FisherInputs
import Verif.Props.CosmoFile

/-!
C114. The normalised spectra a Fisher matrix is computed from: how they are computed, and what a file
of shot noise given later does to them.
-/

namespace Seyfert.Inputs

open Ells Cov

variable {P K : Type} [DecidableEq P] [Field K] [LinearOrder K]
variable {sq : K → K} {sing : List (Nat → Nat → K) → Nat → Bool}

/-! ### Entries of a dictionary -/

theorem lookup_unique {A B : Type} [DecidableEq A] [BEq A] [LawfulBEq A] {l : List (A × B)} {k : A} {v : B}
    (h1 : (k, v) ∈ l) (h2 : ∀ v', (k, v') ∈ l → v' = v) : l.lookup k = some v := by
  cases h : l.lookup k with
  | none => exact absurd (List.mem_map_of_mem (f := (·.1)) h1) ((PyDict.lookup_none_iff l k).mp h)
  | some v' => rw [h2 v' (PyDict.mem_of_lookup h)]

theorem lookup_absent {A B : Type} [DecidableEq A] [BEq A] [LawfulBEq A] {l : List (A × B)} {k : A}
    (h : ∀ v, (k, v) ∉ l) : l.lookup k = none := by
  cases e : l.lookup k with
  | none => rfl
  | some v => exact absurd (PyDict.mem_of_lookup e) (h v)

theorem mem_autoItems (s : List ((P × P) × Block P K)) (x : List P × Item P K) :
    x ∈ autoItems s ↔ ∃ k b, (k, b) ∈ s ∧ b.p1 = b.p2 ∧ x = ([b.p1], .shared k) := by
  unfold autoItems
  simp only [List.mem_map, List.mem_filter, decide_eq_true_eq]
  constructor
  · rintro ⟨⟨k, b⟩, ⟨h1, h2⟩, rfl⟩
    exact ⟨k, b, h1, h2, rfl⟩
  · rintro ⟨k, b, h1, h2, rfl⟩
    exact ⟨(k, b), ⟨h1, h2⟩, rfl⟩

/-- The blocks of a dictionary are those of its keys. -/
def Paired (s : List ((P × P) × Block P K)) : Prop := ∀ p ∈ s, p.2.p1 = p.1.1 ∧ p.2.p2 = p.1.2

theorem auto_lookup {s : List ((P × P) × Block P K)} (hp : Paired s) (p : P) (old : List (List P × Item P K)) :
    (PyDict.update old (autoItems s)).lookup [p]
      = if (s.lookup (p, p)).isSome then some (.shared (p, p)) else old.lookup [p] := by
  rw [PyDict.lookup_update]
  by_cases h : (s.lookup (p, p)).isSome
  · rw [if_pos h]
    obtain ⟨b, hb⟩ := Option.isSome_iff_exists.mp h
    have hm := PyDict.mem_of_lookup hb
    have h1 := hp _ hm
    rw [lookup_unique (v := .shared (p, p))]
    · rfl
    · rw [List.mem_reverse, mem_autoItems]
      refine ⟨(p, p), b, hm, ?_, ?_⟩
      · rw [h1.1, h1.2]
      · rw [h1.1]
    · intro v hv
      rw [List.mem_reverse, mem_autoItems] at hv
      obtain ⟨k, b', hm', he, heq⟩ := hv
      have h2 := hp _ hm'
      simp only [Prod.mk.injEq, List.cons.injEq, and_true] at heq
      obtain ⟨e1, rfl⟩ := heq
      obtain ⟨a, b⟩ := k
      simp only at h2
      rw [h2.1] at e1
      rw [h2.1, h2.2] at he
      subst e1; subst he
      rfl
  · rw [if_neg h, lookup_absent]
    · rfl
    · intro v hv
      rw [List.mem_reverse, mem_autoItems] at hv
      obtain ⟨k, b', hm', he, heq⟩ := hv
      have h2 := hp _ hm'
      obtain ⟨a, b⟩ := k
      simp only [Prod.mk.injEq, List.cons.injEq, and_true] at heq h2
      rw [h2.1, h2.2] at he
      rw [h2.1] at heq
      obtain ⟨rfl, -⟩ := heq
      subst he
      apply h
      rw [PyDict.lookup_isSome_iff]
      exact List.mem_map_of_mem (f := (·.1)) hm'

theorem auto_lookup_other {s : List ((P × P) × Block P K)} (name : List P) (h : name.length ≠ 1)
    (old : List (List P × Item P K)) : (PyDict.update old (autoItems s)).lookup name = old.lookup name := by
  rw [PyDict.lookup_update, lookup_absent]
  · rfl
  · intro v hv
    rw [List.mem_reverse, mem_autoItems] at hv
    obtain ⟨k, b, _, _, e⟩ := hv
    simp only [Prod.mk.injEq] at e
    rw [e.1] at h
    exact h rfl

theorem mem_xcItems {s : Store P K} {l : List (List P)} {r : List (List P × Item P K)}
    (h : xcItems sing s l = .ok r) :
    (∀ x ∈ r, x.1 ∈ l ∧ ∃ M, xcMatrix s x.1 = .ok M ∧ x.2 = .own M.ells M.arr) ∧
    (∀ ps ∈ l, ∃ i, (ps, i) ∈ r) := by
  induction l generalizing r with
  | nil => cases h; simp
  | cons ps l ih =>
    unfold xcItems at h
    cases hM : xcMatrix s ps with
    | error e => rw [hM] at h; cases h
    | ok M =>
      rw [hM] at h
      simp only at h
      split at h
      · cases h
      · cases hl : xcItems sing s l with
        | error e => rw [hl] at h; cases h
        | ok r' =>
          rw [hl] at h
          cases h
          obtain ⟨h1, h2⟩ := ih hl
          constructor
          · intro x hx
            rcases List.mem_cons.mp hx with rfl | hx
            · exact ⟨List.mem_cons_self, M, hM, rfl⟩
            · exact ⟨List.mem_cons_of_mem _ (h1 x hx).1, (h1 x hx).2⟩
          · intro q hq
            rcases List.mem_cons.mp hq with rfl | hq
            · exact ⟨_, List.mem_cons_self⟩
            · obtain ⟨i, hi⟩ := h2 q hq
              exact ⟨i, List.mem_cons_of_mem _ hi⟩

theorem xcSets_length {probes ps : List P} (h : ps ∈ xcSets probes) : ps.length ≠ 1 := by
  unfold xcSets at h
  split at h
  · next h1 =>
    rcases List.mem_cons.mp h with rfl | h
    · omega
    · split at h
      · obtain ⟨x, _, rfl⟩ := List.mem_map.mp h
        simp
      · simp at h
  · simp at h

/-! ### Computing -/

/-- The blocks that are evaluated, and what is made of them. -/
theorem compute_ok {g : Cfg P K} {cls : List ((P × P) × Cl K)} {c : Coll P K} (hn : (cls.map (·.1)).Nodup)
    (h : computeDeltaCls sq sing g cls = .ok c) :
    ∃ s1 st r, (match g.file with
        | none => s1 = cls.map (fun p => (p.1, fromCl p.1 p.2))
        | some f => noiseLoop f (cls.map (fun p => (p.1, fromCl p.1 p.2))) = .ok s1) ∧
      evalLoop sq sing (some g) none s1 = .ok c.single ∧ storeOf c.single = .ok st ∧
      xcItems sing st (xcSets g.probes) = .ok r ∧ c.cfg = some g ∧
      c.items = PyDict.update (PyDict.update [] (autoItems c.single)) r := by
  have hL : PyDict.update ([] : List ((P × P) × Block P K)) (cls.map (fun p => (p.1, fromCl p.1 p.2)))
      = cls.map (fun p => (p.1, fromCl p.1 p.2)) := by
    rw [PyDict.update_nodup]
    · rfl
    · simpa [List.map_map, Function.comp_def] using hn
  unfold computeDeltaCls loadInputData loadFiducialCls noiseAgain at h
  simp only [hL] at h
  have fin : ∀ s1 : List ((P × P) × Block P K),
      evaluateAndBuild sq sing { cfg := some g, single := s1, items := [] } = .ok c →
      ∃ st r, evalLoop sq sing (some g) none s1 = .ok c.single ∧ storeOf c.single = .ok st ∧
      xcItems sing st (xcSets g.probes) = .ok r ∧ c.cfg = some g ∧
      c.items = PyDict.update (PyDict.update [] (autoItems c.single)) r := by
    intro s1 h
    unfold evaluateAndBuild evaluateSingle at h
    simp only at h
    cases he : evalLoop sq sing (some g) none s1 with
    | error e => rw [he] at h; cases h
    | ok s2 =>
      rw [he] at h
      simp only [buildXC] at h
      cases hs : storeOf s2 with
      | error e => rw [hs] at h; cases h
      | ok st =>
        rw [hs] at h
        simp only at h
        cases hx : xcItems sing st (xcSets g.probes) with
        | error e => rw [hx] at h; cases h
        | ok r =>
          rw [hx] at h
          cases h
          exact ⟨st, r, rfl, hs, hx, rfl, rfl⟩
  cases hf : g.file with
  | none =>
    rw [hf] at h
    simp only at h
    obtain ⟨st, r, h'⟩ := fin _ h
    exact ⟨_, st, r, rfl, h'⟩
  | some f =>
    rw [hf] at h
    simp only [loadShotNoise] at h
    cases hl : noiseLoop f (cls.map (fun p => (p.1, fromCl p.1 p.2))) with
    | error e => rw [hl] at h; cases h
    | ok s1 =>
      rw [hl] at h
      simp only at h
      rw [noiseLoop_twice hl] at h
      simp only at h
      obtain ⟨st, r, h'⟩ := fin _ h
      exact ⟨s1, st, r, hl, h'⟩

theorem lookup_fromCl (cls : List ((P × P) × Cl K)) (k : P × P) :
    (cls.map (fun p => (p.1, fromCl p.1 p.2))).lookup k = (cls.lookup k).map (fromCl k) := by
  induction cls with
  | nil => rfl
  | cons p l ih =>
    obtain ⟨a, t⟩ := p
    simp only [List.map_cons, List.lookup_cons]
    cases e : (k == a) with
    | true =>
      have : k = a := eq_of_beq e
      subst this; rfl
    | false => exact ih

theorem compute_noise {g : Cfg P K} {k : P × P} {t : Cl K} (shape : Nat × Nat) (x : List (Nat → Nat → K))
    (h : noiseFor (some g) (fromCl k t) = .ok (shape, x)) : ∀ y ∈ x, y = configNoise g.noise k := by
  unfold noiseFor at h
  simp only [fromCl] at h
  intro y hy
  by_cases e : k.1 = k.2
  · simp only [computeNoise, e, ne_eq, not_true_eq_false, if_false] at h
    cases h
    obtain ⟨_, _, rfl⟩ := List.mem_map.mp hy
    funext i j
    unfold configNoise diagOf
    by_cases ij : i = j
    · simp only [e, ij, and_self, if_true]
    · simp only [ij, and_false, if_false, zero_mul]
  · simp only [ne_eq, e, not_false_eq_true, if_true] at h
    cases h
    obtain ⟨_, _, rfl⟩ := List.mem_map.mp hy
    funext i j
    unfold configNoise
    rw [if_neg (fun hh => e hh.1)]

theorem file_noise {g : Option (Cfg P K)} {N : Nat → Nat → K} {b : Block P K} (shape : Nat × Nat)
    (x : List (Nat → Nat → K)) (h : noiseFor g (loadNoise N b) = .ok (shape, x)) : ∀ y ∈ x, y = N := by
  unfold noiseFor loadNoise at h
  simp only at h
  cases h
  intro y hy
  obtain ⟨_, _, rfl⟩ := List.mem_map.mp hy
  rfl

/-- C114. The normalised spectra are those of the fiducial spectra, one for each of them and under the
same key: with the noise of the file of shot noise if one is configured, which must have a dataset for
the key, and with the noise that follows from the configuration otherwise. -/
theorem compute_blocks {g : Cfg P K} {cls : List ((P × P) × Cl K)} {c : Coll P K} (hn : (cls.map (·.1)).Nodup)
    (h : computeDeltaCls sq sing g cls = .ok c) :
    c.single.map (·.1) = cls.map (·.1) ∧
    ∀ k t, cls.lookup k = some t → ∃ b, c.single.lookup k = some b ∧
      (g.file = none → Normalised sq b k t g.fSky (configNoise g.noise k)) ∧
      (∀ f, g.file = some f → ∃ N, f.lookup k = some N ∧ Normalised sq b k t g.fSky N) := by
  obtain ⟨s1, st, r, h1, h2, -⟩ := compute_ok hn h
  have R2 := evalLoop_ok h2
  cases hf : g.file with
  | none =>
    rw [hf] at h1
    simp only at h1
    subst h1
    refine ⟨by rw [R2.keys, List.map_map]; rfl, fun k t ht => ?_⟩
    rcases R2.lookup k with ⟨a, _⟩ | ⟨b, b', hb, hb', he⟩
    · rw [lookup_fromCl, ht] at a; cases a
    · rw [lookup_fromCl, ht] at hb
      cases hb
      refine ⟨b', hb', fun _ => ?_, by simp⟩
      exact evalBlock_normalised rfl rfl compute_noise he
  | some f =>
    rw [hf] at h1
    simp only at h1
    have R1 := noiseLoop_ok h1
    refine ⟨by rw [R2.keys, R1.keys, List.map_map]; rfl, fun k t ht => ?_⟩
    rcases R1.lookup k with ⟨a, _⟩ | ⟨b, b1, hb, hb1, N, hN, rfl⟩
    · rw [lookup_fromCl, ht] at a; cases a
    · rw [lookup_fromCl, ht] at hb
      cases hb
      rcases R2.lookup k with ⟨a, _⟩ | ⟨b2, b', hb2, hb', he⟩
      · rw [hb1] at a; cases a
      · rw [hb1] at hb2
        cases hb2
        refine ⟨b', hb', by simp, ?_⟩
        intro f' e
        cases e
        exact ⟨N, hN, evalBlock_normalised rfl rfl file_noise he⟩

theorem compute_core {g : Cfg P K} {cls : List ((P × P) × Cl K)} {c : Coll P K} (hn : (cls.map (·.1)).Nodup)
    (h : computeDeltaCls sq sing g cls = .ok c) {k : P × P} {b : Block P K} (hb : c.single.lookup k = some b) :
    ∃ t, cls.lookup k = some t ∧ core b = fromCl k t := by
  have hk : k ∈ cls.map (·.1) := by
    rw [← (compute_blocks hn h).1, ← PyDict.lookup_isSome_iff, hb]; rfl
  obtain ⟨t, ht⟩ := Option.isSome_iff_exists.mp ((PyDict.lookup_isSome_iff cls k).mpr hk)
  refine ⟨t, ht, ?_⟩
  obtain ⟨b', hb', h1, h2⟩ := (compute_blocks hn h).2 k t ht
  rw [hb] at hb'
  cases hb'
  have key : ∀ N, Normalised sq b k t g.fSky N → core b = fromCl k t := by
    intro N H
    obtain ⟨b1, b2, b3, b4, b5, b6, b7, b8, b9⟩ := b
    have e1 := H.pair; have e2 := H.grid; have e3 := H.size; have e4 := H.spectrum
    simp only at e1 e2 e3 e4
    simp only [core, fromCl, Block.mk.injEq, and_true]
    exact ⟨e1.1, e1.2, e2.1, e2.2, e3.1, e3.2, e4⟩
  cases hf : g.file with
  | none => exact key _ (h1 hf)
  | some f =>
    obtain ⟨N, _, H⟩ := h2 f hf
    exact key _ H

theorem compute_paired {g : Cfg P K} {cls : List ((P × P) × Cl K)} {c : Coll P K} (hn : (cls.map (·.1)).Nodup)
    (h : computeDeltaCls sq sing g cls = .ok c) : Paired c.single := by
  have hnc : (c.single.map (·.1)).Nodup := by rw [(compute_blocks hn h).1]; exact hn
  intro p hp
  obtain ⟨t, _, e⟩ := compute_core hn h (PyDict.lookup_of_mem c.single hnc hp)
  exact ⟨congrArg Block.p1 e, congrArg Block.p2 e⟩

/-- C114. The entries of the collection: every probe whose auto-correlation is there, with exactly the
values of that block; every joint matrix of the present probes and of two of them, made from the blocks;
and nothing else. -/
theorem compute_entries {g : Cfg P K} {cls : List ((P × P) × Cl K)} {c : Coll P K} (hn : (cls.map (·.1)).Nodup)
    (h : computeDeltaCls sq sing g cls = .ok c) :
    (∀ p, view c [p] = (c.single.lookup (p, p)).map (fun b => (b.ells, b.delta))) ∧
    (∃ st, storeOf c.single = .ok st ∧
      ∀ ps ∈ xcSets g.probes, ∃ M, xcMatrix st ps = .ok M ∧ view c ps = some (M.ells, some M.arr)) ∧
    (∀ ps, (view c ps).isSome → (∃ p, ps = [p]) ∨ ps ∈ xcSets g.probes) := by
  obtain ⟨s1, st, r, h1, h2, h3, h4, h5, h6⟩ := compute_ok hn h
  obtain ⟨m1, m2⟩ := mem_xcItems h4
  have hp := compute_paired hn h
  refine ⟨fun p => ?_, ⟨st, h3, fun ps hps => ?_⟩, fun ps hps => ?_⟩
  · have e : c.items.lookup [p] = (PyDict.update [] (autoItems c.single)).lookup [p] := by
      rw [h6, PyDict.lookup_update, lookup_absent]
      · rfl
      · intro v hv
        exact xcSets_length (m1 _ (List.mem_reverse.mp hv)).1 rfl
    unfold view
    rw [e, auto_lookup hp]
    cases hl : c.single.lookup (p, p) with
    | none => rfl
    | some b => simp [hl]
  · obtain ⟨i, hi⟩ := m2 ps hps
    obtain ⟨_, M, hM, hv⟩ := m1 _ hi
    simp only at hM hv
    refine ⟨M, hM, ?_⟩
    have e : c.items.lookup ps = some (.own M.ells M.arr) := by
      rw [h6, PyDict.lookup_update, lookup_unique (v := .own M.ells M.arr)]
      · rfl
      · rw [List.mem_reverse, ← hv]; exact hi
      · intro v' hv'
        obtain ⟨_, M', hM', e'⟩ := m1 _ (List.mem_reverse.mp hv')
        simp only at hM' e'
        rw [hM] at hM'
        cases hM'
        exact e'
    unfold view
    rw [e]
  · by_cases hl : ps.length = 1
    · obtain ⟨p, rfl⟩ := List.length_eq_one_iff.mp hl
      exact Or.inl ⟨p, rfl⟩
    · refine Or.inr ?_
      unfold view at hps
      cases e : c.items.lookup ps with
      | none => rw [e] at hps; cases hps
      | some i =>
        rw [h6, PyDict.lookup_update, auto_lookup_other ps hl] at e
        simp only [List.lookup_nil, Option.or_none] at e
        exact (m1 _ (List.mem_reverse.mp (PyDict.mem_of_lookup e))).1

/-! ### Preparing the inputs of the Fisher matrices -/

/-- C114. With no file of shot noise, neither passed nor configured, the stored spectra are used as they
are. -/
theorem prepare_none {g : Cfg P K} {c : Coll P K} (h : g.file = none) : prepareInputs sq sing g none c = .ok c := by
  unfold prepareInputs
  rw [h]
  rfl

theorem prepare_ok {g : Cfg P K} {given : Option (List ((P × P) × (Nat → Nat → K)))}
    {f : List ((P × P) × (Nat → Nat → K))} {c d : Coll P K} (hf : given.or g.file = some f)
    (h : prepareInputs sq sing g given c = .ok d) :
    ∃ s1, noiseLoop f c.single = .ok s1 ∧ evalLoop sq sing c.cfg (some g.fSky) s1 = .ok d.single ∧
      d.cfg = c.cfg ∧ d.items = PyDict.update c.items (autoItems d.single) := by
  unfold prepareInputs loadShotNoise at h
  rw [hf] at h
  simp only at h
  cases hl : noiseLoop f c.single with
  | error e => rw [hl] at h; cases h
  | ok s1 =>
    rw [hl] at h
    simp only [evaluateSingle] at h
    cases he : evalLoop sq sing c.cfg (some g.fSky) s1 with
    | error e => rw [he] at h; cases h
    | ok s2 =>
      rw [he] at h
      cases h
      exact ⟨s1, rfl, he, rfl, rfl⟩

/-- C114. A file of shot noise that is passed comes before the configured one.  Whatever noise and sky
fraction the stored spectra were normalised with, the new ones are the stored spectra with the noise of
the file and the sky fraction of the configuration. -/
theorem prepare_blocks {g : Cfg P K} {given : Option (List ((P × P) × (Nat → Nat → K)))}
    {f : List ((P × P) × (Nat → Nat → K))} {c d : Coll P K} (hf : given.or g.file = some f)
    (h : prepareInputs sq sing g given c = .ok d) :
    d.single.map (·.1) = c.single.map (·.1) ∧
    ∀ k b, c.single.lookup k = some b → ∃ b' N, d.single.lookup k = some b' ∧ f.lookup k = some N ∧
      Normalised sq b' (b.p1, b.p2) ⟨b.ells, b.widths, b.n, b.m, b.c⟩ g.fSky N := by
  obtain ⟨s1, h1, h2, -⟩ := prepare_ok hf h
  have R1 := noiseLoop_ok h1
  have R2 := evalLoop_ok h2
  refine ⟨by rw [R2.keys, R1.keys], fun k b hb => ?_⟩
  rcases R1.lookup k with ⟨a, _⟩ | ⟨b0, b1, hb0, hb1, N, hN, rfl⟩
  · rw [hb] at a; cases a
  · rw [hb] at hb0
    cases hb0
    rcases R2.lookup k with ⟨a, _⟩ | ⟨b2, b', hb2, hb', he⟩
    · rw [hb1] at a; cases a
    · rw [hb1] at hb2
      cases hb2
      exact ⟨b', N, hb', hN, evalBlock_normalised (b := loadNoise N b) rfl rfl file_noise he⟩

/-- C114. A file of shot noise without a dataset for one of the stored spectra is refused, also when the
Fisher matrices to compute do not involve that spectrum. -/
theorem prepare_missing {g : Cfg P K} {given : Option (List ((P × P) × (Nat → Nat → K)))}
    {f : List ((P × P) × (Nat → Nat → K))} {c : Coll P K} (hf : given.or g.file = some f) {k : P × P}
    (hk : (c.single.lookup k).isSome) (hm : f.lookup k = none) :
    prepareInputs sq sing g given c = .error .keyError := by
  obtain ⟨b, hb⟩ := Option.isSome_iff_exists.mp hk
  unfold prepareInputs loadShotNoise
  rw [hf]
  simp only
  rw [noiseLoop_missing ⟨(k, b), PyDict.mem_of_lookup hb, hm⟩]

/-- C114. Giving a file of shot noise when the Fisher matrices are computed amounts to having computed the
normalised spectra with that file: from a stored collection computed with whatever noise and sky fraction,
one gets the same blocks, and hence the same covariance of every data vector. -/
theorem prepare_recompute {g g0 g2 : Cfg P K} {given : Option (List ((P × P) × (Nat → Nat → K)))}
    {f : List ((P × P) × (Nat → Nat → K))} {cls : List ((P × P) × Cl K)} {c c' e : Coll P K}
    (hn : (cls.map (·.1)).Nodup) (hc : computeDeltaCls sq sing g0 cls = .ok c) (hr : Reloaded c c')
    (hf : given.or g.file = some f) (h2 : g2.file = some f) (hs : g2.fSky = g.fSky)
    (he : computeDeltaCls sq sing g2 cls = .ok e) :
    ∃ d, prepareInputs sq sing g given c' = .ok d ∧ (∀ k, d.single.lookup k = e.single.lookup k) ∧
      ∃ sd se, storeOf d.single = .ok sd ∧ storeOf e.single = .ok se ∧
        ∀ dv, covariance sd dv = covariance se dv := by
  obtain ⟨s1, st, r, h1, h3, h4, -⟩ := compute_ok hn he
  rw [h2] at h1
  simp only at h1
  have R1 := noiseLoop_ok h1
  have R2 := evalLoop_ok h3
  have hcn : (c.single.map (·.1)).Nodup := by rw [(compute_blocks hn hc).1]; exact hn
  have hcn' : (c'.single.map (·.1)).Nodup := (hr.single.map _).nodup_iff.2 hcn
  have hlook : ∀ k, c'.single.lookup k = c.single.lookup k := CosmoFile.lookup_perm hr.single hcn
  -- the block of a stored key, computed again
  have main : ∀ k b, c'.single.lookup k = some b → ∃ N be, f.lookup k = some N ∧ e.single.lookup k = some be ∧
      evalBlock sq sing c'.cfg (some g.fSky) (loadNoise N b) = .ok be := by
    intro k b hb
    rw [hlook] at hb
    obtain ⟨t, ht, ec⟩ := compute_core hn hc hb
    rcases R1.lookup k with ⟨a, _⟩ | ⟨b0, b1, hb0, hb1, N, hN, rfl⟩
    · rw [lookup_fromCl, ht] at a; cases a
    · rw [lookup_fromCl, ht] at hb0
      cases hb0
      rcases R2.lookup k with ⟨a, _⟩ | ⟨b2, be, hb2, hbe, hev⟩
      · rw [hb1] at a; cases a
      · rw [hb1] at hb2
        cases hb2
        refine ⟨N, be, hN, hbe, ?_⟩
        rw [← hev]
        have ee : b.ells = t.ells := congrArg Block.ells ec
        refine evalBlock_congr (x := t.ells.map (fun _ => N)) ?_ ?_ rfl ?_
        · exact ec
        · unfold loadNoise; simp only [ee]
        · unfold skyFor; simp only [hs]
  obtain ⟨s1', hs1'⟩ := noiseLoop_total (file := f) (l := c'.single) (fun p hp => by
    obtain ⟨N, _, hN, _⟩ := main p.1 p.2 (PyDict.lookup_of_mem c'.single hcn' hp)
    rw [hN]; rfl)
  have R1' := noiseLoop_ok hs1'
  obtain ⟨s2', hs2'⟩ := evalLoop_total (sq := sq) (sing := sing) (g := c'.cfg) (f := some g.fSky) (l := s1') (fun p hp => by
    obtain ⟨b, hb, N, hN, e1⟩ := R1'.mem p hp
    obtain ⟨N', be, hN', _, hev⟩ := main p.1 b (PyDict.lookup_of_mem c'.single hcn' hb)
    rw [hN] at hN'
    cases hN'
    exact ⟨be, by rw [e1]; exact hev⟩)
  have R2' := evalLoop_ok hs2'
  have hd : prepareInputs sq sing g given c'
      = .ok { c' with single := s2', items := PyDict.update c'.items (autoItems s2') } := by
    unfold prepareInputs loadShotNoise
    rw [hf]
    simp only
    rw [hs1']
    simp only [evaluateSingle]
    rw [hs2']
  have hll : ∀ k, s2'.lookup k = e.single.lookup k := by
    intro k
    rcases R1'.lookup k with ⟨a, a'⟩ | ⟨b, b1, hb, hb1, N, hN, rfl⟩
    · rcases R2'.lookup k with ⟨_, z⟩ | ⟨b2, _, hb2, _⟩
      · rw [z]
        symm
        rw [PyDict.lookup_none_iff, (compute_blocks hn he).1, ← (compute_blocks hn hc).1, ← PyDict.lookup_none_iff,
          ← hlook, a]
      · rw [a'] at hb2; cases hb2
    · obtain ⟨N', be, hN', hbe, hev⟩ := main k b hb
      rw [hN] at hN'
      cases hN'
      rcases R2'.lookup k with ⟨z, _⟩ | ⟨b2, b3, hb2, hb3, hev'⟩
      · rw [hb1] at z; cases z
      · rw [hb1] at hb2
        cases hb2
        rw [hev] at hev'
        cases hev'
        rw [hb3, hbe]
  obtain ⟨sd, hsd⟩ := storeOf_total (l := s2') (fun p hp => by
    obtain ⟨b, _, hb⟩ := R2'.mem p hp
    exact evalBlock_delta hb)
  exact ⟨_, hd, hll, sd, st, hsd, h4, covariance_congr (storeOf_lookup hsd h4 hll)⟩

/-- C114. The entries of the prepared collection: those of single probes follow the new noise, but the
joint matrices stay those of the file. -/
theorem prepare_entries {g g0 : Cfg P K} {given : Option (List ((P × P) × (Nat → Nat → K)))}
    {f : List ((P × P) × (Nat → Nat → K))} {cls : List ((P × P) × Cl K)} {c c' d : Coll P K}
    (hn : (cls.map (·.1)).Nodup) (hc : computeDeltaCls sq sing g0 cls = .ok c) (hr : Reloaded c c')
    (hf : given.or g.file = some f) (h : prepareInputs sq sing g given c' = .ok d) :
    (∀ p, (d.single.lookup (p, p)).isSome →
      view d [p] = (d.single.lookup (p, p)).map (fun b => (b.ells, b.delta))) ∧
    (∀ ps, ps.length ≠ 1 → view d ps = view c ps) := by
  obtain ⟨s1, h1, h2, h3, h4⟩ := prepare_ok hf h
  have hcn : (c.single.map (·.1)).Nodup := by rw [(compute_blocks hn hc).1]; exact hn
  have hcn' : (c'.single.map (·.1)).Nodup := (hr.single.map _).nodup_iff.2 hcn
  have hp : Paired d.single := by
    intro q hq
    obtain ⟨b, hb, hev⟩ := (evalLoop_ok h2).mem q hq
    obtain ⟨b0, hb0, N, _, rfl⟩ := (noiseLoop_ok h1).mem _ hb
    have e := evalBlock_core hev
    have hp0 := compute_paired hn hc (q.1, b0) (hr.single.mem_iff.mp hb0)
    exact ⟨(congrArg Block.p1 e).trans hp0.1, (congrArg Block.p2 e).trans hp0.2⟩
  constructor
  · intro p hs
    unfold view
    rw [h4, auto_lookup hp, if_pos hs]
  · intro ps hl
    have e : d.items.lookup ps = c'.items.lookup ps := by rw [h4, auto_lookup_other ps hl]
    unfold view
    rw [e]
    cases hi : c'.items.lookup ps with
    | some i =>
      obtain ⟨x, y, rfl, hv⟩ := hr.own ps i hi
      simp only
      rw [← hv]
      rfl
    | none =>
      simp only
      have : c.items.lookup ps = none := by
        rw [PyDict.lookup_none_iff] at hi ⊢
        exact fun hm => hi (hr.keys.mem_iff.mpr hm)
      rw [this]

/-! Examples -/

/-- The collection that is read from the file of a collection. -/
def reload (c : Coll P K) : Coll P K :=
  { cfg := none
    single := c.single
    items := c.items.map (fun p => (p.1, .own (((view c p.1).map (·.1)).getD []) (((view c p.1).bind (·.2)).getD []))) }

theorem reload_ok {c : Coll P K} (h : ∀ name, name ∈ c.items.map (·.1) → ∃ e d, view c name = some (e, some d)) :
    Reloaded c (reload c) := by
  refine ⟨rfl, List.Perm.refl _, ?_, ?_⟩
  · simp only [reload, List.map_map]
    exact List.Perm.refl _
  · intro name i hi
    have hm := PyDict.mem_of_lookup hi
    obtain ⟨p, hp, e⟩ := List.mem_map.mp hm
    simp only [Prod.mk.injEq] at e
    obtain ⟨rfl, rfl⟩ := e
    obtain ⟨x, y, hv⟩ := h p.1 (List.mem_map_of_mem hp)
    exact ⟨x, y, by rw [hv]; rfl, hv⟩

def exGood : Cl ℚ := ⟨[10, 20], [1, 1], 1, 1, [fun _ _ => 4, fun _ _ => 5]⟩
def exCls : List ((Bool × Bool) × Cl ℚ) := [((true, true), exGood), ((true, false), exGood), ((false, false), exGood)]
def exFile (x : ℚ) : List ((Bool × Bool) × (Nat → Nat → ℚ)) :=
  [((false, false), fun _ _ => x), ((true, false), fun _ _ => 0), ((true, true), fun _ _ => x)]
def exCfg (x : ℚ) : Cfg Bool ℚ :=
  { noise := ⟨fun _ => [3], false, false, 1, 2⟩, fSky := 1, probes := [true, false], file := some (exFile x) }
def exSing : List (Nat → Nat → ℚ) → Nat → Bool := fun _ _ => false

/-- The entry of the first multipole and first bins of a joint matrix. -/
def firstEntry (r : Except Err (Coll Bool ℚ)) (ps : List Bool) : Option ℚ :=
  match r with
  | .error _ => none
  | .ok c => (view c ps).bind (fun v => v.2.map (fun a => entryAt a 0 0 0))

/-- The collection is computed and all its entries have values. -/
def complete (r : Except Err (Coll Bool ℚ)) : Bool :=
  match r with
  | .error _ => false
  | .ok c => c.items.all (fun p => ((view c p.1).bind (·.2)).isSome)

theorem complete_ok {r : Except Err (Coll Bool ℚ)} (h : complete r = true) :
    ∃ c, r = .ok c ∧ Reloaded c (reload c) := by
  unfold complete at h
  cases r with
  | error e => cases h
  | ok c =>
    refine ⟨c, rfl, reload_ok (fun name hm => ?_)⟩
    obtain ⟨p, hp, rfl⟩ := List.mem_map.mp hm
    have := List.all_eq_true.mp h p hp
    cases hv : view c p.1 with
    | none => simp [hv] at this
    | some v =>
      obtain ⟨e, d⟩ := v
      cases d with
      | none => simp [hv] at this
      | some d => exact ⟨e, d, rfl⟩

example : ∃ c, computeDeltaCls id exSing (exCfg 1) exCls = .ok c ∧ Reloaded c (reload c) :=
  complete_ok (by decide +kernel)

/-- C114, of the code: the joint matrices of a collection prepared with a file of shot noise are not those
of the collection computed with that file. -/
theorem joint_stale : ∃ (g0 g : Cfg Bool ℚ) (cls : List ((Bool × Bool) × Cl ℚ)) (c c' d e : Coll Bool ℚ)
    (ps : List Bool), computeDeltaCls id exSing g0 cls = .ok c ∧ Reloaded c c' ∧
      prepareInputs id exSing g none c' = .ok d ∧ computeDeltaCls id exSing g cls = .ok e ∧
      (view e ps).isSome ∧ view d ps ≠ view e ps := by
  obtain ⟨c, hc, hr⟩ := complete_ok (r := computeDeltaCls id exSing (exCfg 1) exCls) (by decide +kernel)
  obtain ⟨e, he, -⟩ := complete_ok (r := computeDeltaCls id exSing (exCfg 2) exCls) (by decide +kernel)
  obtain ⟨d, hd, -⟩ := prepare_recompute (g := exCfg 2) (g2 := exCfg 2) (given := none) (f := exFile 2)
    (by decide) hc hr rfl rfl rfl he
  have h1 : firstEntry (computeDeltaCls id exSing (exCfg 1) exCls) [true, false] = some 5 := by decide +kernel
  have h2 : firstEntry (computeDeltaCls id exSing (exCfg 2) exCls) [true, false] = some 6 := by decide +kernel
  rw [hc] at h1
  rw [he] at h2
  have h3 := (prepare_entries (given := none) (f := exFile 2) (by decide) hc hr rfl hd).2 [true, false] (by decide)
  refine ⟨exCfg 1, exCfg 2, exCls, c, reload c, d, e, [true, false], hc, hr, hd, he, ?_, ?_⟩
  · simp only [firstEntry] at h2
    cases hv : view e [true, false] with
    | none => rw [hv] at h2; cases h2
    | some v => rfl
  · intro hh
    rw [h3] at hh
    simp only [firstEntry] at h1 h2
    rw [hh, h2] at h1
    exact absurd h1 (by decide +kernel)

end Seyfert.Inputs
