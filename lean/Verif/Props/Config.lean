import Verif.Model.Config
import Verif.Lemmas.Keys
import Verif.Lemmas.PyDict
import Verif.Lemmas.PyNum
import Verif.Props.Batch
import Mathlib.Tactic.Ring
import Mathlib.Data.List.Nodup

/-!
C38, C39, C40, C66: probe combinations, equality of configurations, the configuration editor, names of configurations.
-/

set_option linter.unusedSectionVars false

namespace Seyfert.Config

open Keys (combKey)

/-! ### C38: probe combinations -/

section
variable {A : Type}

/-- A pair is a combination exactly if its first probe does not come after its second one. -/
theorem combos_mem (l : List A) (a b : A) :
    (a, b) ∈ combosWR l ↔ ∃ i j : Nat, i ≤ j ∧ l[i]? = some a ∧ l[j]? = some b := by
  induction l with
  | nil => simp [combosWR]
  | cons p ps ih =>
    rw [combosWR, List.mem_append, ih]
    constructor
    · rintro (h | ⟨i, j, hij, hi, hj⟩)
      · obtain ⟨q, hq, e⟩ := List.mem_map.mp h
        obtain ⟨rfl, rfl⟩ := Prod.mk.inj e
        obtain ⟨j, hj⟩ := List.mem_iff_getElem?.mp hq
        exact ⟨0, j, Nat.zero_le _, rfl, hj⟩
      · exact ⟨i + 1, j + 1, by omega, by simpa using hi, by simpa using hj⟩
    · rintro ⟨i, j, hij, hi, hj⟩
      cases i with
      | zero =>
        left
        simp only [List.getElem?_cons_zero, Option.some.injEq] at hi
        subst hi
        exact List.mem_map.mpr ⟨b, List.mem_iff_getElem?.mpr ⟨j, hj⟩, rfl⟩
      | succ i =>
        right
        cases j with
        | zero => omega
        | succ j => exact ⟨i, j, by omega, by simpa using hi, by simpa using hj⟩

/-- There are `n(n+1)/2` combinations of `n` probes. -/
theorem combos_length (l : List A) : 2 * (combosWR l).length = l.length * (l.length + 1) := by
  induction l with
  | nil => rfl
  | cons p ps ih =>
    rw [combosWR, List.length_append, List.length_map, mul_add, ih, List.length_cons]
    ring

/-- The combinations are listed by increasing first probe and, for the same first probe, by increasing second
probe; in particular none is repeated. `r` is any numbering of the probes in the order of the list. -/
theorem combos_sorted (l : List A) (r : A → Nat) (h : l.Pairwise (fun a b => r a < r b)) :
    (combosWR l).Pairwise (fun x y => r x.1 < r y.1 ∨ (r x.1 = r y.1 ∧ r x.2 < r y.2)) := by
  induction l with
  | nil => exact List.Pairwise.nil
  | cons p ps ih =>
    rw [combosWR, List.pairwise_append]
    refine ⟨?_, ih h.of_cons, ?_⟩
    · rw [List.pairwise_map]
      exact h.imp (fun hab => Or.inr ⟨rfl, hab⟩)
    · intro x hx y hy
      obtain ⟨q, _, rfl⟩ := List.mem_map.mp hx
      obtain ⟨i, j, _, hi, _⟩ := (combos_mem ps y.1 y.2).mp hy
      exact Or.inl ((List.pairwise_cons.mp h).1 y.1 (List.mem_iff_getElem?.mpr ⟨i, hi⟩))

variable [DecidableEq A]

theorem idxOf_sorted (l : List A) (h : l.Nodup) : l.Pairwise (fun a b => l.idxOf a < l.idxOf b) := by
  rw [List.pairwise_iff_getElem]
  intro i j hi hj hij
  rw [h.idxOf_getElem i hi, h.idxOf_getElem j hj]
  exact hij

/-- No combination is listed twice, and of two different probes exactly one order is listed. -/
theorem combos_once (l : List A) (h : l.Nodup) :
    (combosWR l).Nodup ∧ ∀ a ∈ l, ∀ b ∈ l, a ≠ b → ((a, b) ∈ combosWR l ↔ (b, a) ∉ combosWR l) := by
  constructor
  · have := combos_sorted l (fun a => l.idxOf a) (idxOf_sorted l h)
    refine this.imp ?_
    rintro x y hxy rfl
    simp at hxy
  · intro a ha b hb hab
    obtain ⟨i, hi⟩ := List.mem_iff_getElem?.mp ha
    obtain ⟨j, hj⟩ := List.mem_iff_getElem?.mp hb
    have uniq : ∀ (m n : Nat) (c : A), l[m]? = some c → l[n]? = some c → m = n := by
      intro m n c hm hn
      obtain ⟨hm', em⟩ := List.getElem?_eq_some_iff.mp hm
      obtain ⟨hn', en⟩ := List.getElem?_eq_some_iff.mp hn
      exact (h.getElem_inj_iff).mp (em.trans en.symm)
    rw [combos_mem, combos_mem]
    constructor
    · rintro ⟨i', j', hij, hi', hj'⟩ ⟨j'', i'', hji, hj'', hi''⟩
      have h1 := uniq _ _ _ hi' hi''
      have h2 := uniq _ _ _ hj' hj''
      have : i' = j' := by omega
      subst this
      exact hab (Option.some.inj (hi'.symm.trans hj'))
    · intro hn
      refine ⟨i, j, ?_, hi, hj⟩
      by_contra hlt
      exact hn ⟨j, i, by omega, hj, hi⟩

end

example : combosWR ["WL".toList, "GCph".toList, "GCsp".toList] =
    [("WL".toList, "WL".toList), ("WL".toList, "GCph".toList), ("WL".toList, "GCsp".toList),
      ("GCph".toList, "GCph".toList), ("GCph".toList, "GCsp".toList), ("GCsp".toList, "GCsp".toList)] := by
  decide +kernel

/-- The flag of a pair of probes does not depend on the order of the two names exactly if the table does not give
different flags for the two orders. What is missing from the full claim: nothing excludes such tables. -/
theorem flag_order_partial (t : Dict Str Bool) (p q : Str) (hp : '_' ∉ p) (hq : '_' ∉ q) :
    (xcFlag t (combKey p q)).toOption = (xcFlag t (combKey q p)).toOption ↔
      ¬ ∃ x y, t.lookup (combKey p q) = some x ∧ t.lookup (combKey q p) = some y ∧ x ≠ y := by
  unfold xcFlag
  rw [Keys.reverseCombKey_comb p q hp hq, Keys.reverseCombKey_comb q p hq hp]
  cases h1 : List.lookup (combKey p q) t <;> cases h2 : List.lookup (combKey q p) t <;>
    simp [Except.toOption, h1, h2]

/-- The flag is found if one of the two orders is in the table, and it is the one stored there. -/
theorem flag_found (t : Dict Str Bool) (p q : Str) (hp : '_' ∉ p) (hq : '_' ∉ q) (x : Bool)
    (h : (t.lookup (combKey p q) = some x ∧ t.lookup (combKey q p) = none) ∨
      (t.lookup (combKey q p) = some x ∧ t.lookup (combKey p q) = none)) :
    xcFlag t (combKey p q) = .ok x ∧ xcFlag t (combKey q p) = .ok x := by
  unfold xcFlag
  rw [Keys.reverseCombKey_comb p q hp hq, Keys.reverseCombKey_comb q p hq hp]
  rcases h with ⟨h1, h2⟩ | ⟨h1, h2⟩ <;> simp [h1, h2]

/-- A pair in neither order is refused. -/
theorem flag_missing (t : Dict Str Bool) (p q : Str) (hp : '_' ∉ p) (hq : '_' ∉ q)
    (h1 : t.lookup (combKey p q) = none) (h2 : t.lookup (combKey q p) = none) :
    xcFlag t (combKey p q) = .error .keyError := by
  unfold xcFlag
  rw [Keys.reverseCombKey_comb p q hp hq]
  simp [h1, h2]

/-- Witness: a table with both orders gives different flags for the same pair. -/
theorem flag_order_matters :
    xcFlag [("WL_GCph".toList, true), ("GCph_WL".toList, false)] (combKey "WL".toList "GCph".toList) = .ok true ∧
    xcFlag [("WL_GCph".toList, true), ("GCph_WL".toList, false)] (combKey "GCph".toList "WL".toList) = .ok false := by
  decide +kernel

example : xcFlag [("WL_GCph".toList, true)] (combKey "GCph".toList "WL".toList) = .ok true := by decide +kernel

/-! ### C39: equality of configurations -/

section
variable {K : Type} [DecidableEq K]

theorem parEq_iff (p q : Param.Par K) :
    parEq p q = true ↔ p.name = q.name ∧ p.fiducial = q.fiducial ∧ p.kind = q.kind ∧ p.current = q.current := by
  simp [parEq, and_assoc]

/-- Two parameters that differ only in whether they are free, in their probe, in the factor of their displacements and
in the method of derivation compare equal, although they lead to different computations. -/
theorem par_equal_but_different (p : Param.Par K) (free : Bool) (probe : Option Str) (stem : K) (method : Str) :
    parEq p { p with free := free, probe := probe, stem := stem, method := method } = true := by
  simp [parEq]

theorem dictEq_spec {κ υ : Type} [DecidableEq κ] [BEq κ] [LawfulBEq κ] (eq : υ → υ → Bool) (a b : List (κ × υ))
    (hb : (b.map (·.1)).Nodup) (ha : (a.map (·.1)).Nodup) :
    dictEq eq a b = true ↔
      (∀ k, k ∈ a.map (·.1) ↔ k ∈ b.map (·.1)) ∧
      ∀ k v w, a.lookup k = some v → b.lookup k = some w → eq v w = true := by
  unfold dictEq
  simp only [Bool.and_eq_true, decide_eq_true_eq, List.all_eq_true]
  constructor
  · rintro ⟨hl, hall⟩
    have hsub : a.map (·.1) ⊆ b.map (·.1) := by
      intro k hk
      obtain ⟨q, hq, rfl⟩ := List.mem_map.mp hk
      have h := hall q hq
      by_contra hn
      rw [(PyDict.lookup_none_iff b q.1).mpr hn] at h
      simp at h
    have hperm : (a.map (·.1)).Perm (b.map (·.1)) :=
      (List.subperm_of_subset ha hsub).perm_of_length_le (by simp [hl])
    refine ⟨fun k => hperm.mem_iff, fun k v w hv hw => ?_⟩
    have h := hall (k, v) (PyDict.mem_of_lookup hv)
    simp only [hw, Option.elim_some] at h
    exact h
  · rintro ⟨hk, hv⟩
    have hperm : (a.map (·.1)).Perm (b.map (·.1)) := (List.perm_ext_iff_of_nodup ha hb).mpr hk
    refine ⟨by simpa using hperm.length_eq, fun q hq => ?_⟩
    have h1 := PyDict.lookup_of_mem a ha hq
    have h2 : q.1 ∈ b.map (·.1) := (hk q.1).mp (List.mem_map_of_mem hq)
    obtain ⟨w, hw⟩ := Option.isSome_iff_exists.mp ((PyDict.lookup_isSome_iff b q.1).mpr h2)
    rw [hw]
    exact hv q.1 q.2 w h1 hw

theorem dictEq_refl {κ υ : Type} [DecidableEq κ] [BEq κ] [LawfulBEq κ] (eq : υ → υ → Bool) (hr : ∀ v, eq v v = true) (a : List (κ × υ))
    (ha : (a.map (·.1)).Nodup) : dictEq eq a a = true := by
  rw [dictEq_spec eq a a ha ha]
  refine ⟨fun _ => Iff.rfl, fun k v w hv hw => ?_⟩
  rw [hv] at hw
  cases hw
  exact hr v

theorem arrEq_iff (a b : List K) (h : a.length = b.length) : arrEq a b = true ↔ a = b := by
  simp [arrEq, h]

theorem arrEq_refl (a : List K) : arrEq a a = true := (arrEq_iff a a rfl).mpr rfl

/-- Multipoles of different lengths compare equal if one of the arrays has a single value. -/
theorem arrEq_broadcast (x : K) (n : Nat) : arrEq [x] (List.replicate n x) = true := by
  unfold arrEq
  split
  · rename_i h
    simp only [List.length_cons, List.length_nil, zero_add, List.length_replicate] at h
    subst h
    simp
  · simp [List.all_replicate]

variable {S : Type} [DecidableEq S]

/-- A configuration whose dictionaries have distinct keys, as Python dictionaries have. -/
def ProbeCfg.wf (a : ProbeCfg K S) : Prop := (a.nuisance.map (·.1)).Nodup

def ForecastCfg.wf (a : ForecastCfg K S) : Prop :=
  (a.pars.map (·.1)).Nodup ∧ (a.probes.map (·.1)).Nodup ∧ ∀ q ∈ a.probes, q.2.wf

theorem parEq_refl (p : Param.Par K) : parEq p p = true := by simp [parEq]

theorem probeEq_refl (a : ProbeCfg K S) (h : a.wf) : probeEq a a = true := by
  unfold probeEq
  simp only [arrEq_refl, dictEq_refl parEq parEq_refl a.nuisance h, decide_true, Bool.and_true, Bool.true_and]
  cases h : a.bias <;> simp

variable [Zero K]

theorem dictEq_refl' {κ υ : Type} [DecidableEq κ] [BEq κ] [LawfulBEq κ] (eq : υ → υ → Bool) (a : List (κ × υ))
    (hr : ∀ q ∈ a, eq q.2 q.2 = true) (ha : (a.map (·.1)).Nodup) : dictEq eq a a = true := by
  rw [dictEq_spec eq a a ha ha]
  refine ⟨fun _ => Iff.rfl, fun k v w hv hw => ?_⟩
  rw [hv] at hw
  cases hw
  exact hr _ (PyDict.mem_of_lookup hv)

/-- A configuration compares equal to itself exactly if its sky fraction is not zero. -/
theorem forecastEq_self (a : ForecastCfg K S) (h : a.wf) : forecastEq a a = true ↔ a.fsky ≠ 0 := by
  obtain ⟨h1, h2, h3⟩ := h
  unfold forecastEq
  simp [dictEq_refl parEq parEq_refl a.pars h1,
    dictEq_refl' probeEq a.probes (fun q hq => probeEq_refl q.2 (h3 q hq)) h2]

/-- Witness against the full claim: whatever the configuration, changing the observed fraction of the sky and the
displacements of the derivatives is not noticed. -/
theorem sky_ignored (a : ForecastCfg K S) (h : a.wf) (ha : a.fsky ≠ 0) (f : K) (hf : f ≠ 0) (d : Option (List K)) :
    forecastEq a { a with fsky := f, disps := d } = true := by
  obtain ⟨h1, h2, h3⟩ := h
  unfold forecastEq
  simp [dictEq_refl parEq parEq_refl a.pars h1, ha, hf,
    dictEq_refl' probeEq a.probes (fun q hq => probeEq_refl q.2 (h3 q hq)) h2]

/-- What equality of probe configurations does tell. -/
theorem probeEq_tells (a b : ProbeCfg K S) (ha : a.wf) (hb : b.wf) (h : probeEq a b = true) :
    a.name = b.name ∧ (a.centers.length = b.centers.length → a.centers = b.centers) ∧
    (a.widths.length = b.widths.length → a.widths = b.widths) ∧ a.densityName = b.densityName ∧ a.marg = b.marg ∧
    a.settings = b.settings ∧ (∀ x y, a.bias = some x → b.bias = some y → x.2 = y.2) ∧
    (∀ k, k ∈ a.nuisance.map (·.1) ↔ k ∈ b.nuisance.map (·.1)) ∧
    ∀ k p q, a.nuisance.lookup k = some p → b.nuisance.lookup k = some q →
      p.name = q.name ∧ p.fiducial = q.fiducial ∧ p.kind = q.kind ∧ p.current = q.current := by
  unfold probeEq at h
  simp only [Bool.and_eq_true, decide_eq_true_eq] at h
  obtain ⟨⟨⟨⟨⟨⟨⟨h1, h2⟩, h3⟩, h4⟩, h5⟩, h6⟩, h7⟩, h8⟩ := h
  rw [dictEq_spec _ _ _ hb ha] at h6
  refine ⟨h1, fun e => (arrEq_iff _ _ e).mp h2, fun e => (arrEq_iff _ _ e).mp h3, h4, h5, h7, ?_, h6.1,
    fun k p q hp hq => (parEq_iff p q).mp (h6.2 k p q hp hq)⟩
  intro x y hx hy
  rw [hx, hy] at h8
  simpa using h8

theorem combosWR_diag {A : Type} [DecidableEq A] (l : List A) (a : A) : (a, a) ∈ combosWR l ↔ a ∈ l := by
  rw [combos_mem]
  constructor
  · rintro ⟨i, _, _, hi, _⟩
    exact List.mem_iff_getElem?.mpr ⟨i, hi⟩
  · intro h
    obtain ⟨i, hi⟩ := List.mem_iff_getElem?.mp h
    exact ⟨i, i, le_rfl, hi, hi⟩

/-- What equality of forecast configurations does tell: same parameters with the same values, same flatness, same
probes with equal configurations. Missing from the full claim: the fraction of the sky, the displacements, the contents
and directories of the input files, the methods of derivation, the free parameters. -/
theorem forecastEq_tells_partial (a b : ForecastCfg K S) (ha : a.wf) (hb : b.wf) (h : forecastEq a b = true) :
    a.flat = b.flat ∧
    (∀ k, k ∈ a.pars.map (·.1) ↔ k ∈ b.pars.map (·.1)) ∧
    (∀ k p q, a.pars.lookup k = some p → b.pars.lookup k = some q →
      p.name = q.name ∧ p.fiducial = q.fiducial ∧ p.kind = q.kind ∧ p.current = q.current) ∧
    (∀ k, k ∈ a.probes.map (·.1) ↔ k ∈ b.probes.map (·.1)) ∧
    ∀ k p q, a.probes.lookup k = some p → b.probes.lookup k = some q → probeEq p q = true := by
  unfold forecastEq at h
  simp only [Bool.and_eq_true, decide_eq_true_eq] at h
  obtain ⟨⟨⟨⟨⟨h1, h2⟩, h3⟩, _⟩, _⟩, _⟩ := h
  rw [dictEq_spec _ _ _ hb.1 ha.1] at h1
  rw [dictEq_spec _ _ _ hb.2.1 ha.2.1] at h3
  exact ⟨h2, h1.1, fun k p q hp hq => (parEq_iff p q).mp (h1.2 k p q hp hq), h3.1, h3.2⟩

end

/-! ### C40: the editor -/

/-- Options are accepted exactly if they are the five known ones with allowed values. -/
theorem checkOpts_iff (opts : Dict Str Val) :
    checkOpts opts = none ↔
      (∀ n, n ∈ opts.map (·.1) ↔ n ∈ [scenarioS, nSpBinsS, minusS, reducedS, onlyS]) ∧
      (∃ s ∈ ["optimistic".toList, "pessimistic".toList], opts.lookup scenarioS = some (.str s)) ∧
      (∃ n ∈ [4, 12, 24, 40], opts.lookup nSpBinsS = some (.int n)) ∧
      (∃ b, opts.lookup minusS = some (.bool b)) ∧ (∃ b, opts.lookup reducedS = some (.bool b)) ∧
      ∃ b, opts.lookup onlyS = some (.bool b) := by
  have hb : ∀ v : Option Val, isBool v = true ↔ ∃ b, v = some (.bool b) := by
    intro v
    rcases v with _ | (_ | _ | _ | _) <;> simp [isBool]
  rw [← hb, ← hb, ← hb]
  unfold checkOpts
  have e : acceptedNames = [scenarioS, nSpBinsS, minusS, reducedS, onlyS] := rfl
  rw [← e]
  constructor
  · intro h
    split at h
    · exact absurd h (by simp)
    rename_i h1
    split at h
    · exact absurd h (by simp)
    rename_i h2
    split at h
    · exact absurd h (by simp)
    rename_i h3
    split at h
    · exact absurd h (by simp)
    rename_i h4
    split at h
    · exact absurd h (by simp)
    rename_i h5
    split at h
    · exact absurd h (by simp)
    rename_i h6
    split at h
    · exact absurd h (by simp)
    rename_i h7
    rw [not_not] at h1 h2 h3 h4
    refine ⟨fun n => ⟨h2 n, h1 n⟩, ?_, ?_, by simpa using h5, by simpa using h6, by simpa using h7⟩
    · simpa using h3
    · simpa using h4
  · rintro ⟨h1, h3, h4, h5, h6, h7⟩
    rw [if_neg (not_not.mpr fun n hn => (h1 n).mpr hn), if_neg (not_not.mpr fun n hn => (h1 n).mp hn),
      if_neg (not_not.mpr (by simpa using h3)), if_neg (not_not.mpr (by simpa using h4)),
      if_neg (by simp [h5]), if_neg (by simp [h6]), if_neg (by simp [h7])]

/-- Rejected options give no editor; accepted ones change only the note of the options, in which earlier notes are
kept where no option has the same name. -/
theorem newEditor_spec (opts : Dict Str Val) (base : Cfg) (hn : (opts.map (·.1)).Nodup) :
    (∀ e, checkOpts opts = some e → newEditor opts base = .error e) ∧
    (checkOpts opts = none → ∃ c, newEditor opts base = .ok c ∧ c.probes = base.probes ∧
      ∀ k, c.synth.lookup k = (opts.lookup k).or (base.synth.lookup k)) := by
  unfold newEditor
  constructor
  · intro e h
    rw [h]
  · intro h
    rw [h]
    refine ⟨_, rfl, rfl, fun k => ?_⟩
    rw [PyDict.lookup_update, PyDict.lookup_reverse opts hn]

/-- The value stored for a probe under a key. -/
def entry (c : Cfg) (p k : Str) : Option Val := (c.probes.lookup p).bind (fun d => d.lookup k)

theorem setIn_spec (c : Cfg) (p k : Str) (v : Val) (h : p ∈ c.probes.map (·.1)) :
    ∃ c', setIn c p k v = (c', none) ∧ c'.probes.map (·.1) = c.probes.map (·.1) ∧ c'.synth = c.synth ∧
      ∀ p' k', entry c' p' k' = if p' = p ∧ k' = k then some v else entry c p' k' := by
  refine ⟨{ c with probes := PyDict.modify c.probes p (fun d => PyDict.set d k v) }, if_pos h,
    PyDict.keys_modify c.probes p (fun d => PyDict.set d k v), rfl, fun p' k' => ?_⟩
  unfold entry
  rw [PyDict.lookup_modify]
  by_cases hp : p' = p
  · subst hp
    rw [if_pos rfl]
    obtain ⟨d, hd⟩ := Option.isSome_iff_exists.mp ((PyDict.lookup_isSome_iff c.probes p').mpr h)
    rw [hd]
    simp only [Option.map_some, Option.bind_some, true_and]
    rw [PyDict.lookup_set]
  · rw [if_neg hp, if_neg (fun e => hp e.1)]

def pairsOf (l : List (Str × Str × Val)) : List ((Str × Str) × Val) := l.map (fun x => ((x.1, x.2.1), x.2.2))

theorem setAll_spec (l : List (Str × Str × Val)) : ∀ (c : Cfg), (∀ x ∈ l, x.1 ∈ c.probes.map (·.1)) →
    ∃ c', setAll c l = (c', none) ∧ c'.probes.map (·.1) = c.probes.map (·.1) ∧ c'.synth = c.synth ∧
      ∀ p k, entry c' p k = ((pairsOf l).reverse.lookup (p, k)).or (entry c p k) := by
  induction l with
  | nil => exact fun c _ => ⟨c, rfl, rfl, rfl, fun _ _ => rfl⟩
  | cons x l ih =>
    obtain ⟨p, k, v⟩ := x
    intro c h
    obtain ⟨c1, e1, hk1, hs1, hv1⟩ := setIn_spec c p k v (h _ List.mem_cons_self)
    obtain ⟨c2, e2, hk2, hs2, hv2⟩ := ih c1 (fun x hx => by rw [hk1]; exact h x (List.mem_cons_of_mem _ hx))
    refine ⟨c2, ?_, hk2.trans hk1, hs2.trans hs1, fun p' k' => ?_⟩
    · rw [setAll, e1]
      exact e2
    · have e : pairsOf ((p, k, v) :: l) = ((p, k), v) :: pairsOf l := rfl
      rw [hv2, hv1, e, List.reverse_cons, List.lookup_append]
      by_cases hpk : p' = p ∧ k' = k
      · obtain ⟨rfl, rfl⟩ := hpk
        cases (pairsOf l).reverse.lookup (p', k') <;> simp
      · have hne : (p', k') ≠ (p, k) := fun e => hpk (Prod.mk.inj e)
        have : List.lookup (p', k') [((p, k), v)] = none := by
          rw [List.lookup_cons, beq_false_of_ne hne]; rfl
        rw [if_neg hpk, this]
        cases (pairsOf l).reverse.lookup (p', k') <;> simp

theorem setAll_append (l m : List (Str × Str × Val)) (c : Cfg) (h : ∀ x ∈ l, x.1 ∈ c.probes.map (·.1)) :
    setAll c (l ++ m) = setAll (setAll c l).1 m := by
  induction l generalizing c with
  | nil => rfl
  | cons x l ih =>
    obtain ⟨p, k, v⟩ := x
    obtain ⟨c1, e1, hk1, _⟩ := setIn_spec c p k v (h _ List.mem_cons_self)
    rw [List.cons_append, setAll, e1, setAll, e1]
    exact ih c1 (fun x hx => by rw [hk1]; exact h x (List.mem_cons_of_mem _ hx))

/-- The configuration has the three probes that the editor works on. -/
def hasProbes (c : Cfg) : Prop :=
  "GCph".toList ∈ c.probes.map (·.1) ∧ "GCsp".toList ∈ c.probes.map (·.1) ∧ "WL".toList ∈ c.probes.map (·.1)

/-- All assignments of an update that is not refused. -/
def gcphPart (o : Opts) : List (Str × Str × Val) :=
  match gcphSets o with
  | .error _ => []
  | .ok l => l

theorem multipole_probes (o : Opts) (c : Cfg) (h : hasProbes c) :
    ∀ x ∈ multipoleSets o, x.1 ∈ c.probes.map (·.1) := by
  obtain ⟨h1, h2, h3⟩ := h
  intro x hx
  unfold multipoleSets at hx
  simp only [List.flatMap_cons, List.flatMap_nil, List.append_nil, List.cons_append, List.nil_append,
    List.mem_cons, List.not_mem_nil, or_false] at hx
  rcases hx with rfl | rfl | rfl | rfl | rfl | rfl | rfl | rfl | rfl <;> assumption

theorem gcph_probes (o : Opts) (c : Cfg) (h : hasProbes c) : ∀ x ∈ gcphPart o, x.1 ∈ c.probes.map (·.1) := by
  obtain ⟨h1, h2, h3⟩ := h
  intro x hx
  have : x.1 = "GCph".toList := by
    unfold gcphPart gcphSets at hx
    cases hm : o.minus <;> cases ho : o.only <;> rw [hm, ho] at hx <;>
      simp only [if_true, if_false, Bool.false_eq_true, List.mem_cons, List.not_mem_nil, or_false] at hx
    · rcases hx with rfl | rfl <;> rfl
    · rcases hx with rfl | rfl <;> rfl
    · rw [hx]
  rw [this]
  exact h1

theorem gcsp_probes (o : Opts) (c : Cfg) (h : hasProbes c) : ∀ x ∈ gcspSets o, x.1 ∈ c.probes.map (·.1) := by
  obtain ⟨h1, h2, h3⟩ := h
  intro x hx
  unfold gcspSets at hx
  simp only [List.mem_cons, List.not_mem_nil, or_false] at hx
  rcases hx with rfl | rfl <;> exact h2

theorem gcphSets_ok (o : Opts) (h : ¬ (o.minus = true ∧ o.only = true)) : gcphSets o = .ok (gcphPart o) := by
  unfold gcphPart gcphSets
  cases hm : o.minus <;> cases ho : o.only <;> simp_all

theorem updateData_eq (o : Opts) (c : Cfg) (hc : hasProbes c) (h : ¬ (o.minus = true ∧ o.only = true)) :
    updateData o c = setAll c (multipoleSets o ++ gcphPart o ++ gcspSets o) := by
  obtain ⟨c1, e1, k1, _⟩ := setAll_spec (multipoleSets o) c (multipole_probes o c hc)
  have hc1 : hasProbes c1 := by unfold hasProbes; rw [k1]; exact hc
  obtain ⟨c2, e2, k2, _⟩ := setAll_spec (gcphPart o) c1 (gcph_probes o c1 hc1)
  rw [List.append_assoc, setAll_append _ _ _ (multipole_probes o c hc), e1,
    setAll_append _ _ _ (gcph_probes o c1 hc1), e2]
  unfold updateData
  rw [e1]
  simp only [gcphSets_ok o h, e2]

theorem updateData_refused (o : Opts) (c : Cfg) (hc : hasProbes c) (h1 : o.minus = true) (h2 : o.only = true) :
    updateData o c = ((setAll c (multipoleSets o)).1, some .notImplemented) := by
  obtain ⟨c1, e1, k1, _⟩ := setAll_spec (multipoleSets o) c (multipole_probes o c hc)
  unfold updateData
  rw [e1]
  simp [gcphSets, h1, h2]

theorem setAll_missing (l : List (Str × Str × Val)) (c : Cfg) (h : ∃ x ∈ l, x.1 ∉ c.probes.map (·.1)) :
    (setAll c l).2 = some .keyError := by
  induction l generalizing c with
  | nil => obtain ⟨x, hx, _⟩ := h; cases hx
  | cons x l ih =>
    obtain ⟨p, k, v⟩ := x
    by_cases hp : p ∈ c.probes.map (·.1)
    · obtain ⟨c1, e1, hk1, _⟩ := setIn_spec c p k v hp
      rw [setAll, e1]
      refine ih c1 ?_
      obtain ⟨x, hx, hn⟩ := h
      rcases List.mem_cons.mp hx with rfl | hx
      · exact absurd hp hn
      · exact ⟨x, hx, by rw [hk1]; exact hn⟩
    · have e : setIn c p k v = (c, some .keyError) := if_neg hp
      rw [setAll, e]

/-- C40. A configuration that lacks one of the three probes is refused, whatever the options. -/
theorem updateData_missing (o : Opts) (c : Cfg) (h : ¬ hasProbes c) : (updateData o c).2 = some .keyError := by
  have hm : (setAll c (multipoleSets o)).2 = some .keyError := by
    refine setAll_missing _ _ ?_
    by_contra hn
    simp only [not_exists, not_and, not_not] at hn
    refine h ⟨?_, ?_, ?_⟩
    · exact hn ("GCph".toList, "l_min".toList, .int 10) (List.mem_append_left _ List.mem_cons_self)
    · exact hn ("GCsp".toList, "l_min".toList, .int 10)
        (List.mem_append_left _ (List.mem_append_right _ (List.mem_append_left _ List.mem_cons_self)))
    · exact hn _ (List.mem_append_right _ List.mem_cons_self)
  unfold updateData
  rcases hs : setAll c (multipoleSets o) with ⟨c1, e⟩
  rw [hs] at hm
  cases hm
  rfl

/-- Everything an update can write. -/
def written : List (Str × Str) :=
  [("GCph".toList, "l_min".toList), ("GCph".toList, "l_max".toList), ("GCph".toList, "log_l_number".toList),
    ("GCph".toList, "ell_log_selection".toList), ("GCsp".toList, "l_min".toList), ("GCsp".toList, "l_max".toList),
    ("GCsp".toList, "log_l_number".toList), ("GCsp".toList, "ell_log_selection".toList),
    ("WL".toList, "ell_external_filename".toList), ("GCph".toList, "density_file".toList),
    ("GCph".toList, "bias_file".toList), ("GCsp".toList, "density_file".toList), ("GCsp".toList, "bias_file".toList)]

def keysFor (m n : Bool) : List (Str × Str) :=
  [("GCph".toList, "l_min".toList), ("GCph".toList, "l_max".toList), ("GCph".toList, "log_l_number".toList),
    ("GCph".toList, "ell_log_selection".toList), ("GCsp".toList, "l_min".toList), ("GCsp".toList, "l_max".toList),
    ("GCsp".toList, "log_l_number".toList), ("GCsp".toList, "ell_log_selection".toList),
    ("WL".toList, "ell_external_filename".toList)] ++
  (if m then if n then [] else [("GCph".toList, "density_file".toList)]
    else [("GCph".toList, "density_file".toList), ("GCph".toList, "bias_file".toList)]) ++
  [("GCsp".toList, "density_file".toList), ("GCsp".toList, "bias_file".toList)]

theorem keys_eq (o : Opts) :
    (pairsOf (multipoleSets o ++ gcphPart o ++ gcspSets o)).map (·.1) = keysFor o.minus o.only := by
  unfold gcphPart gcphSets multipoleSets gcspSets pairsOf
  cases o.minus <;> cases o.only <;> rfl

theorem keys_sub (o : Opts) (x : Str × Str)
    (h : x ∈ (pairsOf (multipoleSets o ++ gcphPart o ++ gcspSets o)).map (·.1)) : x ∈ written := by
  rw [keys_eq] at h
  have : ∀ m n : Bool, ∀ x ∈ keysFor m n, x ∈ written := by decide +kernel
  exact this _ _ x h

theorem written_sub (o : Opts) (x : Str × Str) (hx : x ∈ written) (h : ¬ (o.minus = true ∧ o.only = true))
    (hb : o.minus = false ∨ x ≠ ("GCph".toList, "bias_file".toList)) :
    x ∈ (pairsOf (multipoleSets o ++ gcphPart o ++ gcspSets o)).map (·.1) := by
  rw [keys_eq]
  have : ∀ m n : Bool, ∀ x ∈ written, ¬ (m = true ∧ n = true) →
      (m = false ∨ x ≠ ("GCph".toList, "bias_file".toList)) → x ∈ keysFor m n := by decide +kernel
  exact this _ _ x hx h hb

theorem lookup_reverse_none {κ υ : Type} [DecidableEq κ] [BEq κ] [LawfulBEq κ] (l : List (κ × υ)) (k : κ) :
    l.reverse.lookup k = none ↔ k ∉ l.map (·.1) := by
  rw [PyDict.lookup_none_iff, List.map_reverse, List.mem_reverse]

/-- The configuration after several updates with different options, whether or not some were refused. -/
def history (c : Cfg) (l : List Opts) : Cfg := l.foldl (fun c o => (updateData o c).1) c

theorem update_keeps (o : Opts) (c : Cfg) (hc : hasProbes c) :
    hasProbes (updateData o c).1 ∧ (updateData o c).1.synth = c.synth ∧
      ∀ p k, (p, k) ∉ written → entry (updateData o c).1 p k = entry c p k := by
  by_cases h : o.minus = true ∧ o.only = true
  · rw [updateData_refused o c hc h.1 h.2]
    obtain ⟨c1, e1, k1, s1, v1⟩ := setAll_spec (multipoleSets o) c (multipole_probes o c hc)
    rw [e1]
    refine ⟨by unfold hasProbes; rw [k1]; exact hc, s1, fun p k hpk => ?_⟩
    rw [v1, (lookup_reverse_none _ _).mpr, Option.none_or]
    intro hm
    apply hpk
    apply keys_sub o
    unfold pairsOf at hm ⊢
    rw [List.append_assoc, List.map_append, List.map_append]
    exact List.mem_append_left _ hm
  · rw [updateData_eq o c hc h]
    obtain ⟨c1, e1, k1, s1, v1⟩ := setAll_spec (multipoleSets o ++ gcphPart o ++ gcspSets o) c (by
      intro x hx
      rcases List.mem_append.mp hx with hx | hx
      · rcases List.mem_append.mp hx with hx | hx
        · exact multipole_probes o c hc x hx
        · exact gcph_probes o c hc x hx
      · exact gcsp_probes o c hc x hx)
    rw [e1]
    refine ⟨by unfold hasProbes; rw [k1]; exact hc, s1, fun p k hpk => ?_⟩
    rw [v1, (lookup_reverse_none _ _).mpr, Option.none_or]
    exact fun hm => hpk (keys_sub o _ hm)

theorem history_keeps (l : List Opts) (c : Cfg) (hc : hasProbes c) :
    hasProbes (history c l) ∧ ∀ p k, (p, k) ∉ written → entry (history c l) p k = entry c p k := by
  induction l generalizing c with
  | nil => exact ⟨hc, fun _ _ _ => rfl⟩
  | cons o l ih =>
    obtain ⟨h1, _, h2⟩ := update_keeps o c hc
    obtain ⟨h3, h4⟩ := ih (updateData o c).1 h1
    exact ⟨h3, fun p k hpk => (h4 p k hpk).trans (h2 p k hpk)⟩

/-- After an update that is not refused, every entry is the same whatever updates came before, except the bias file
of the photometric galaxies when the spectroscopic ones are subtracted: that entry is not set. -/
theorem history_irrelevant_partial (c : Cfg) (hc : hasProbes c) (h₁ h₂ : List Opts) (o : Opts)
    (ho : ¬ (o.minus = true ∧ o.only = true)) (p k : Str)
    (hb : o.minus = false ∨ (p, k) ≠ ("GCph".toList, "bias_file".toList)) :
    (updateData o (history c h₁)).2 = none ∧ (updateData o (history c h₂)).2 = none ∧
    entry (updateData o (history c h₁)).1 p k = entry (updateData o (history c h₂)).1 p k := by
  have key : ∀ h, (updateData o (history c h)).2 = none ∧ entry (updateData o (history c h)).1 p k =
      ((pairsOf (multipoleSets o ++ gcphPart o ++ gcspSets o)).reverse.lookup (p, k)).or (entry (history c h) p k) := by
    intro h
    obtain ⟨hh, _⟩ := history_keeps h c hc
    rw [updateData_eq o _ hh ho]
    obtain ⟨c1, e1, _, _, v1⟩ := setAll_spec (multipoleSets o ++ gcphPart o ++ gcspSets o) (history c h) (by
      intro x hx
      rcases List.mem_append.mp hx with hx | hx
      · rcases List.mem_append.mp hx with hx | hx
        · exact multipole_probes o _ hh x hx
        · exact gcph_probes o _ hh x hx
      · exact gcsp_probes o _ hh x hx)
    rw [e1]
    exact ⟨rfl, v1 p k⟩
  refine ⟨(key h₁).1, (key h₂).1, ?_⟩
  rw [(key h₁).2, (key h₂).2]
  by_cases hw : (p, k) ∈ written
  · have hm := written_sub o (p, k) hw ho hb
    obtain ⟨v, hv⟩ := Option.ne_none_iff_exists'.mp (mt (lookup_reverse_none _ _).mp (not_not.mpr hm))
    rw [hv]
    rfl
  · rw [(history_keeps h₁ c hc).2 p k hw, (history_keeps h₂ c hc).2 p k hw]

/-- What an update that is not refused writes. -/
theorem update_values (o : Opts) (c : Cfg) (hc : hasProbes c) (ho : ¬ (o.minus = true ∧ o.only = true)) :
    (∀ p ∈ ["GCph".toList, "GCsp".toList],
      entry (updateData o c).1 p "l_min".toList = some (.int 10) ∧
      entry (updateData o c).1 p "l_max".toList = some (.int (if o.pessimistic then 750 else 3000)) ∧
      entry (updateData o c).1 p "log_l_number".toList = some (.int 100) ∧
      entry (updateData o c).1 p "ell_log_selection".toList = some (.bool true)) ∧
    entry (updateData o c).1 "GCsp".toList "density_file".toList =
      some (.str ("gcsp_dndz_".toList ++ decStr o.bins ++ "_bins.h5".toList)) ∧
    entry (updateData o c).1 "GCsp".toList "bias_file".toList =
      some (.str ("gcsp_bias_piecewise_".toList ++ decStr o.bins ++ "_bins.h5".toList)) ∧
    entry (updateData o c).1 "GCph".toList "density_file".toList =
      some (.str (if o.minus then "gcph_dndz_redbook_gcsp_subtracted.h5".toList
        else if o.only then "gcph_dndz_redbook_only_bins_in_spectro_range.h5".toList
        else "gcph_dndz_redbook.h5".toList)) := by
  rw [updateData_eq o c hc ho]
  obtain ⟨c1, e1, _, _, v1⟩ := setAll_spec (multipoleSets o ++ gcphPart o ++ gcspSets o) c (by
    intro x hx
    rcases List.mem_append.mp hx with hx | hx
    · rcases List.mem_append.mp hx with hx | hx
      · exact multipole_probes o _ hc x hx
      · exact gcph_probes o _ hc x hx
    · exact gcsp_probes o _ hc x hx)
  rw [e1]
  simp only [v1]
  unfold gcphPart gcphSets multipoleSets gcspSets pairsOf
  generalize decStr o.bins = s
  cases hm : o.minus <;> cases hn : o.only <;> cases o.pessimistic
  case true.true.false => exact absurd ⟨hm, hn⟩ ho
  case true.true.true => exact absurd ⟨hm, hn⟩ ho
  all_goals
    refine ⟨?_, rfl, rfl, rfl⟩
    intro p hp
    simp only [List.mem_cons, List.not_mem_nil, or_false] at hp
    rcases hp with rfl | rfl <;> exact ⟨rfl, rfl, rfl, rfl⟩

/-- Two options that exclude each other are accepted by the constructor and refused only after the multipoles have
been changed. -/
theorem refused_late (o : Opts) (c : Cfg) (hc : hasProbes c) (h1 : o.minus = true) (h2 : o.only = true) :
    (updateData o c).2 = some .notImplemented ∧
    entry (updateData o c).1 "GCph".toList "l_max".toList = some (.int (if o.pessimistic then 750 else 3000)) ∧
    (o.bins ∈ [4, 12, 24, 40] → checkOpts (optsDict o) = none) := by
  rw [updateData_refused o c hc h1 h2]
  obtain ⟨c1, e1, _, _, v1⟩ := setAll_spec (multipoleSets o) c (multipole_probes o c hc)
  rw [e1]
  refine ⟨rfl, ?_, ?_⟩
  · simp only [v1]
    unfold multipoleSets pairsOf
    cases o.pessimistic <;> rfl
  · intro hb
    have : ∀ b ∈ [4, 12, 24, 40], ∀ p m r n : Bool, checkOpts (optsDict ⟨p, b, m, r, n⟩) = none := by decide +kernel
    exact this o.bins hb o.pessimistic o.minus o.reduced o.only

/-- A small configuration. -/
def cfg0 : Cfg :=
  { synth := []
    probes := [("WL".toList, []), ("GCph".toList, [("bias_file".toList, .str "gcph_bias_piecewise.h5".toList)]),
      ("GCsp".toList, [])] }

example : hasProbes cfg0 := by unfold hasProbes; decide +kernel

/-- Witness: the bias file of the photometric galaxies after subtracting the spectroscopic ones depends on the update
made before. -/
theorem history_matters :
    entry (updateData ⟨false, 4, true, false, false⟩ (history cfg0 [])).1 "GCph".toList "bias_file".toList ≠
    entry (updateData ⟨false, 4, true, false, false⟩ (history cfg0 [⟨false, 4, false, false, true⟩])).1
      "GCph".toList "bias_file".toList := by
  have h0 : hasProbes cfg0 := by unfold hasProbes; decide +kernel
  have hc : ∀ x : Opts, ∀ c : Cfg, hasProbes c → x.minus = true → x.only = false →
      entry (updateData x c).1 "GCph".toList "bias_file".toList = entry c "GCph".toList "bias_file".toList := by
    intro x c hc h1 h2
    rw [updateData_eq x c hc (by simp [h2])]
    obtain ⟨c1, e1, _, _, v1⟩ := setAll_spec (multipoleSets x ++ gcphPart x ++ gcspSets x) c (by
      intro y hx
      rcases List.mem_append.mp hx with hx | hx
      · rcases List.mem_append.mp hx with hx | hx
        · exact multipole_probes x _ hc y hx
        · exact gcph_probes x _ hc y hx
      · exact gcsp_probes x _ hc y hx)
    rw [e1, v1, (lookup_reverse_none _ _).mpr, Option.none_or]
    unfold gcphPart gcphSets multipoleSets gcspSets pairsOf
    rw [h1, h2]
    simp only [if_true, if_false, Bool.false_eq_true, List.flatMap_cons, List.flatMap_nil, List.append_nil,
      List.cons_append, List.nil_append, List.map_cons, List.map_nil]
    decide +kernel
  have hh := (history_keeps [⟨false, 4, false, false, true⟩] cfg0 h0).1
  rw [hc _ _ hh rfl rfl, show history cfg0 [] = cfg0 from rfl, hc _ _ h0 rfl rfl]
  have e2 : entry (history cfg0 [⟨false, 4, false, false, true⟩]) "GCph".toList "bias_file".toList =
      some (.str "gcph_bias_piecewise_only_bins_in_spectro_range.h5".toList) := by
    unfold history
    rw [List.foldl_cons, List.foldl_nil, updateData_eq _ _ h0 (by simp)]
    obtain ⟨c1, e1, _, _, v1⟩ := setAll_spec (multipoleSets ⟨false, 4, false, false, true⟩ ++
      gcphPart ⟨false, 4, false, false, true⟩ ++ gcspSets ⟨false, 4, false, false, true⟩) cfg0 (by
      intro y hx
      rcases List.mem_append.mp hx with hx | hx
      · rcases List.mem_append.mp hx with hx | hx
        · exact multipole_probes _ _ h0 y hx
        · exact gcph_probes _ _ h0 y hx
      · exact gcsp_probes _ _ h0 y hx)
    rw [e1, v1]
    unfold gcphPart gcphSets multipoleSets gcspSets pairsOf
    generalize decStr _ = s
    rfl
  rw [e2]
  decide +kernel

/-! ### C66: names of configurations -/

theorem digits_split {a b : Nat} {x y : Str} (hx : ∀ c ∈ x.head?, isDigit c = false)
    (hy : ∀ c ∈ y.head?, isDigit c = false) (h : decStr a ++ x = decStr b ++ y) : a = b ∧ x = y := by
  have h1 := Batch.span_all isDigit (decStr a) (decStr_digits a) x hx
  have h2 := Batch.span_all isDigit (decStr b) (decStr_digits b) y hy
  rw [h, h2] at h1
  obtain ⟨e1, e2⟩ := Prod.mk.inj h1
  exact ⟨decStr_inj e1.symm, e2.symm⟩

/-- The part of the file name after the number of bins. -/
def nameTail (r m n : Bool) : Str :=
  "_sp_bins".toList ++ (((if r then "_".toList ++ reducedS else []) ++ ((if m then "_".toList ++ minusS else []) ++
    (if n then "_".toList ++ onlyS else []))) ++ ".json".toList)

theorem fileName_eq (o : Opts) : fileName o (optsDict o) =
    (if o.pessimistic then "pessimistic".toList else "optimistic".toList) ++ ("_".toList ++ (decStr o.bins ++
      nameTail o.reduced o.minus o.only)) := by
  unfold fileName nameTail
  rw [List.append_assoc, List.append_assoc, List.append_assoc, List.append_assoc]
  congr 5
  unfold optsDict
  cases o.reduced <;> cases o.minus <;> cases o.only <;> rfl

theorem nameTail_inj : ∀ r m n r' m' n' : Bool, nameTail r m n = nameTail r' m' n' → r = r' ∧ m = m' ∧ n = n' := by
  decide +kernel

theorem nameTail_head (r m n : Bool) : ∀ c ∈ (nameTail r m n).head?, isDigit c = false := by
  revert r m n
  decide +kernel

theorem opts_ext {o o' : Opts} (h1 : o.pessimistic = o'.pessimistic) (h2 : o.bins = o'.bins) (h3 : o.minus = o'.minus)
    (h4 : o.reduced = o'.reduced) (h5 : o.only = o'.only) : o = o' := by
  cases o
  cases o'
  cases h1
  cases h2
  cases h3
  cases h4
  cases h5
  rfl

/-- Different options are written to different files. -/
theorem fileName_inj (o o' : Opts) (h : fileName o (optsDict o) = fileName o' (optsDict o')) : o = o' := by
  rw [fileName_eq, fileName_eq] at h
  have hp : o.pessimistic = o'.pessimistic := by
    have h0 := congrArg List.head? h
    rw [List.head?_append (l := ite _ _ _), List.head?_append (l := ite _ _ _)] at h0
    revert h0
    cases o.pessimistic <;> cases o'.pessimistic <;> intro h0 <;>
      first
      | rfl
      | (exfalso
         have e1 : "pessimistic".toList.head? = some 'p' := by decide
         have e2 : "optimistic".toList.head? = some 'o' := by decide
         simp only [if_true, if_false, Bool.false_eq_true, e1, e2, Option.some_or] at h0
         revert h0
         decide)
  rw [hp] at h
  have h := List.append_cancel_left (List.append_cancel_left h)
  obtain ⟨hb, ht⟩ := digits_split (nameTail_head _ _ _) (nameTail_head _ _ _) h
  obtain ⟨h1, h2, h3⟩ := nameTail_inj _ _ _ _ _ _ ht
  exact opts_ext hp hb h2 h1 h3

theorem joinStr_cons (sep p : Str) (l : List Str) : joinStr sep (p :: l) = p ++ l.flatMap (fun q => sep ++ q) := by
  induction l generalizing p with
  | nil => simp [joinStr]
  | cons q l ih => rw [joinStr, ih, List.flatMap_cons, List.append_assoc, List.append_assoc]

/-- The part of the identifier after the number of bins. -/
def idTail (r m n : Bool) : Str :=
  (if r then "__".toList ++ reducedS else []) ++ ((if m then "__".toList ++ minusS else []) ++
    (if n then "__".toList ++ onlyS else []))

/-- The part of the identifier before the number of bins. -/
def idHead (p : Bool) : Str :=
  scenarioS ++ "_".toList ++ (if p then "pessimistic".toList else "optimistic".toList) ++ ("__".toList ++
    (nSpBinsS ++ "_".toList))

theorem configID_eq (o : Opts) : configID (optsDict o) =
    some (idHead o.pessimistic ++ (decStr o.bins ++ idTail o.reduced o.minus o.only)) := by
  have e : intStr (o.bins : Int) = decStr o.bins := by
    unfold intStr
    rw [if_neg (by omega)]
    rfl
  have ef : (optsDict o).filterMap idPart =
      (scenarioS ++ "_".toList ++ (if o.pessimistic then "pessimistic".toList else "optimistic".toList)) ::
      (nSpBinsS ++ "_".toList ++ decStr o.bins) ::
      ((if o.reduced then [reducedS] else []) ++ ((if o.minus then [minusS] else []) ++
        (if o.only then [onlyS] else []))) := by
    rw [← e]
    unfold optsDict
    cases o.reduced <;> cases o.minus <;> cases o.only <;> rfl
  have et : ((if o.reduced then [reducedS] else []) ++ ((if o.minus then [minusS] else []) ++
        (if o.only then [onlyS] else []))).flatMap (fun q => "__".toList ++ q) = idTail o.reduced o.minus o.only := by
    cases o.reduced <;> cases o.minus <;> cases o.only <;> rfl
  unfold configID
  rw [ef, if_neg (List.cons_ne_nil _ _), joinStr_cons, List.flatMap_cons, et]
  unfold idHead
  simp only [List.append_assoc]

theorem idTail_inj : ∀ r m n r' m' n' : Bool, idTail r m n = idTail r' m' n' → r = r' ∧ m = m' ∧ n = n' := by
  decide +kernel

theorem idTail_head (r m n : Bool) : ∀ c ∈ (idTail r m n).head?, isDigit c = false := by
  revert r m n
  decide +kernel

/-- Different options have different identifiers. -/
theorem configID_inj (o o' : Opts) (h : configID (optsDict o) = configID (optsDict o')) : o = o' := by
  rw [configID_eq, configID_eq] at h
  have h := Option.some.inj h
  have hp : o.pessimistic = o'.pessimistic := by
    have h0 := congrArg (fun l => l[9]?) h
    have e1 : ∀ p : Bool, 9 < (idHead p).length := by decide +kernel
    have e2 : ∀ p q : Bool, (idHead p)[9]? = (idHead q)[9]? → p = q := by decide +kernel
    rw [List.getElem?_append_left (e1 _), List.getElem?_append_left (e1 _)] at h0
    exact e2 _ _ h0
  rw [hp] at h
  have h := List.append_cancel_left h
  obtain ⟨hb, ht⟩ := digits_split (idTail_head _ _ _) (idTail_head _ _ _) h
  obtain ⟨h1, h2, h3⟩ := idTail_inj _ _ _ _ _ _ ht
  exact opts_ext hp hb h2 h1 h3

/-! ### C67: the input file of a probe -/

/-- The first of the three candidate places that holds the file is used. -/
theorem initFile_found_partial (a b : Str) (ex : Str → Bool) (f : Str) (p : Str)
    (h : p ∈ [a ++ "/".toList ++ f, b ++ "/".toList ++ f, f] ∧ ex p = true) :
    ex (probeInitFile a b ex f) = true ∧
    (ex (a ++ "/".toList ++ f) = true → probeInitFile a b ex f = a ++ "/".toList ++ f) ∧
    (ex (a ++ "/".toList ++ f) = false → ex (b ++ "/".toList ++ f) = true →
      probeInitFile a b ex f = b ++ "/".toList ++ f) := by
  obtain ⟨h1, h2⟩ := h
  unfold probeInitFile
  simp only [List.mem_cons, List.not_mem_nil, or_false] at h1
  generalize a ++ "/".toList ++ f = x at *
  generalize b ++ "/".toList ++ f = y at *
  simp only [List.find?_cons, List.find?_nil]
  cases hx : ex x
  · cases hy : ex y
    · cases hf : ex f
      · rcases h1 with rfl | rfl | rfl <;> simp_all
      · simp [hf]
    · simp [hy]
  · simp [hx]

/-- A missing file is not reported: the path in the last directory is returned. -/
theorem initFile_missing (a b : Str) (ex : Str → Bool) (f : Str)
    (h : ∀ p ∈ [a ++ "/".toList ++ f, b ++ "/".toList ++ f, f], ex p = false) :
    probeInitFile a b ex f = f ∧ ex (probeInitFile a b ex f) = false := by
  unfold probeInitFile
  simp only [List.mem_cons, List.not_mem_nil, or_false, forall_eq_or_imp, forall_eq] at h
  obtain ⟨h1, h2, h3⟩ := h
  simp only [List.find?_cons, List.find?_nil, h1, h2, h3, Option.getD_none, and_self]

end Seyfert.Config
