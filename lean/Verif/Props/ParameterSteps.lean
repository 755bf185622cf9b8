import Verif.Props.Parameter
import Mathlib.Algebra.Order.Group.Abs
import Mathlib.Algebra.Order.Group.Unbundled.Abs

/-!
C22: finite-difference steps.  C23, C63: parameter files.
-/

set_option linter.unusedSectionVars false

namespace Seyfert.Param

variable {K : Type} [Field K] [LinearOrder K] [IsStrictOrderedRing K]

/-- The displacements in increasing order. -/
def sorted (l : List K) : List K := l.insertionSort (· ≤ ·)

theorem sorted_perm (l : List K) : (sorted l).Perm l := List.perm_insertionSort _ l

theorem sorted_pairwise (l : List K) : (sorted l).Pairwise (· ≤ ·) := List.pairwise_insertionSort _ l

theorem eq_sorted {l s : List K} (hp : s.Perm l) (hs : s.Pairwise (· ≤ ·)) : sorted l = s :=
  ((sorted_perm l).trans hp.symm).eq_of_pairwise (fun _ _ _ _ h1 h2 => le_antisymm h1 h2)
    (sorted_pairwise l) hs

theorem sorted_congr {l l' : List K} (h : l.Perm l') : sorted l = sorted l' :=
  eq_sorted ((sorted_perm l').trans h.symm) (sorted_pairwise l')

/-- All displacements in increasing order. -/
def allDisps (base : List K) : List K := ((sorted base).reverse.map (fun x => -x)) ++ sorted base

theorem disps_eq {base : List K} (h : ∀ x ∈ base, 0 < x) :
    sorted (base.map (fun x => -x) ++ base) = allDisps base := by
  apply eq_sorted
  · exact (((List.reverse_perm _).trans (sorted_perm base)).map _).append (sorted_perm base)
  · unfold allDisps
    rw [List.pairwise_append]
    refine ⟨?_, sorted_pairwise _, ?_⟩
    · rw [List.pairwise_map, List.pairwise_reverse]
      exact (sorted_pairwise base).imp (fun h => neg_le_neg h)
    · intro a ha b hb
      obtain ⟨x, hx, rfl⟩ := List.mem_map.mp ha
      have hx' := h x ((sorted_perm base).mem_iff.mp (List.mem_reverse.mp hx))
      have hb' := h b ((sorted_perm base).mem_iff.mp hb)
      linarith

theorem length_sorted (l : List K) : (sorted l).length = l.length := (sorted_perm l).length_eq

theorem length_allDisps (base : List K) : (allDisps base).length = 2 * base.length := by
  simp [allDisps, length_sorted]; omega

theorem allDisps_pos (base : List K) {k : Nat} (hk : k < base.length) :
    (allDisps base)[base.length + k]? = (sorted base)[k]? := by
  unfold allDisps
  rw [List.getElem?_append_right (by simp [length_sorted])]
  simp [length_sorted]

theorem allDisps_neg (base : List K) {k : Nat} (hk : k < base.length) :
    (allDisps base)[base.length - 1 - k]? = (sorted base)[k]?.map (fun x => -x) := by
  unfold allDisps
  rw [List.getElem?_append_left (by simp [length_sorted]; omega), List.getElem?_map,
    List.getElem?_reverse (by rw [length_sorted]; omega), length_sorted]
  congr 2
  omega

theorem stepNumbers_length (n : Nat) : (stepNumbers n).length = 2 * n := by
  simp [stepNumbers]; omega

theorem stepNumbers_pos (n : Nat) {k : Nat} (hk : k < n) : (stepNumbers n)[n + k]? = some ((k : Int) + 1) := by
  unfold stepNumbers
  rw [List.getElem?_append_right (by simp)]
  simp [hk]

theorem stepNumbers_neg (n : Nat) {k : Nat} (hk : k < n) :
    (stepNumbers n)[n - 1 - k]? = some (-((k : Int) + 1)) := by
  unfold stepNumbers
  rw [List.getElem?_append_left (by simp; omega), List.getElem?_map, List.getElem?_range (by omega)]
  simp only [Option.map_some, Option.some.injEq]
  omega

theorem stepNumbers_sorted (n : Nat) : (stepNumbers n).Pairwise (· < ·) := by
  unfold stepNumbers
  rw [List.pairwise_append]
  refine ⟨?_, ?_, ?_⟩
  · rw [List.pairwise_map]
    exact List.pairwise_lt_range.imp (fun h => by omega)
  · rw [List.pairwise_map]
    exact List.pairwise_lt_range.imp (fun h => by omega)
  · intro a ha b hb
    obtain ⟨i, hi, rfl⟩ := List.mem_map.mp ha
    obtain ⟨j, _, rfl⟩ := List.mem_map.mp hb
    have := List.mem_range.mp hi
    omega

theorem mem_stepNumbers (n : Nat) (s : Int) : s ∈ stepNumbers n ↔ s ≠ 0 ∧ s.natAbs ≤ n := by
  unfold stepNumbers
  simp only [List.mem_append, List.mem_map, List.mem_range]
  constructor
  · rintro (⟨i, hi, rfl⟩ | ⟨i, hi, rfl⟩) <;> omega
  · rintro ⟨h0, hn⟩
    rcases lt_or_gt_of_ne h0 with h | h
    · left; exact ⟨(s + n).toNat, by omega, by omega⟩
    · right; exact ⟨(s - 1).toNat, by omega, by omega⟩

theorem zip_keys {A B : Type} (a : List A) (b : List B) (h : a.length = b.length) :
    (a.zip b).map (·.1) = a := by
  rw [List.map_fst_zip (by omega)]

theorem zip_lookup {B : Type} (a : List Int) (b : List B) (ha : a.Nodup) (h : a.length = b.length)
    {i : Nat} {x : Int} {y : B} (hx : a[i]? = some x) (hy : b[i]? = some y) :
    (a.zip b).lookup x = some y := by
  refine PyDict.lookup_of_mem (a.zip b) (by rw [zip_keys a b h]; exact ha) (p := (x, y)) ?_
  apply List.mem_of_getElem? (i := i)
  rw [List.getElem?_zip_eq_some]
  exact ⟨hx, hy⟩

/-- What is stored after loading displacements. -/
theorem loaded (c : Coll K) {base : List K} (h : ∀ x ∈ base, 0 < x) :
    (loadStem c base).disps = some (allDisps base) ∧
    (loadStem c base).steps = some (stepNumbers base.length) ∧
    (loadStem c base).stemDict = some ((stepNumbers base.length).zip (allDisps base)) ∧
    (loadStem c base).pars = c.pars ∧ (loadStem c base).flat = c.flat := by
  unfold loadStem
  rw [show (base.map (fun x => -x) ++ base).insertionSort (· ≤ ·) = allDisps base from disps_eq h]
  exact ⟨rfl, rfl, rfl, rfl, rfl⟩

/-- C22. Loading `n` positive displacements: there are `2 n` displacements in increasing order (strictly
if no displacement is repeated), symmetric about zero; the steps are numbered `-n..-1, 1..n`; step `k` is
the `k`-th smallest displacement and step `-k` its negative; there is no other step. -/
theorem stem_steps (c : Coll K) {base : List K} (h : ∀ x ∈ base, 0 < x) :
    ∃ disps dict, (loadStem c base).disps = some disps ∧ (loadStem c base).stemDict = some dict ∧
      disps.length = 2 * base.length ∧ disps.Pairwise (· ≤ ·) ∧
      (base.Nodup → disps.Pairwise (· < ·)) ∧ disps.reverse.map (fun x => -x) = disps ∧
      (∀ k < base.length, dict.lookup ((k : Int) + 1) = (sorted base)[k]? ∧
        dict.lookup (-((k : Int) + 1)) = (sorted base)[k]?.map (fun x => -x)) ∧
      (∀ s : Int, (dict.lookup s).isSome ↔ s ≠ 0 ∧ s.natAbs ≤ base.length) := by
  obtain ⟨h1, h2, h3, _⟩ := loaded c h
  have hlen : (stepNumbers base.length).length = (allDisps base).length := by
    rw [stepNumbers_length, length_allDisps]
  have hnd : (stepNumbers base.length).Nodup :=
    (stepNumbers_sorted base.length).imp (fun h => ne_of_lt h)
  refine ⟨_, _, h1, h3, length_allDisps base, ?_, ?_, ?_, ?_, ?_⟩
  · rw [← disps_eq h]; exact sorted_pairwise _
  · intro hb
    have hn : (allDisps base).Nodup := by
      rw [← disps_eq h, (sorted_perm _).nodup_iff, List.nodup_append]
      refine ⟨hb.map neg_injective, hb, ?_⟩
      intro a ha b hb'
      obtain ⟨x, hx, rfl⟩ := List.mem_map.mp ha
      have := h x hx
      have := h b hb'
      intro e; linarith
    have hp : (allDisps base).Pairwise (· ≤ ·) := by rw [← disps_eq h]; exact sorted_pairwise _
    exact hp.imp₂ (fun a b h1 h2 => lt_of_le_of_ne h1 h2) hn
  · unfold allDisps
    rw [List.reverse_append, List.map_append, ← List.map_reverse, List.reverse_reverse, List.map_map]
    congr 1
    conv_rhs => rw [← List.map_id (sorted base)]
    apply List.map_congr_left
    intro x _
    simp
  · intro k hk
    have hs : (sorted base)[k]? = some ((sorted base)[k]'(by rw [length_sorted]; exact hk)) :=
      List.getElem?_eq_getElem _
    constructor
    · rw [zip_lookup _ _ hnd hlen (stepNumbers_pos _ hk)
        (by rw [allDisps_pos base hk]; exact hs), hs]
    · rw [zip_lookup _ _ hnd hlen (stepNumbers_neg _ hk)
        (by rw [allDisps_neg base hk, hs]; rfl), hs]
      rfl
  · intro s
    rw [PyDict.lookup_isSome_iff, zip_keys _ _ hlen, mem_stepNumbers]

/-- C22. For distinct displacements the step numbers are in the order of the displacements, and the
inverse table gives back the step number. -/
theorem step_order (c : Coll K) {base : List K} (h : ∀ x ∈ base, 0 < x) (hb : base.Nodup)
    {dict : List (Int × K)} (hd : (loadStem c base).stemDict = some dict) {s t : Int} {x y : K}
    (hs : dict.lookup s = some x) (ht : dict.lookup t = some y) :
    (s < t ↔ x < y) ∧ ∃ inv, (loadStem c base).inv = some inv ∧ inv.lookup x = some s := by
  obtain ⟨disps, dict', e1, e2, hl, _, hstrict, _, _, _⟩ := stem_steps c h
  rw [hd] at e2
  cases e2
  obtain ⟨g1, g2, g3, _⟩ := loaded c h
  rw [g1] at e1
  cases e1
  rw [hd] at g3
  cases g3
  have hdisp := hstrict hb
  have hlen : (stepNumbers base.length).length = (allDisps base).length := by
    rw [stepNumbers_length, length_allDisps]
  refine ⟨?_, ?_⟩
  · obtain ⟨i, hi⟩ := List.getElem?_of_mem (PyDict.mem_of_lookup hs)
    obtain ⟨j, hj⟩ := List.getElem?_of_mem (PyDict.mem_of_lookup ht)
    rw [List.getElem?_zip_eq_some] at hi hj
    obtain ⟨hi1, rfl⟩ := List.getElem?_eq_some_iff.mp hi.1
    obtain ⟨hi2, rfl⟩ := List.getElem?_eq_some_iff.mp hi.2
    obtain ⟨hj1, rfl⟩ := List.getElem?_eq_some_iff.mp hj.1
    obtain ⟨hj2, rfl⟩ := List.getElem?_eq_some_iff.mp hj.2
    have p1 := List.pairwise_iff_getElem.mp (stepNumbers_sorted base.length)
    have p2 := List.pairwise_iff_getElem.mp hdisp
    rcases lt_trichotomy i j with hij | rfl | hij
    · exact ⟨fun _ => p2 i j hi2 hj2 hij, fun _ => p1 i j hi1 hj1 hij⟩
    · simp
    · have q1 := p1 j i hj1 hi1 hij
      have q2 := p2 j i hj2 hi2 hij
      exact ⟨fun e => absurd e (not_lt_of_gt q1), fun e => absurd e (not_lt_of_gt q2)⟩
  · have hinv : (loadStem c base).inv = some (PyDict.ofItems
        (((stepNumbers base.length).zip (allDisps base)).map (fun p => (p.2, p.1)))) := by
      unfold loadStem
      rw [show (base.map (fun x => -x) ++ base).insertionSort (· ≤ ·) = allDisps base from disps_eq h]
    refine ⟨_, hinv, ?_⟩
    have hk : ((((stepNumbers base.length).zip (allDisps base)).map
        (fun p : Int × K => (p.2, p.1))).map (·.1)) = allDisps base := by
      rw [List.map_map]
      exact List.map_snd_zip (by omega)
    have hnd : ((((stepNumbers base.length).zip (allDisps base)).map
        (fun p : Int × K => (p.2, p.1))).map (·.1)).Nodup := by
      rw [hk]; exact hdisp.imp (fun h => ne_of_lt h)
    rw [PyDict.ofItems_nodup _ hnd]
    exact PyDict.lookup_of_mem _ hnd (p := (x, s))
      (List.mem_map.mpr ⟨(s, x), PyDict.mem_of_lookup hs, rfl⟩)

/-- The value of a parameter at a displacement: relative to its fiducial, or absolute if that is
zero. -/
theorem valueFor_spec (p : Par K) (e : K) :
    valueFor p e = if p.fiducial = 0 then e * p.stem else p.fiducial * (1 + e * p.stem) := by
  unfold valueFor
  by_cases h : p.fiducial = 0
  · simp [h]
  · simp only [ne_eq, h, not_false_eq_true, if_true, if_false]; ring

/-- C22. The table of parameter values for loaded displacements: the fiducial in the middle, the value of
step `k` at distance `k` after it, that of step `-k` at distance `k` before it; and these two are
symmetric about the fiducial. -/
theorem stem_values (p : Par K) {base : List K} (h : ∀ x ∈ base, 0 < x) (c : Coll K) {disps : List K}
    (hd : (loadStem c base).disps = some disps) :
    (stemValues p disps).length = 2 * base.length + 1 ∧
    (stemValues p disps)[base.length]? = some p.fiducial ∧
    ∀ k < base.length,
      (stemValues p disps)[base.length + (k + 1)]? = (sorted base)[k]?.map (valueFor p) ∧
      (stemValues p disps)[base.length - (k + 1)]? = (sorted base)[k]?.map (fun x => valueFor p (-x)) ∧
      ∀ x, valueFor p x + valueFor p (-x) = 2 * p.fiducial := by
  obtain ⟨g1, _⟩ := loaded c h
  rw [g1] at hd
  cases hd
  have hl := length_allDisps base
  have hhalf : 2 * base.length / 2 = base.length := by omega
  unfold stemValues insertAt
  simp only [List.length_map, hl, hhalf]
  have htake : (((allDisps base).map (valueFor p)).take base.length).length = base.length := by
    simp [hl]; omega
  refine ⟨by simp [hl]; omega, ?_, ?_⟩
  · rw [List.getElem?_append_right (by rw [htake]), htake]
    simp
  · intro k hk
    refine ⟨?_, ?_, ?_⟩
    · rw [List.getElem?_append_right (by rw [htake]; omega), htake,
        show base.length + (k + 1) - base.length = k + 1 by omega, List.getElem?_cons_succ,
        List.getElem?_drop, List.getElem?_map, allDisps_pos base hk]
    · rw [List.getElem?_append_left (by rw [htake]; omega), List.getElem?_take_of_lt (by omega),
        List.getElem?_map, show base.length - (k + 1) = base.length - 1 - k by omega,
        allDisps_neg base hk, Option.map_map]
      rfl
    · intro x
      rw [valueFor_spec, valueFor_spec]
      split
      · next e => rw [e]; ring
      · ring

/-! ### Files -/

/-- What a parameter file does not keep: the description, and the probe of a cosmological parameter. -/
def forget (p : Par K) : Par K :=
  { p with description := [], probe := if p.kind = .nuisance then p.probe else none }

/-- Conditions met by every parameter that the constructor accepts and JSON can store: nuisance
parameters have a probe, the flag is a Python bool. -/
def Storable (p : Par K) : Prop := (p.kind = .nuisance → p.probe.isSome) ∧ p.numpyFlag = false

theorem kind_str_ne : Kind.nuisance.str ≠ Kind.cosmo.str := by decide

theorem construct_toDict {p : Par K} (h : Storable p) : construct (toDict p) = .ok (forget p) := by
  obtain ⟨h1, h2⟩ := h
  obtain ⟨name, fid, cur, kind, probe, free, np, stem, de, un, me⟩ := p
  cases kind with
  | cosmo =>
    unfold construct toDict forget
    rw [if_pos rfl]
    simp only at h2
    simp [h2]
  | nuisance =>
    obtain ⟨q, hq⟩ := Option.isSome_iff_exists.mp (h1 rfl)
    simp only at hq h2
    subst hq h2
    unfold construct toDict forget
    rw [if_neg kind_str_ne, if_pos rfl]
    simp

theorem mapM_construct (l : List (Str × Par K)) (h : ∀ q ∈ l, Storable q.2) :
    (l.map (fun q => toDict q.2)).mapM construct = .ok (l.map (fun q => forget q.2)) := by
  induction l with
  | nil => rfl
  | cons q l ih =>
    rw [List.map_cons, List.mapM_cons, construct_toDict (h q List.mem_cons_self),
      ih (fun x hx => h x (List.mem_cons_of_mem _ hx))]
    rfl

/-- Two displacement lists with the same sizes, in any order and with any signs, load alike. -/
theorem perm_abs (base : List K) :
    (base.map (fun x => -x) ++ base).Perm ((base.map abs).map (fun x => -x) ++ base.map abs) := by
  induction base with
  | nil => exact List.Perm.refl _
  | cons x l ih =>
    simp only [List.map_cons, List.cons_append]
    refine ((List.perm_middle (l₁ := l.map (fun x => -x))).cons (-x)).trans ?_
    refine List.Perm.trans ?_ ((List.perm_middle (l₁ := (l.map abs).map (fun x => -x))).symm.cons (-|x|))
    rcases abs_choice x with hx | hx
    · rw [hx]; exact (ih.cons x).cons _
    · rw [hx, neg_neg]
      exact ((ih.cons x).cons (-x)).trans (List.Perm.swap _ _ _)

theorem filter_pos (base : List K) (h : ∀ x ∈ base, x ≠ 0) :
    ((base.map (fun x => -x) ++ base).filter (fun x => decide (0 < x))).Perm (base.map abs) := by
  refine ((perm_abs base).filter _).trans ?_
  rw [List.filter_append]
  have h1 : (((base.map abs).map (fun x => -x)).filter (fun x => decide (0 < x))) = [] := by
    rw [List.filter_eq_nil_iff]
    intro a ha
    obtain ⟨y, hy, rfl⟩ := List.mem_map.mp ha
    obtain ⟨x, _, rfl⟩ := List.mem_map.mp hy
    have := abs_nonneg x
    simp only [decide_eq_true_eq, not_lt]
    linarith
  have h2 : ((base.map abs).filter (fun x => decide (0 < x))) = base.map abs := by
    rw [List.filter_eq_self]
    intro a ha
    obtain ⟨x, hx, rfl⟩ := List.mem_map.mp ha
    simp [h x hx]
  rw [h1, h2, List.nil_append]

/-- C23. Displacements without zeros survive a file: loading what was written gives the same steps. -/
theorem stem_roundtrip (c c' : Coll K) {base : List K} (h : ∀ x ∈ base, x ≠ 0) {disps : List K}
    (hd : (loadStem c base).disps = some disps) :
    let b := disps.filter (fun x => decide (0 < x))
    (loadStem c' b).disps = (loadStem c base).disps ∧ (loadStem c' b).steps = (loadStem c base).steps ∧
      (loadStem c' b).stemDict = (loadStem c base).stemDict ∧
      (loadStem c' b).inv = (loadStem c base).inv := by
  have hd' : disps = sorted (base.map (fun x => -x) ++ base) := (Option.some.inj hd).symm
  intro b
  have hb : b.Perm (base.map abs) := by
    show (disps.filter _).Perm _
    rw [hd']
    exact ((sorted_perm _).filter _).trans (filter_pos base h)
  have hlen : b.length = base.length := by rw [hb.length_eq, List.length_map]
  have hs : (b.map (fun x => -x) ++ b).insertionSort (· ≤ ·)
      = (base.map (fun x => -x) ++ base).insertionSort (· ≤ ·) :=
    sorted_congr (((hb.map _).append hb).trans (perm_abs base).symm)
  unfold loadStem
  simp only [hs, hlen, and_self]

/-- C23 (partial). A collection whose keys are the names of its parameters and whose displacements are
not zero is written without error, and reading the file gives a collection with the same steps and
flatness and, under the same keys in the same order, parameters that are the same except for what
`forget` names.  Missing: descriptions and the probes of cosmological parameters, see
`description_lost`. -/
theorem file_roundtrip_partial (c₀ : Coll K) {base : List K} (hbase : ∀ x ∈ base, x ≠ 0)
    (hkeys : ∀ q ∈ c₀.pars, q.1 = q.2.name) (hnd : (c₀.pars.map (·.1)).Nodup)
    (hst : ∀ q ∈ c₀.pars, Storable q.2) :
    let c := loadStem c₀ base
    ∃ f c', writeJSON c = (f, none) ∧ fromJSON f false = .ok c' ∧
      c'.pars = c.pars.map (fun q => (q.1, forget q.2)) ∧ c'.disps = c.disps ∧ c'.steps = c.steps ∧
      c'.stemDict = c.stemDict ∧ c'.inv = c.inv ∧ c'.flat = c.flat := by
  intro c
  obtain ⟨disps, hd⟩ : ∃ d, c.disps = some d := ⟨_, rfl⟩
  have hp : c.pars = c₀.pars := rfl
  have hw : writeJSON c = (.json (c.pars.map (fun q => toDict q.2))
      (disps.filter (fun x => decide (0 < x))) c.flat, none) := by
    unfold writeJSON
    rw [hd]
    simp only
    rw [if_neg]
    rw [Bool.not_eq_true, List.any_eq_false]
    intro q hq
    rw [(hst q hq).2]; decide
  obtain ⟨r1, r2, r3, r4⟩ := stem_roundtrip c₀ ⟨c.pars.map (fun q => (q.1, forget q.2)), none, none,
    none, none, c.flat⟩ hbase hd
  refine ⟨_, loadStem ⟨c.pars.map (fun q => (q.1, forget q.2)), none, none, none, none, c.flat⟩
    (disps.filter (fun x => decide (0 < x))), hw, ?_, rfl, r1, r2, r3, r4, rfl⟩
  unfold fromJSON parsFrom
  simp only
  rw [mapM_construct c.pars hst]
  simp only [Bool.not_false, Bool.true_or, List.filter_true, List.map_map]
  have hmap : c.pars.map ((fun p : Par K => (p.name, p)) ∘ fun q => forget q.2)
      = c.pars.map (fun q => (q.1, forget q.2)) := by
    apply List.map_congr_left
    intro q hq
    simp only [Function.comp, Prod.mk.injEq, and_true]
    exact (hkeys q hq).symm
  rw [hmap, PyDict.ofItems_nodup]
  rw [List.map_map]
  exact hnd

/-- C23. Selecting only cosmological parameters while reading keeps exactly these. -/
theorem file_only_cosmological (c₀ : Coll K) {base : List K}
    (hkeys : ∀ q ∈ c₀.pars, q.1 = q.2.name) (hnd : (c₀.pars.map (·.1)).Nodup)
    (hst : ∀ q ∈ c₀.pars, Storable q.2) :
    let c := loadStem c₀ base
    ∃ f c', writeJSON c = (f, none) ∧ fromJSON f true = .ok c' ∧
      c'.pars = (c.pars.filter (fun q => decide (q.2.kind = .cosmo))).map
        (fun q => (q.1, forget q.2)) := by
  intro c
  obtain ⟨disps, hd⟩ : ∃ d, c.disps = some d := ⟨_, rfl⟩
  have hw : writeJSON c = (.json (c.pars.map (fun q => toDict q.2))
      (disps.filter (fun x => decide (0 < x))) c.flat, none) := by
    unfold writeJSON
    rw [hd]
    simp only
    rw [if_neg]
    rw [Bool.not_eq_true, List.any_eq_false]
    intro q hq
    rw [(hst q hq).2]; decide
  refine ⟨_, loadStem ⟨(c.pars.filter (fun q => decide (q.2.kind = .cosmo))).map
        (fun q => (q.1, forget q.2)), none, none, none, none, c.flat⟩
    (disps.filter (fun x => decide (0 < x))), hw, ?_, rfl⟩
  unfold fromJSON parsFrom
  simp only
  rw [mapM_construct c.pars hst]
  simp only [Bool.not_true, Bool.false_or]
  have hf : (c.pars.map (fun q => forget q.2)).filter (fun p => decide (p.kind = .cosmo))
      = (c.pars.filter (fun q => decide (q.2.kind = .cosmo))).map (fun q => forget q.2) := by
    rw [List.filter_map]; rfl
  rw [hf, List.map_map]
  have hmap : (c.pars.filter (fun q => decide (q.2.kind = .cosmo))).map
      ((fun p : Par K => (p.name, p)) ∘ fun q => forget q.2)
      = (c.pars.filter (fun q => decide (q.2.kind = .cosmo))).map (fun q => (q.1, forget q.2)) := by
    apply List.map_congr_left
    intro q hq
    simp only [Function.comp, Prod.mk.injEq, and_true]
    exact (hkeys q (List.mem_filter.mp hq).1).symm
  rw [hmap, PyDict.ofItems_nodup]
  rw [List.map_map]
  exact hnd.sublist (List.filter_sublist.map _)

/-- C23. Reading a file into a collection leaves the parameters that are not in the file alone and
takes the others from the file. -/
theorem readJSON_merges {c c' : Coll K} {l : List (Args K)} {base : List K} {fl : Option Bool}
    {b : Bool} (h : readJSON c (.json l base fl) b = .ok c') :
    ∃ ps, parsFrom l b = .ok ps ∧ c'.flat = fl ∧
      ∀ k, c'.pars.lookup k = ((ps.reverse).lookup k).or (c.pars.lookup k) := by
  unfold readJSON at h
  simp only at h
  cases hp : parsFrom l b with
  | error e => rw [hp] at h; cases h
  | ok ps =>
    rw [hp] at h
    cases h
    exact ⟨ps, rfl, rfl, fun k => PyDict.lookup_update _ _ _⟩

/-- C23 is false as it stands: the description of a parameter does not survive. -/
theorem description_lost : ∃ (p : Par ℚ), Storable p ∧ ∃ f c',
    writeJSON (loadStem ⟨[(p.name, p)], none, none, none, none, none⟩ [1]) = (f, none) ∧
      fromJSON f false = .ok c' ∧ (c'.pars.lookup p.name).map (·.description) = some [] ∧
      p.description ≠ [] := by
  refine ⟨{ exPar omm (1 / 4) true with description := "matter".toList }, ⟨by decide, rfl⟩, ?_⟩
  obtain ⟨f, c', h1, h2, h3, _⟩ := file_roundtrip_partial
    (⟨[(omm, { exPar omm (1 / 4) true with description := "matter".toList })], none, none, none, none,
      none⟩ : Coll ℚ) (base := [1]) (by simp) (by simp [exPar]) (by simp)
    (by
      intro q hq
      rw [List.mem_singleton.mp hq]
      exact ⟨by decide, rfl⟩)
  refine ⟨f, c', h1, h2, ?_, by decide⟩
  rw [h3]
  decide +kernel

/-- C23 is false for a displacement of zero, which is not written. -/
theorem zero_displacement_lost : ∃ (base : List ℚ) (f : File ℚ) (c' : Coll ℚ),
    writeJSON (loadStem ⟨[], none, none, none, none, none⟩ base) = (f, none) ∧
      fromJSON f false = .ok c' ∧
      c'.disps ≠ (loadStem (⟨[], none, none, none, none, none⟩ : Coll ℚ) base).disps :=
  ⟨[0, 1], _, _, rfl, rfl, by decide +kernel⟩

/-! ### Failed writes -/

/-- C63 (partial). A write that succeeds leaves a readable file.  Missing: a failed write should leave
the old file, see `failed_write_destroys`. -/
theorem write_readable_partial {c : Coll K} {f : File K} (h : writeJSON c = (f, none)) :
    ∃ l b fl, f = .json l b fl := by
  unfold writeJSON at h
  split at h
  · cases h
  · split at h
    · cases h
    · cases h; exact ⟨_, _, _, rfl⟩

/-- C63 is false: a write that raises has already destroyed the file, and this happens exactly for
collections without displacements or with a numpy flag. -/
theorem failed_write_destroys (c : Coll K) :
    ((writeJSON c).2 ≠ none ↔ c.disps = none ∨ ∃ q ∈ c.pars, q.2.numpyFlag = true) ∧
    ((writeJSON c).2 ≠ none → (writeJSON c).1 = .broken ∧
      fromJSON (writeJSON c).1 false = .error .valueError) := by
  unfold writeJSON
  cases hd : c.disps with
  | none => simp [fromJSON]
  | some d =>
    simp only
    by_cases hn : (c.pars.any (fun q => q.2.numpyFlag)) = true
    · rw [if_pos hn]
      have := List.any_eq_true.mp hn
      simp [fromJSON, this]
    · rw [if_neg hn]
      have : ¬ ∃ q ∈ c.pars, q.2.numpyFlag = true := fun e => hn (List.any_eq_true.mpr e)
      simp [this]

example : (writeJSON (⟨[], none, none, none, none, none⟩ : Coll ℚ)).2 ≠ none := by
  rw [(failed_write_destroys _).1]; exact Or.inl rfl

/-! ### Selections -/

/-- C64. The free parameters for a probe: exactly the free cosmological ones and the free nuisance
parameters of that probe. -/
theorem freeForProbe_spec (c : Coll K) (hnd : (c.pars.map (·.1)).Nodup) (pr k : Str) (p : Par K) :
    (freeForProbe c pr).lookup k = some p ↔ c.pars.lookup k = some p ∧ p.free = true ∧
      (p.kind = .cosmo ∨ (p.kind = .nuisance ∧ p.probe = some pr)) := by
  have hA : ((freeCosmo c).map (·.1)).Nodup :=
    hnd.sublist ((List.filter_sublist.trans List.filter_sublist).map _)
  have hB : ((freeNuisance c pr).map (·.1)).Nodup :=
    hnd.sublist ((List.filter_sublist.trans List.filter_sublist).map _)
  have hArev : ((freeCosmo c).reverse.map (·.1)).Nodup := by
    rw [List.map_reverse, List.nodup_reverse]; exact hA
  have hBrev : ((freeNuisance c pr).reverse.map (·.1)).Nodup := by
    rw [List.map_reverse, List.nodup_reverse]; exact hB
  have look : ∀ (d : List (Str × Par K)), (d.map (·.1)).Nodup → ∀ q, d.lookup k = some q ↔ (k, q) ∈ d :=
    fun d hd q => ⟨PyDict.mem_of_lookup, fun h => PyDict.lookup_of_mem d hd h⟩
  unfold freeForProbe
  rw [PyDict.lookup_update, PyDict.lookup_update]
  have hnil : List.lookup k ([] : List (Str × Par K)) = none := rfl
  rw [hnil, Option.or_none, Option.or_eq_some_iff, look _ hBrev, look _ hArev, look _ hnd,
    List.mem_reverse, List.mem_reverse]
  have mA : ∀ q, (k, q) ∈ freeCosmo c ↔ (k, q) ∈ c.pars ∧ q.kind = .cosmo ∧ q.free = true := by
    intro q; simp [freeCosmo, freePars, List.mem_filter, and_assoc, and_comm]
  have mB : ∀ q, (k, q) ∈ freeNuisance c pr ↔ (k, q) ∈ c.pars ∧
      (q.kind = .nuisance ∧ q.probe = some pr) ∧ q.free = true := by
    intro q; simp [freeNuisance, freePars, List.mem_filter, and_assoc, and_comm]
  rw [mA, mB]
  constructor
  · rintro (⟨h1, h2, h3⟩ | ⟨_, h1, h2, h3⟩)
    · exact ⟨h1, h3, Or.inr h2⟩
    · exact ⟨h1, h3, Or.inl h2⟩
  · rintro ⟨h1, h2, h3 | h3⟩
    · right
      refine ⟨?_, h1, h3, h2⟩
      cases hl : (freeNuisance c pr).reverse.lookup k with
      | none => rfl
      | some q =>
        exfalso
        have hq := (mB q).mp (List.mem_reverse.mp ((look _ hBrev q).mp hl))
        have e1 := (look _ hnd q).mpr hq.1
        have e2 := (look _ hnd p).mpr h1
        rw [e1] at e2
        cases e2
        rw [hq.2.1.1] at h3
        cases h3
    · exact Or.inl ⟨h1, h3, h2⟩

example : (stemValues (exPar omm (1 / 4) true) [-1, 1]).length = 3 := by decide +kernel

example : ∃ disps, (loadStem (exColl false) [1 / 5, 1 / 10]).disps = some disps ∧
    disps = [-1 / 5, -1 / 10, 1 / 10, 1 / 5] := ⟨_, rfl, by decide +kernel⟩

example : (freeForProbe (exColl false) "Void".toList).map (·.1) = [omm, "h".toList] := by decide +kernel

end Seyfert.Param
