import Verif.Props.Names
import Verif.Props.ParameterSteps

/-!
C28: jobs of the tasks.  C65: spectra are paired with the parameter values they were computed for.
-/

set_option linter.unusedSectionVars false

namespace Seyfert.Names

open Param (Coll Par stepNumbers)

variable {K : Type} [Field K] [LinearOrder K] [IsStrictOrderedRing K]

theorem mem_variations (pars : List (Str × Par K)) (steps : List Int) (d : Str) (s : Int) :
    (d, s) ∈ variations pars steps ↔ s ∈ steps ∧ ∃ p, (d, p) ∈ pars ∧ p.method = stem := by
  unfold variations
  rw [List.mem_flatMap]
  constructor
  · rintro ⟨⟨d', p⟩, hq, hm⟩
    obtain ⟨t, ht, e⟩ := List.mem_map.mp hm
    cases e
    rw [List.mem_filter] at hq
    exact ⟨ht, p, hq.1, by simpa using hq.2⟩
  · rintro ⟨hs, p, hp, hm⟩
    exact ⟨(d, p), List.mem_filter.mpr ⟨hp, by simpa using hm⟩, List.mem_map.mpr ⟨s, hs, rfl⟩⟩

theorem nodup_variations (pars : List (Str × Par K)) (hn : (pars.map (·.1)).Nodup) (steps : List Int)
    (hs : steps.Nodup) : (variations pars steps).Nodup := by
  unfold variations
  have hf : ((pars.filter (fun q => decide (q.2.method = stem))).map (·.1)).Nodup :=
    hn.sublist (List.filter_sublist.map _)
  generalize pars.filter (fun q => decide (q.2.method = stem)) = l at hf
  induction l with
  | nil => simp
  | cons q l ih =>
    rw [List.map_cons, List.nodup_cons] at hf
    rw [List.flatMap_cons, List.nodup_append]
    refine ⟨hs.map (fun a b e => (Prod.mk.inj e).2), ih hf.2, ?_⟩
    intro a ha b hb e
    subst e
    obtain ⟨t, _, rfl⟩ := List.mem_map.mp ha
    obtain ⟨r, hr, hm⟩ := List.mem_flatMap.mp hb
    obtain ⟨u, _, e⟩ := List.mem_map.mp hm
    have : r.1 = q.1 := (Prod.mk.inj e).1
    exact hf.1 (this ▸ List.mem_map_of_mem hr)

theorem jobs_names_nodup {l : List (Str × Int)} (h : l.Nodup) :
    (l.map (fun q => jobDir q.1 q.2)).Nodup := by
  apply h.map
  intro a b e
  obtain ⟨h1, h2⟩ := jobDir_injective e
  exact Prod.ext h1 h2

theorem jobs_spec (pars : List (Str × Par K)) (hn : (pars.map (·.1)).Nodup) (steps : List Int)
    (hs : steps.Nodup) (h0 : (0 : Int) ∉ steps) :
    (((central, 0) :: variations pars steps).map (fun q => jobDir q.1 q.2)).Nodup ∧
    ∀ d s, jobDir d s ∈ ((central, 0) :: variations pars steps).map (fun q => jobDir q.1 q.2) ↔
      (d = central ∧ s = 0) ∨ (s ∈ steps ∧ ∃ p, (d, p) ∈ pars ∧ p.method = stem) := by
  constructor
  · apply jobs_names_nodup
    rw [List.nodup_cons]
    refine ⟨?_, nodup_variations pars hn steps hs⟩
    rw [mem_variations]
    exact fun h => h0 h.1
  · intro d s
    rw [List.mem_map]
    constructor
    · rintro ⟨⟨d', s'⟩, hm, e⟩
      obtain ⟨rfl, rfl⟩ := jobDir_injective e
      rcases List.mem_cons.mp hm with e | hm
      · left; exact ⟨(Prod.mk.inj e).1, (Prod.mk.inj e).2⟩
      · right; exact (mem_variations pars steps d' s').mp hm
    · rintro (⟨rfl, rfl⟩ | h)
      · exact ⟨_, List.mem_cons_self, rfl⟩
      · exact ⟨_, List.mem_cons_of_mem _ ((mem_variations pars steps d s).mpr h), rfl⟩

/-- C28. The directories of the power spectrum task: one for the central cosmology, and one for each free
cosmological parameter with finite differences and each step; none twice. -/
theorem powerJobs_spec (c : Coll K) (hn : (c.pars.map (·.1)).Nodup) {steps : List Int}
    (hst : c.steps = some steps) (hs : steps.Nodup) (h0 : (0 : Int) ∉ steps) :
    ∃ jobs, powerJobs c = some jobs ∧ (jobs.map (fun q => jobDir q.1 q.2)).Nodup ∧
      ∀ d s, jobDir d s ∈ jobs.map (fun q => jobDir q.1 q.2) ↔ (d = central ∧ s = 0) ∨
        (s ∈ steps ∧ ∃ p, (d, p) ∈ c.pars ∧ p.kind = .cosmo ∧ p.free = true ∧ p.method = stem) := by
  refine ⟨_, by unfold powerJobs; rw [hst], ?_⟩
  obtain ⟨h1, h2⟩ := jobs_spec (Param.freeCosmo c)
    (hn.sublist ((List.filter_sublist.trans List.filter_sublist).map _)) steps hs h0
  refine ⟨h1, fun d s => ?_⟩
  rw [h2]
  simp only [Param.freeCosmo, List.mem_filter, decide_eq_true_eq, and_assoc]

/-- C28. The directories of the angular task: one for the central cosmology, and one for each free parameter
with finite differences and each step; none twice. -/
theorem angularJobs_spec (c : Coll K) (hn : (c.pars.map (·.1)).Nodup) {steps : List Int}
    (hst : c.steps = some steps) (hs : steps.Nodup) (h0 : (0 : Int) ∉ steps) :
    ∃ jobs, angularJobs c = some jobs ∧ (jobs.map (fun q => jobDir q.1 q.2)).Nodup ∧
      ∀ d s, jobDir d s ∈ jobs.map (fun q => jobDir q.1 q.2) ↔ (d = central ∧ s = 0) ∨
        (s ∈ steps ∧ ∃ p, (d, p) ∈ c.pars ∧ p.free = true ∧ p.method = stem) := by
  refine ⟨_, by unfold angularJobs; rw [hst], ?_⟩
  obtain ⟨h1, h2⟩ := jobs_spec (Param.freePars c) (hn.sublist (List.filter_sublist.map _)) steps hs h0
  refine ⟨h1, fun d s => ?_⟩
  rw [h2]
  simp only [Param.freePars, List.mem_filter, and_assoc]

/-- C28. The directories of the derivative task: one for each free parameter, none twice. -/
theorem derivativeJobs_spec (c : Coll K) (hn : (c.pars.map (·.1)).Nodup) :
    (derivativeJobs c).Nodup ∧
    ∀ d, d ∈ derivativeJobs c ↔ ∃ p, (d, p) ∈ c.pars ∧ p.free = true := by
  refine ⟨hn.sublist (List.filter_sublist.map _), fun d => ?_⟩
  simp [derivativeJobs, Param.freePars, List.mem_filter]

/-- C28. Without loaded steps the tasks are refused exactly if there is something to vary. -/
theorem jobs_refused (c : Coll K) :
    (angularJobs c = none ↔ c.steps = none ∧ ∃ q ∈ c.pars, q.2.free = true ∧ q.2.method = stem) ∧
    (powerJobs c = none ↔ c.steps = none ∧
      ∃ q ∈ c.pars, q.2.kind = .cosmo ∧ q.2.free = true ∧ q.2.method = stem) := by
  have hany : ∀ l : List (Str × Par K),
      (if l.any (fun q => decide (q.2.method = stem)) = true then none
        else some [(central, (0 : Int))]) = none ↔ ∃ q ∈ l, q.2.method = stem := by
    intro l
    by_cases h : l.any (fun q => decide (q.2.method = stem)) = true
    · rw [if_pos h]
      obtain ⟨q, hq, hm⟩ := List.any_eq_true.mp h
      exact iff_of_true rfl ⟨q, hq, by simpa using hm⟩
    · rw [if_neg h]
      refine iff_of_false (by simp) ?_
      rintro ⟨q, hq, hm⟩
      exact h (List.any_eq_true.mpr ⟨q, hq, by simpa using hm⟩)
  unfold angularJobs powerJobs
  cases c.steps with
  | some st => simp
  | none =>
    simp only [true_and]
    constructor
    · rw [hany]
      simp only [Param.freePars, List.mem_filter, and_assoc]
    · rw [hany]
      simp only [Param.freeCosmo, List.mem_filter, decide_eq_true_eq, and_assoc]

/-- The steps that loading displacements gives satisfy the hypotheses. -/
theorem loaded_steps_ok (n : Nat) : (stepNumbers n).Nodup ∧ (0 : Int) ∉ stepNumbers n :=
  ⟨(Param.stepNumbers_sorted n).imp (fun h => ne_of_lt h), fun h => ((Param.mem_stepNumbers n 0).mp h).1 rfl⟩

/-! ### Pairing spectra with values -/

theorem prefix_own {par d : Str} (hp : GoodName par) (hd : GoodName d) (s : Int) :
    (stripPrefix ("dvar_".toList ++ par ++ "_".toList) (jobDir d s)).isSome = true ↔ d = par := by
  rw [stripPrefix_isSome]
  have hu : "_".toList = ['_'] := by decide
  rw [jobDir_split, step0_lit, hu]
  constructor
  · rintro ⟨r, h⟩
    rw [List.append_assoc, List.append_assoc, List.append_assoc, List.append_assoc] at h
    have h := List.append_cancel_left h
    have e1 := spanChars_stop isAlnum d '_' (['s', 't', 'e', 'p'] ++ '_' :: stepStr s) hd.2 (by decide)
    have e2 := spanChars_stop isAlnum par '_' r hp.2 (by decide)
    have h' : d ++ '_' :: (['s', 't', 'e', 'p'] ++ '_' :: stepStr s) = par ++ '_' :: r := h
    rw [h', e2] at e1
    exact (Prod.mk.inj e1).1.symm
  · rintro rfl
    exact ⟨['s', 't', 'e', 'p'] ++ '_' :: stepStr s, by simp⟩

/-- Sorting by distinct keys gives the increasing list with the same elements. -/
theorem sort_keys {l s : List (Int × Str)} (hp : l.Perm s) (hs : (s.map (·.1)).Pairwise (· < ·)) :
    l.insertionSort (fun a b => a.1 ≤ b.1) = s := by
  have hperm := (List.perm_insertionSort (fun a b : Int × Str => a.1 ≤ b.1) l).trans hp
  have hsorted : (l.insertionSort (fun a b : Int × Str => a.1 ≤ b.1)).Pairwise (fun a b => a.1 ≤ b.1) :=
    haveI : Std.Total (fun a b : Int × Str => a.1 ≤ b.1) := ⟨fun a b => le_total a.1 b.1⟩
    haveI : IsTrans (Int × Str) (fun a b => a.1 ≤ b.1) := ⟨fun a b c => le_trans⟩
    List.pairwise_insertionSort _ l
  have hnd : (s.map (·.1)).Nodup := hs.imp (fun h => ne_of_lt h)
  refine hperm.eq_of_pairwise ?_ hsorted ((List.pairwise_map.mp hs).imp (fun h => le_of_lt h))
  intro a b ha hb h1 h2
  have ha' := hperm.mem_iff.mp ha
  exact List.inj_on_of_nodup_map hnd ha' hb (le_antisymm h1 h2)

/-- The directories of a parameter with `n` steps on each side, in the order of the steps, the central
one in the middle. -/
def inOrder (par : Str) (n : Nat) : List Str :=
  ((stepNumbers n).take n).map (jobDir par) ++ jobDir central 0 :: ((stepNumbers n).drop n).map (jobDir par)

theorem central_good : GoodName central := ⟨by decide, by decide⟩

/-- C65 (partial). For up to nine steps on each side: whatever the order in which the file system lists the
job directories, collecting those of a parameter gives its directories in the order of the steps with the
central one in the middle.  Missing: more steps, see `misaligned`. -/
theorem collect_in_order_partial (c : Coll K) (hn : (c.pars.map (·.1)).Nodup) {n : Nat} (hn9 : n ≤ 9)
    (hst : c.steps = some (stepNumbers n)) (hgood : ∀ q ∈ c.pars, GoodName q.1) {jobs : List (Str × Int)}
    (hj : angularJobs c = some jobs) {listing : List Str}
    (hl : listing.Perm (jobs.map (fun q => jobDir q.1 q.2))) {par : Str} {p : Par K}
    (hpar : (par, p) ∈ c.pars) (hfree : p.free = true) (hm : p.method = stem) (hc : par ≠ central) :
    collectVariations listing par = some (inOrder par n) := by
  obtain ⟨hnd, h0⟩ := loaded_steps_ok n
  have hgp := hgood _ hpar
  have hjobs : jobs = (central, 0) :: variations (Param.freePars c) (stepNumbers n) := by
    unfold angularJobs at hj
    rw [hst] at hj
    exact (Option.some.inj hj).symm
  -- the own directories
  have hfilter : (listing.filter (fun d => (stripPrefix ("dvar_".toList ++ par ++ "_".toList) d).isSome)).Perm
      ((stepNumbers n).map (jobDir par)) := by
    have hndl : listing.Nodup := by
      rw [hl.nodup_iff, hjobs]
      exact (jobs_spec (Param.freePars c) (hn.sublist (List.filter_sublist.map _)) _ hnd h0).1
    rw [List.perm_ext_iff_of_nodup (hndl.filter _) (hnd.map (fun a b e => (jobDir_injective e).2))]
    intro d
    rw [List.mem_filter, hl.mem_iff, List.mem_map]
    constructor
    · rintro ⟨⟨⟨d', s⟩, hq, rfl⟩, hs⟩
      rw [hjobs] at hq
      have hg : GoodName d' := by
        rcases List.mem_cons.mp hq with e | hq
        · rw [(Prod.mk.inj e).1]; exact central_good
        · obtain ⟨_, q, hq, _⟩ := (mem_variations _ _ _ _).mp hq
          exact hgood _ (List.mem_filter.mp hq).1
      have hd : d' = par := (prefix_own hgp hg s).mp hs
      subst hd
      rcases List.mem_cons.mp hq with e | hq
      · exact absurd (Prod.mk.inj e).1 hc
      · exact List.mem_map.mpr ⟨s, ((mem_variations _ _ _ _).mp hq).1, rfl⟩
    · intro h
      obtain ⟨s, hs, rfl⟩ := List.mem_map.mp h
      refine ⟨⟨(par, s), ?_, rfl⟩, (prefix_own hgp hgp s).mpr rfl⟩
      rw [hjobs]
      exact List.mem_cons_of_mem _ ((mem_variations _ _ _ _).mpr ⟨hs, p,
        List.mem_filter.mpr ⟨hpar, hfree⟩, hm⟩)
  -- parsing
  have hparse : ∀ s ∈ stepNumbers n, parseJobDir (jobDir par s) = some (par, s) := fun s hs =>
    jobDir_roundtrip_partial par hgp s (by have := (Param.mem_stepNumbers n s).mp hs; omega)
  have hparse0 : parseJobDir (jobDir central 0) = some (central, 0) :=
    jobDir_roundtrip_partial _ central_good _ (by decide)
  unfold collectVariations
  simp only
  rw [if_pos]
  · congr 1
    have hsplit : stepNumbers n = (stepNumbers n).take n ++ (stepNumbers n).drop n :=
      (List.take_append_drop _ _).symm
    let tagged : List (Int × Str) := ((stepNumbers n).take n).map (fun s => (s, jobDir par s)) ++
      (0, jobDir central 0) :: ((stepNumbers n).drop n).map (fun s => (s, jobDir par s))
    have hsorted : (tagged.map (·.1)).Pairwise (· < ·) := by
      have e : tagged.map (·.1) = (stepNumbers n).take n ++ 0 :: (stepNumbers n).drop n := by
        simp [tagged, Function.comp_def]
      rw [e]
      have hs := Param.stepNumbers_sorted n
      have htake : ∀ x ∈ (stepNumbers n).take n, x < 0 := by
        intro x hx
        have : (stepNumbers n).take n = (List.range n).map (fun i : Nat => (i : Int) - n) := by
          simp [stepNumbers]
        rw [this] at hx
        obtain ⟨i, hi, rfl⟩ := List.mem_map.mp hx
        have := List.mem_range.mp hi
        omega
      have hdrop : ∀ x ∈ (stepNumbers n).drop n, 0 < x := by
        intro x hx
        have : (stepNumbers n).drop n = (List.range n).map (fun i : Nat => (i : Int) + 1) := by
          simp [stepNumbers]
        rw [this] at hx
        obtain ⟨i, _, rfl⟩ := List.mem_map.mp hx
        omega
      rw [List.pairwise_append]
      refine ⟨hs.sublist (List.take_sublist _ _), ?_, ?_⟩
      · rw [List.pairwise_cons]
        exact ⟨hdrop, hs.sublist (List.drop_sublist _ _)⟩
      · intro a ha b hb
        have h1 := htake a ha
        rcases List.mem_cons.mp hb with rfl | hb
        · exact h1
        · have := hdrop b hb; omega
    have hperm : ((listing.filter (fun d => (stripPrefix ("dvar_".toList ++ par ++ "_".toList) d).isSome)
        ++ [jobDir central 0]).map (fun d => (((parseJobDir d).map (·.2)).getD 0, d))).Perm tagged := by
      rw [List.map_append]
      have h1 := hfilter.map (fun d => (((parseJobDir d).map (·.2)).getD 0, d))
      rw [List.map_map] at h1
      have h2 : (stepNumbers n).map ((fun d => (((parseJobDir d).map (·.2)).getD 0, d)) ∘ jobDir par)
          = (stepNumbers n).map (fun s => (s, jobDir par s)) := by
        apply List.map_congr_left
        intro s hs
        simp [Function.comp, hparse s hs]
      rw [h2] at h1
      have h3 : [jobDir central 0].map (fun d => (((parseJobDir d).map (·.2)).getD 0, d))
          = [(0, jobDir central 0)] := by simp [hparse0]
      rw [h3]
      refine (h1.append_right _).trans ?_
      conv_lhs => rw [hsplit]
      rw [List.map_append, List.append_assoc]
      exact (List.perm_append_singleton _ _).append_left _
    rw [sort_keys hperm hsorted]
    simp [tagged, inOrder, Function.comp_def]
  · rw [List.all_eq_true]
    intro d hd
    rcases List.mem_append.mp hd with hd | hd
    · obtain ⟨s, hs, rfl⟩ := List.mem_map.mp (hfilter.mem_iff.mp hd)
      rw [hparse s hs]; rfl
    · rw [List.mem_singleton.mp hd, hparse0]; rfl

/-- C65. The values used for the fit are in the same order: position `i` of the values belongs to the step in
the name of directory `i`. -/
theorem values_in_order (p : Par K) {base : List K} (h : ∀ x ∈ base, 0 < x) (c : Coll K) (par : Str)
    {disps : List K} {dict : List (Int × K)} (hd : (Param.loadStem c base).disps = some disps)
    (hdict : (Param.loadStem c base).stemDict = some dict) :
    (inOrder par base.length).length = (Param.stemValues p disps).length ∧
    (inOrder par base.length)[base.length]? = some (jobDir central 0) ∧
    (Param.stemValues p disps)[base.length]? = some p.fiducial ∧
    ∀ k < base.length,
      (∃ x, dict.lookup ((k : Int) + 1) = some x ∧
        (inOrder par base.length)[base.length + (k + 1)]? = some (jobDir par ((k : Int) + 1)) ∧
        (Param.stemValues p disps)[base.length + (k + 1)]? = some (Param.valueFor p x)) ∧
      (∃ x, dict.lookup (-((k : Int) + 1)) = some x ∧
        (inOrder par base.length)[base.length - (k + 1)]? = some (jobDir par (-((k : Int) + 1))) ∧
        (Param.stemValues p disps)[base.length - (k + 1)]? = some (Param.valueFor p x)) := by
  obtain ⟨v1, v2, v3⟩ := Param.stem_values p h c hd
  obtain ⟨_, dict', _, e2, _, _, _, _, hstep, _⟩ := Param.stem_steps c h
  rw [hdict] at e2
  cases e2
  have hlen := Param.stepNumbers_length base.length
  have htake : (((stepNumbers base.length).take base.length).map (jobDir par)).length = base.length := by
    simp [hlen]; omega
  refine ⟨?_, ?_, v2, ?_⟩
  · rw [v1]; simp [inOrder, hlen]; omega
  · unfold inOrder
    rw [List.getElem?_append_right (by rw [htake]), htake]
    simp
  · intro k hk
    obtain ⟨a1, a2, _⟩ := v3 k hk
    obtain ⟨b1, b2⟩ := hstep k hk
    have hs : (Param.sorted base)[k]? = some ((Param.sorted base)[k]'(by
      rw [Param.length_sorted]; exact hk)) := List.getElem?_eq_getElem _
    rw [hs] at a1 a2 b1 b2
    refine ⟨⟨_, b1, ?_, a1⟩, ⟨_, b2, ?_, a2⟩⟩
    · unfold inOrder
      rw [List.getElem?_append_right (by rw [htake]; omega), htake,
        show base.length + (k + 1) - base.length = k + 1 by omega, List.getElem?_cons_succ,
        List.getElem?_map, List.getElem?_drop, Param.stepNumbers_pos _ hk]
      rfl
    · unfold inOrder
      rw [List.getElem?_append_left (by rw [htake]; omega), List.getElem?_map,
        List.getElem?_take_of_lt (by omega), show base.length - (k + 1) = base.length - 1 - k by omega,
        Param.stepNumbers_neg _ hk]
      rfl

/-- Names of job directories with steps of at most two digits, without recursion. -/
def jobDir2 (d : Str) (s : Int) : Str :=
  let dec := if s.natAbs < 10 then [digitChar s.natAbs]
    else [digitChar (s.natAbs / 10), digitChar (s.natAbs % 10)]
  "dvar_".toList ++ d ++ "_step_".toList ++
    (if s = 0 then "0".toList else if s < 0 then "m_".toList ++ dec else "p_".toList ++ dec)

theorem jobDir_eq2 (d : Str) {s : Int} (h : s.natAbs < 100) : jobDir d s = jobDir2 d s := by
  have hd : decStr s.natAbs = if s.natAbs < 10 then [digitChar s.natAbs]
      else [digitChar (s.natAbs / 10), digitChar (s.natAbs % 10)] := by
    by_cases h10 : s.natAbs < 10
    · rw [decStr_small h10, if_pos h10]
    · rw [if_neg h10, decStr_big (by omega), decStr_small (by omega)]; rfl
  unfold jobDir jobDir2 stepStr
  rw [hd]

/-- What the file system may list for the parameter `h` with ten steps on each side. -/
def listing10 : List Str := (stepNumbers 10).map (jobDir "h".toList) ++ [jobDir central 0]

/-- C65 is false for ten steps: the directory of step 10 is sorted next to that of step 1, so the spectrum of
the largest displacement is paired with the second smallest one. -/
theorem misaligned : ∃ l, collectVariations listing10 "h".toList = some l ∧
    l[12]? = some (jobDir "h".toList 10) ∧ (inOrder "h".toList 10)[12]? = some (jobDir "h".toList 2) := by
  have h0 : jobDir central 0 = jobDir2 central 0 := jobDir_eq2 _ (by decide)
  have hm : (stepNumbers 10).map (jobDir "h".toList) = (stepNumbers 10).map (jobDir2 "h".toList) :=
    List.map_congr_left (fun s hs => jobDir_eq2 _ (by have := (Param.mem_stepNumbers 10 s).mp hs; omega))
  have hm2 : ((stepNumbers 10).drop 10).map (jobDir "h".toList)
      = ((stepNumbers 10).drop 10).map (jobDir2 "h".toList) :=
    List.map_congr_left (fun s hs => jobDir_eq2 _ (by
      have := (Param.mem_stepNumbers 10 s).mp (List.mem_of_mem_drop hs); omega))
  have h1 : ((collectVariations listing10 "h".toList).bind (·[12]?)) = some (jobDir "h".toList 10) := by
    unfold listing10 collectVariations
    rw [h0, hm, jobDir_eq2 _ (by decide)]
    decide +kernel
  have h2 : (inOrder "h".toList 10)[12]? = some (jobDir "h".toList 2) := by
    unfold inOrder
    rw [List.getElem?_append_right (by simp [Param.stepNumbers_length]), List.length_map,
      List.length_take, Param.stepNumbers_length, hm2, jobDir_eq2 _ (by decide)]
    decide +kernel
  obtain ⟨l, hl, hl2⟩ := Option.bind_eq_some_iff.mp h1
  exact ⟨l, hl, hl2, h2⟩

/-! ### Cases meeting the hypotheses -/

def examplePar (name : Str) (k : Param.Kind) (free : Bool) : Par ℚ :=
  ⟨name, 1, 1, k, none, free, false, 1, [], [], stem⟩

/-- A free cosmological, a free nuisance and a fixed parameter, and two displacements. -/
def exampleColl : Coll ℚ :=
  Param.loadStem ⟨[("h".toList, examplePar "h".toList .cosmo true),
    ("b0".toList, examplePar "b0".toList .nuisance true),
    ("w0".toList, examplePar "w0".toList .cosmo false)], none, none, none, none, none⟩ [1/100, 1/50]

example : exampleColl.steps = some (stepNumbers 2) ∧ (exampleColl.pars.map (·.1)).Nodup ∧
    (∀ q ∈ exampleColl.pars, GoodName q.1) ∧ ("h".toList ≠ central) ∧
    (angularJobs exampleColl).map List.length = some 9 ∧
    (powerJobs exampleColl).map List.length = some 5 ∧
    derivativeJobs exampleColl = ["h".toList, "b0".toList] := by
  refine ⟨by decide +kernel, by decide +kernel, ?_, by decide, by decide +kernel, by decide +kernel,
    by decide +kernel⟩
  intro q hq
  have : q.1 ∈ exampleColl.pars.map (·.1) := List.mem_map_of_mem hq
  have h : exampleColl.pars.map (·.1) = ["h".toList, "b0".toList, "w0".toList] := by decide +kernel
  rw [h] at this
  unfold GoodName
  rcases List.mem_cons.mp this with e | this
  · rw [e]; decide
  rcases List.mem_cons.mp this with e | this
  · rw [e]; decide
  · rw [List.mem_singleton.mp this]; decide

example : ∃ (b : List ℚ) (c : Coll ℚ), (∀ x ∈ b, 0 < x) ∧ b.length = 2 ∧
    (Param.loadStem c b).disps.isSome = true ∧ (Param.loadStem c b).stemDict.isSome = true :=
  ⟨[1/100, 1/50], exampleColl, by simp, rfl, by decide +kernel, by decide +kernel⟩

end Seyfert.Names
