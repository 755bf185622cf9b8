import Verif.Lemmas.ClDerivative

/-!
C115: the derivative of a spectrum with respect to a parameter is the fit through the spectra computed
with the displaced values of that parameter; from the files of a run and in one process it is the same.
-/

set_option linter.unusedSectionVars false

namespace Seyfert.ClDer

open Param (Coll Par stepNumbers)

variable {K S : Type} [Field K] [LinearOrder K] [IsStrictOrderedRing K]

/-! ### Which cosmology is used -/

/-- C115. The cosmology that is loaded for a parameter and a step is the one of its own file if the
parameter is a cosmological one, and the central one otherwise. -/
theorem load_choice (store : Store K S) {pars : List (Str × Par K)} {dvar : Str} {p : Par K}
    (hp : pars.lookup dvar = some p) (hd : dvar ≠ Param.central) (s : Int) {cosmo : Cosmo K S}
    (h : loadCosmology store pars dvar s = .ok cosmo) : store.lookup (fileFor p dvar s) = some cosmo := by
  unfold loadCosmology cosmoId at h
  simp only [hd, if_false, hp] at h
  unfold fileFor
  by_cases hk : p.kind = .cosmo
  · simp only [hk, if_true] at h ⊢
    cases hl : store.lookup (dvar, s) with
    | none => rw [hl] at h; cases h
    | some c =>
      rw [hl] at h
      simp only at h
      split at h
      · cases h
      · exact congrArg some (by injection h)
  · simp only [hk, if_false] at h ⊢
    cases hl : store.lookup (Param.central, 0) with
    | none => rw [hl] at h; cases h
    | some c =>
      rw [hl] at h
      simp only at h
      split at h
      · cases h
      · exact congrArg some (by injection h)

theorem load_central (store : Store K S) (pars : List (Str × Par K)) (s : Int) {cosmo : Cosmo K S}
    (h : loadCosmology store pars Param.central s = .ok cosmo) :
    store.lookup (Param.central, 0) = some cosmo := by
  unfold loadCosmology cosmoId at h
  simp only [if_true] at h
  cases hl : store.lookup (Param.central, 0) with
  | none => rw [hl] at h; cases h
  | some c =>
    rw [hl] at h
    simp only at h
    split at h
    · cases h
    · exact congrArg some (by injection h)

/-- C115. A file whose parameters are not those asked for is used all the same, as long as the collection
knows their names: the inconsistency is only reported. -/
theorem load_inconsistent (store : Store K S) {pars : List (Str × Par K)} {dvar : Str} {p : Par K}
    (hp : pars.lookup dvar = some p) (hd : dvar ≠ Param.central) (s : Int) {cosmo : Cosmo K S}
    (hl : store.lookup (fileFor p dvar s) = some cosmo)
    (hk : ∀ q ∈ cosmo.params, q.1 = gamma ∨ (pars.lookup q.1).isSome) :
    loadCosmology store pars dvar s = .ok cosmo := by
  have hr : report cosmo.params pars = none := by
    unfold report
    split
    · rfl
    · rw [if_neg]
      rw [Bool.not_eq_true, List.any_eq_false]
      intro q hq
      rw [Bool.not_eq_true, Bool.and_eq_false_iff, decide_eq_false_iff_not, not_not]
      rcases hk q hq with h | h
      · exact Or.inl h
      · right
        cases hx : pars.lookup q.1 with
        | none => rw [hx] at h; cases h
        | some _ => rfl
  unfold fileFor at hl
  unfold loadCosmology cosmoId
  by_cases hkind : p.kind = .cosmo
  · simp only [hd, if_false, hp, hkind, if_true] at hl ⊢
    simp only [hl, hr]
  · simp only [hd, if_false, hp, hkind] at hl ⊢
    simp only [hl, hr]

/-- The comparison decides nothing but what is logged: the only failure is a parameter of the file, other than `gamma`, which the
collection does not have. -/
theorem report_iff (cosmo pars : List (Str × Par K)) (e : Err) :
    report cosmo pars = some e ↔ e = .keyError ∧ ∃ q ∈ cosmo, q.1 ≠ gamma ∧ pars.lookup q.1 = none := by
  have hany : (cosmo.any (fun q => decide (q.1 ≠ gamma) && (pars.lookup q.1).isNone) = true) ↔
      ∃ q ∈ cosmo, q.1 ≠ gamma ∧ pars.lookup q.1 = none := by
    rw [List.any_eq_true]
    refine exists_congr fun q => and_congr_right fun _ => ?_
    rw [Bool.and_eq_true, decide_eq_true_iff, Option.isNone_iff_eq_none]
  unfold report
  split
  · rename_i h
    refine ⟨nofun, ?_⟩
    rintro ⟨-, q, hq, -, hn⟩
    unfold samePars at h
    rw [Bool.and_eq_true, List.all_eq_true] at h
    have := h.2 q hq
    cases hf : (pars.filter (fun q => decide (q.2.kind = .cosmo))).lookup q.1 with
    | none => rw [hf] at this; cases this
    | some v =>
      have hm := (List.mem_filter.mp (PyDict.mem_of_lookup hf)).1
      rw [List.lookup_eq_none_iff] at hn
      have := hn _ hm
      simp at this
  · split
    · rename_i h
      constructor
      · rintro ⟨⟩
        exact ⟨rfl, hany.mp h⟩
      · rintro ⟨rfl, -⟩
        rfl
    · rename_i h
      exact ⟨nofun, fun hh => absurd (hany.mpr hh.2) h⟩

/-- C115. A file with a parameter which the collection does not have is refused, whatever the values of the others. -/
theorem load_unknown (store : Store K S) {pars : List (Str × Par K)} {dvar : Str} {p : Par K}
    (hp : pars.lookup dvar = some p) (hd : dvar ≠ Param.central) (s : Int) {cosmo : Cosmo K S}
    (hl : store.lookup (fileFor p dvar s) = some cosmo) {q : Str × Par K} (hq : q ∈ cosmo.params) (hg : q.1 ≠ gamma)
    (hn : pars.lookup q.1 = none) : loadCosmology store pars dvar s = .error .keyError := by
  have hr : report cosmo.params pars = some .keyError := (report_iff _ _ _).mpr ⟨rfl, q, hq, hg, hn⟩
  unfold fileFor at hl
  unfold loadCosmology cosmoId
  by_cases hkind : p.kind = .cosmo
  · simp only [hd, if_false, hp, hkind, if_true] at hl ⊢
    simp only [hl, hr]
  · simp only [hd, if_false, hp, hkind] at hl ⊢
    simp only [hl, hr]

/-! ### The spectra of a step -/

/-- C115 (partial). For up to nine steps: the spectra written by the job of a parameter and a step are
those of the cosmology of that parameter and step, for parameters in which it has its displaced value.
Missing: more steps, whose directories cannot be told apart, see `Names.misaligned`. -/
theorem job_spectra_partial (th : Theory K S) (store : Store K S) {c₀ : Coll K} {base : List K} {dvar : Str}
    {p : Par K} (hs : Setting c₀ base dvar p) {s : Int} (h9 : s.natAbs ≤ 9) {cls : Cls K}
    (h : clJob th store (Param.loadStem c₀ base) (Names.jobDir dvar s) = .ok cls) :
    ∃ c' cosmo fid, Param.update (Param.loadStem c₀ base) dvar s = (c', none) ∧
      store.lookup (fileFor p dvar s) = some cosmo ∧ store.lookup (Param.central, 0) = some fid ∧
      th cosmo fid c'.pars = .ok cls ∧
      (c'.pars.lookup dvar).map (·.current) = some (valueAt base p s) := by
  have hmem := PyDict.mem_of_lookup hs.mem
  have hparse : Names.parseJobDir (Names.jobDir dvar s) = some (dvar, s) :=
    Names.jobDir_roundtrip_partial dvar (hs.good _ hmem) s (by omega)
  unfold clJob at h
  rw [hparse] at h
  simp only at h
  cases hu : Param.update (Param.loadStem c₀ base) dvar s with
  | mk c' r =>
    rw [hu] at h
    cases r with
    | some e => cases h
    | none =>
      simp only at h
      obtain ⟨p', dict, eps, e1, _, e3, e4, e5, _⟩ := Param.update_effect hs.notCentral hu
      obtain ⟨g1, g2, g3, g4, _⟩ := Param.loaded c₀ hs.pos
      rw [g4, hs.mem] at e1
      obtain rfl := Option.some.inj e1
      have heps : valueAt base p s = Param.valueFor p eps := by
        rw [valueAt_eq]
        congr 1
        obtain ⟨disps, dict', _, hdict, _, _, _, _, hk, hany⟩ := Param.stem_steps c₀ hs.pos
        rw [e3] at hdict
        obtain rfl := Option.some.inj hdict
        obtain ⟨hs0, hsn⟩ := (hany s).mp (by rw [e4]; rfl)
        obtain ⟨k1, k2⟩ := hk (s.natAbs - 1) (by omega)
        have hl : s.natAbs - 1 < (base.insertionSort (· ≤ ·)).length := by
          rw [List.length_insertionSort]; omega
        have hsort : Param.sorted base = base.insertionSort (· ≤ ·) := rfl
        unfold dispAt
        rw [if_neg hs0]
        simp only [List.getElem?_eq_getElem hl, Option.getD_some]
        rw [hsort, List.getElem?_eq_getElem hl] at k1 k2
        by_cases hneg : s < 0
        · rw [if_pos hneg]
          rw [show -(((s.natAbs - 1 : Nat) : Int) + 1) = s by omega, e4] at k2
          exact (Option.some.inj k2).symm
        · rw [if_neg hneg]
          rw [show (((s.natAbs - 1 : Nat) : Int) + 1) = s by omega, e4] at k1
          exact (Option.some.inj k1).symm
      cases hc : loadCosmology store c'.pars dvar s with
      | error e => rw [hc] at h; cases h
      | ok cosmo =>
        rw [hc] at h
        simp only at h
        cases hf : loadCosmology store c'.pars Param.central 0 with
        | error e => rw [hf] at h; cases h
        | ok fid =>
          rw [hf] at h
          refine ⟨c', cosmo, fid, rfl, ?_, load_central store _ 0 hf, h, ?_⟩
          · have hfro := Param.frozen_update (Param.loadStem c₀ base) dvar s
            rw [hu] at hfro
            -- the kind of the parameter does not change
            have hcur := e5
            unfold Param.cur at hcur
            cases hq : c'.pars.lookup dvar with
            | none => rw [hq] at hcur; cases hcur
            | some p' =>
              have hkind : p'.kind = p.kind := by
                have h1 := congrArg (fun c : Coll K => (c.pars.lookup dvar).map (·.kind)) hfro
                have hz : ∀ c : Coll K, ((Param.frozen c).pars.lookup dvar).map (·.kind) =
                    (c.pars.lookup dvar).map (·.kind) := by
                  intro c
                  unfold Param.frozen
                  simp only
                  have hmv := Param.lookup_map_val c.pars (fun q : Par K => { q with current := 0 }) dvar
                  exact (congrArg (Option.map (·.kind)) hmv).trans (by rw [Option.map_map])
                simp only [hz, hq, g4, hs.mem, Option.map_some, Option.some.injEq] at h1
                exact h1
              have := load_choice store hq hs.notCentral s hc
              unfold fileFor at this ⊢
              rwa [hkind] at this
          · rw [heps]; exact e5

/-! ### Derivatives from files -/

theorem inOrder_eq (par : Str) (n : Nat) : Names.inOrder par n =
    (allSteps n).map (fun s => if s = 0 then Names.jobDir Param.central 0 else Names.jobDir par s) := by
  rw [allSteps_split, List.map_append, List.map_cons, if_pos rfl]
  unfold Names.inOrder
  have h0 := (Names.loaded_steps_ok n).2
  have hne : ∀ s ∈ stepNumbers n, (if s = 0 then Names.jobDir Param.central 0 else Names.jobDir par s) =
      Names.jobDir par s := fun s hs => if_neg (fun e : s = 0 => h0 (e ▸ hs))
  congr 1
  · exact List.map_congr_left (fun s hs => (hne s (List.mem_of_mem_take hs)).symm)
  · congr 1
    exact List.map_congr_left (fun s hs => (hne s (List.mem_of_mem_drop hs)).symm)

theorem dirs_spec (th : Theory K S) (store : Store K S) {c₀ : Coll K} {base : List K} {dvar : Str}
    {p : Par K} (hs : Setting c₀ base dvar p) (hm : p.method = Names.stem) {sp : Str → Int → Cls K}
    {dirs : List (Str × Cls K)} (hf : Finished th store (Param.loadStem c₀ base) base.length sp dirs) :
    dirs.lookup (Names.jobDir Param.central 0) = some (sp Param.central 0) ∧
    ∀ s ∈ stepNumbers base.length, dirs.lookup (Names.jobDir dvar s) = some (sp dvar s) := by
  obtain ⟨jobs, hj, hperm⟩ := hf.listed
  obtain ⟨_, g2, _, g4, _⟩ := Param.loaded c₀ hs.pos
  have hjobs : jobs = (Names.central, 0) ::
      Names.variations (Param.freePars (Param.loadStem c₀ base)) (stepNumbers base.length) := by
    unfold Names.angularJobs at hj
    rw [g2] at hj
    exact (Option.some.inj hj).symm
  obtain ⟨hnd, h0⟩ := Names.loaded_steps_ok base.length
  have hnames : ((Param.freePars (Param.loadStem c₀ base)).map (·.1)).Nodup := by
    unfold Param.freePars
    rw [g4]
    exact hs.nodup.sublist (List.filter_sublist.map _)
  have hndl : (dirs.map (·.1)).Nodup := by
    rw [(hperm.map (·.1)).nodup_iff, List.map_map, hjobs]
    exact (Names.jobs_spec _ hnames _ hnd h0).1
  have hin : ∀ d s, (d, s) ∈ jobs → dirs.lookup (Names.jobDir d s) = some (sp d s) := by
    intro d s h
    exact PyDict.lookup_of_mem dirs hndl (p := (Names.jobDir d s, sp d s))
      (hperm.mem_iff.mpr (List.mem_map.mpr ⟨(d, s), h, rfl⟩))
  refine ⟨hin _ _ (by rw [hjobs]; exact List.mem_cons_self), fun s h => hin _ _ ?_⟩
  rw [hjobs]
  refine List.mem_cons_of_mem _ ((Names.mem_variations _ _ _ _).mpr ⟨h, p, ?_, hm⟩)
  unfold Param.freePars
  rw [g4]
  exact List.mem_filter.mpr ⟨PyDict.mem_of_lookup hs.mem, hs.free⟩

theorem loadRows_finished (th : Theory K S) (store : Store K S) {c₀ : Coll K} {base : List K} {dvar : Str}
    {p : Par K} (hs : Setting c₀ base dvar p) (h0 : 0 < base.length) (h9 : base.length ≤ 9)
    (hm : p.method = Names.stem) {sp : Str → Int → Cls K} {dirs : List (Str × Cls K)}
    (hf : Finished th store (Param.loadStem c₀ base) base.length sp dirs) {key : Str × Str}
    (v : Int → Spec K) (hv : ∀ s ∈ allSteps base.length, (spectraAt sp dvar s).lookup key = some (v s)) :
    loadRows dirs dvar key = .ok ((allSteps base.length).map (fun s => (v s).vals)) := by
  obtain ⟨d0, ds⟩ := dirs_spec th store hs hm hf
  obtain ⟨jobs, hj, hperm⟩ := hf.listed
  obtain ⟨_, g2, _, g4, _⟩ := Param.loaded c₀ hs.pos
  have hcoll := Names.collect_in_order_partial (Param.loadStem c₀ base) (by rw [g4]; exact hs.nodup) h9 g2
    (by rw [g4]; exact hs.good) hj (listing := dirs.map (·.1)) (par := dvar) (p := p)
    (by have := hperm.map (·.1); rwa [List.map_map] at this)
    (by rw [g4]; exact PyDict.mem_of_lookup hs.mem) hs.free hm hs.notCentral
  unfold loadRows
  rw [hcoll]
  simp only
  rw [inOrder_eq, if_neg (by rw [List.length_map, length_allSteps]; omega)]
  rw [readDirs_map dirs (allSteps base.length) _ (spectraAt sp dvar)]
  · simp only
    exact rowsOf_map key _ _ v hv
  · intro s hmem
    unfold spectraAt
    by_cases hz : s = 0
    · rw [if_pos hz, if_pos hz]; exact d0
    · rw [if_neg hz, if_neg hz]
      exact ds s ((Param.mem_stepNumbers _ _).mpr ⟨hz, (mem_allSteps _ _).mp hmem⟩)

/-- C115 (partial). The derivative from the files of a finished run with up to nine displacements, with
respect to a parameter differentiated numerically which the spectrum can depend on: on the multipoles of
the fiducial spectrum, and for every entry the fit through the points (value of the parameter at a step,
entry of the spectrum of that step), in the order of the steps, whatever the order in which the
directories are listed.  Missing: more displacements. -/
theorem file_derivative_partial (th : Theory K S)
    (ana : Cosmo K S → Par K → Str × Str → Spec K → Except Err (List K)) (store : Store K S)
    {c₀ : Coll K} {base : List K} {dvar : Str} {p : Par K} (hs : Setting c₀ base dvar p)
    (h0 : 0 < base.length) (h9 : base.length ≤ 9) (hm : p.method = Names.stem)
    {sp : Str → Int → Cls K} {dirs : List (Str × Cls K)}
    (hf : Finished th store (Param.loadStem c₀ base) base.length sp dirs) {key : Str × Str}
    (hr : Relevant p key) {m : Nat} (hpos : 0 < m) (he : Entries sp dvar base.length key m) :
    ∃ fid, (sp Param.central 0).lookup key = some fid ∧
      evaluate ana store dirs (Param.loadStem c₀ base) p key =
        .ok (fid.ells, (List.range m).map (fun e => Stem.colLoop (points base p sp dvar key e))) := by
  obtain ⟨v, hv, hlen⟩ := he.choose
  have hz : (0 : Int) ∈ allSteps base.length := (mem_allSteps _ _).mpr (by simp)
  have hfid := hv 0 hz
  have hfid' : (sp Param.central 0).lookup key = some (v 0) := by
    unfold spectraAt at hfid; rwa [if_pos rfl] at hfid
  refine ⟨v 0, hfid', ?_⟩
  obtain ⟨d0, _⟩ := dirs_spec th store hs hm hf
  unfold evaluate loadFiducial
  simp only [hm, if_true, d0, hfid']
  rw [hs.name, loadRows_finished th store hs h0 h9 hm hf v hv]
  simp only
  rw [doStem_steps c₀ hs.pos hs.mem (fun s => (v s).vals) hpos hlen]
  unfold zeroOr
  rw [if_neg]
  · simp only
    congr 2
    apply List.map_congr_left
    intro e _
    unfold points
    congr 1
    apply List.map_congr_left
    intro s hsm
    unfold entry
    rw [hv s hsm]
    rfl
  · rintro ⟨h1, h2, h3⟩
    rcases hr with h | h | h
    · rw [h] at h1; cases h1
    · exact h2 h
    · exact h3 h

/-- C115 (partial). With respect to a nuisance parameter of another probe the derivative is zero. -/
theorem file_derivative_unrelated_partial (th : Theory K S)
    (ana : Cosmo K S → Par K → Str × Str → Spec K → Except Err (List K)) (store : Store K S)
    {c₀ : Coll K} {base : List K} {dvar : Str} {p : Par K} (hs : Setting c₀ base dvar p)
    (h0 : 0 < base.length) (h9 : base.length ≤ 9) (hm : p.method = Names.stem)
    {sp : Str → Int → Cls K} {dirs : List (Str × Cls K)}
    (hf : Finished th store (Param.loadStem c₀ base) base.length sp dirs) {key : Str × Str}
    (hr : ¬ Relevant p key) {m : Nat} (he : Entries sp dvar base.length key m) :
    ∃ fid, (sp Param.central 0).lookup key = some fid ∧
      evaluate ana store dirs (Param.loadStem c₀ base) p key = .ok (fid.ells, List.replicate m 0) := by
  obtain ⟨v, hv, hlen⟩ := he.choose
  have hz : (0 : Int) ∈ allSteps base.length := (mem_allSteps _ _).mpr (by simp)
  have hfid := hv 0 hz
  have hfid' : (sp Param.central 0).lookup key = some (v 0) := by
    unfold spectraAt at hfid; rwa [if_pos rfl] at hfid
  refine ⟨v 0, hfid', ?_⟩
  obtain ⟨d0, _⟩ := dirs_spec th store hs hm hf
  unfold evaluate loadFiducial
  simp only [hm, if_true, d0, hfid']
  rw [hs.name, loadRows_finished th store hs h0 h9 hm hf v hv]
  simp only
  unfold zeroOr
  unfold Relevant at hr
  push Not at hr
  have hk : p.kind = .nuisance := by
    cases hpk : p.kind with
    | cosmo => exact absurd hpk hr.1
    | nuisance => rfl
  rw [if_pos ⟨hk, hr.2.1, hr.2.2⟩]
  congr 2
  rw [List.map_const', hlen 0 hz]

/-- C115. If the number of directories of a parameter is not that of its steps, because a job is missing
or a directory is there twice, no derivative is computed. -/
theorem file_derivative_incomplete (ana : Cosmo K S → Par K → Str × Str → Spec K → Except Err (List K))
    (store : Store K S) (c₀ : Coll K) {base : List K} (hpos : ∀ x ∈ base, 0 < x) {p : Par K}
    (hm : p.method = Names.stem) (dirs : List (Str × Cls K)) {key : Str × Str} (hr : Relevant p key)
    (hn : ((dirs.map (·.1)).filter
      (fun d => (stripPrefix ("dvar_".toList ++ p.name ++ "_".toList) d).isSome)).length ≠ 2 * base.length) :
    ∃ e, evaluate ana store dirs (Param.loadStem c₀ base) p key = .error e := by
  unfold evaluate
  simp only [hm, if_true]
  cases hfid : loadFiducial dirs key with
  | error e => exact ⟨e, rfl⟩
  | ok fid =>
    simp only
    cases hrows : loadRows dirs p.name key with
    | error e => exact ⟨e, rfl⟩
    | ok rows =>
      simp only
      have hlen : rows.length ≠ 2 * base.length + 1 := by
        unfold loadRows at hrows
        cases hcoll : Names.collectVariations (dirs.map (·.1)) p.name with
        | none => rw [hcoll] at hrows; cases hrows
        | some l =>
          rw [hcoll] at hrows
          simp only at hrows
          split at hrows
          · cases hrows
          · have hl : l.length = ((dirs.map (·.1)).filter (fun d =>
                (stripPrefix ("dvar_".toList ++ p.name ++ "_".toList) d).isSome)).length + 1 := by
              unfold Names.collectVariations at hcoll
              simp only at hcoll
              split at hcoll
              · rw [← Option.some.inj hcoll]
                simp only [List.length_map, List.length_insertionSort, List.length_append,
                  List.length_singleton]
              · cases hcoll
            have hread : ∀ (l : List Str) cls, readDirs dirs l = .ok cls → cls.length = l.length := by
              intro l
              induction l with
              | nil => intro cls h; unfold readDirs at h; cases h; rfl
              | cons d l ih =>
                intro cls h
                unfold readDirs at h
                split at h
                · cases h
                · split at h
                  · cases h
                  · next hx => cases h; simp [ih _ hx]
            have hrow : ∀ (l : List (Cls K)) r, rowsOf key l = .ok r → r.length = l.length := by
              intro l
              induction l with
              | nil => intro r h; unfold rowsOf at h; cases h; rfl
              | cons d l ih =>
                intro r h
                unfold rowsOf at h
                split at h
                · cases h
                · split at h
                  · cases h
                  · next hx => cases h; simp [ih _ hx]
            cases hrd : readDirs dirs l with
            | error e => rw [hrd] at hrows; cases hrows
            | ok cls =>
              rw [hrd] at hrows
              rw [hrow _ _ hrows, hread _ _ hrd, hl]
              omega
      obtain ⟨e, he⟩ := doStem_wrong_number c₀ hpos p.name rows hlen
      rw [he]
      unfold zeroOr
      rw [if_neg]
      · exact ⟨e, rfl⟩
      · rintro ⟨h1, h2, h3⟩
        rcases hr with h | h | h
        · rw [h] at h1; cases h1
        · exact h2 h
        · exact h3 h

/-- Spectra of different sizes at two steps: no derivative. -/
theorem stack_ragged (c : Coll K) (name : Str) (rows : List (List K)) {x y : List K} (hx : x ∈ rows) (hy : y ∈ rows)
    (h : x.length ≠ y.length) : doStem c name rows = .error .valueError := by
  have : columns rows = .error .valueError := by
    unfold columns
    cases rows with
    | nil => rfl
    | cons r l =>
      simp only
      rw [if_neg]
      intro hall
      rw [List.all_eq_true] at hall
      have h1 := hall x hx
      have h2 := hall y hy
      rw [decide_eq_true_eq] at h1 h2
      exact h (h1.trans h2.symm)
  unfold doStem
  rw [this]

example : doStem (⟨[], none, none, none, none, none⟩ : Coll ℚ) [] [[1], [1, 2]] = .error .valueError :=
  stack_ragged _ _ _ (x := [1]) (y := [1, 2]) (by simp) (by simp) (by simp)

/-- C115. A method other than the numerical and the analytic one is refused. -/
theorem unknown_method (ana : Cosmo K S → Par K → Str × Str → Spec K → Except Err (List K))
    (store : Store K S) (c : Coll K) {p : Par K} (dirs : List (Str × Cls K)) (key : Str × Str)
    (h1 : p.method ≠ Names.stem) (h2 : p.method ≠ analytic) :
    evaluate ana store dirs c p key = .error .notImplemented := by
  unfold evaluate
  simp only [h1, if_false, h2]

/-- C115. With respect to an analytically differentiated parameter of another probe the derivative is zero,
and otherwise the analytic one; the spectra of the steps are not looked at. -/
theorem file_derivative_analytic (ana : Cosmo K S → Par K → Str × Str → Spec K → Except Err (List K))
    (store : Store K S) (c : Coll K) {p : Par K} (dirs : List (Str × Cls K)) (key : Str × Str)
    (hm : p.method = analytic) {cls : Cls K} {fid : Spec K} {cosmo : Cosmo K S}
    (hd : dirs.lookup (Names.jobDir Param.central 0) = some cls) (hk : cls.lookup key = some fid)
    (hc : store.lookup (Param.central, 0) = some cosmo) :
    (¬ Relevant p key → evaluate ana store dirs c p key = .ok (fid.ells, List.replicate fid.vals.length 0)) ∧
    (Relevant p key → ∀ l, evaluate ana store dirs c p key = .ok (fid.ells, l) ↔
      ana cosmo p key fid = .ok l) := by
  have hne : analytic ≠ Names.stem := by decide
  have he : evaluate ana store dirs c p key = zeroOr p key fid (ana cosmo p key fid) := by
    unfold evaluate loadFiducial
    simp only [hm, hne, if_false, if_true, hd, hk, hc]
  rw [he]
  unfold zeroOr Relevant
  refine ⟨fun hr => ?_, fun hr l => ?_⟩
  · push Not at hr
    have hkind : p.kind = .nuisance := by
      cases hpk : p.kind with
      | cosmo => exact absurd hpk hr.1
      | nuisance => rfl
    rw [if_pos ⟨hkind, hr.2.1, hr.2.2⟩, List.map_const']
  · rw [if_neg]
    · cases ana cosmo p key fid with
      | error e => simp
      | ok l' => simp
    · rintro ⟨h1, h2, h3⟩
      rcases hr with h | h | h
      · rw [h] at h1; cases h1
      · exact h2 h
      · exact h3 h

/-! ### Derivatives in one process -/

/-- The spectra of the steps computed in one process are those of the jobs. -/
theorem memLoop_spec (th : Theory K S) (store : Store K S) {c₀ : Coll K} {base : List K} {dvar : Str}
    {p : Par K} (hs : Setting c₀ base dvar p) (h9 : base.length ≤ 9)
    (hc : Param.loadStem c₀ base = Param.reset (Param.loadStem c₀ base))
    {fid : Cosmo K S} (hfid : store.lookup (Param.central, 0) = some fid) {sp : Str → Int → Cls K}
    (steps : List Int) (hsteps : ∀ s ∈ steps, s ∈ stepNumbers base.length)
    (hjobs : ∀ s ∈ stepNumbers base.length,
      clJob th store (Param.loadStem c₀ base) (Names.jobDir dvar s) = .ok (sp dvar s)) :
    memLoop th store fid dvar (Param.loadStem c₀ base) steps =
      (Param.loadStem c₀ base, .ok (steps.map (fun s => (s, sp dvar s)))) := by
  induction steps with
  | nil => rfl
  | cons s rest ih =>
    have hmem := PyDict.mem_of_lookup hs.mem
    have hsm := hsteps s List.mem_cons_self
    have hn := (Param.mem_stepNumbers _ _).mp hsm
    have hparse : Names.parseJobDir (Names.jobDir dvar s) = some (dvar, s) :=
      Names.jobDir_roundtrip_partial dvar (hs.good _ hmem) s (by omega)
    have hj := hjobs s hsm
    unfold clJob at hj
    rw [hparse] at hj
    simp only at hj
    unfold memLoop
    cases hu : Param.update (Param.loadStem c₀ base) dvar s with
    | mk c' r =>
      rw [hu] at hj
      cases r with
      | some e => cases hj
      | none =>
        simp only at hj ⊢
        cases hl : loadCosmology store c'.pars dvar s with
        | error e => rw [hl] at hj; cases hj
        | ok cosmo =>
          rw [hl] at hj
          simp only at hj ⊢
          cases hf : loadCosmology store c'.pars Param.central 0 with
          | error e => rw [hf] at hj; cases hj
          | ok fid' =>
            rw [hf] at hj
            have e := load_central store _ 0 hf
            rw [hfid] at e
            obtain rfl := Option.some.inj e
            simp only at hj
            have hr : Param.reset c' = Param.loadStem c₀ base := by
              have := Runner.reset_update (Param.loadStem c₀ base) dvar s
              rw [hu] at this
              exact this.trans hc.symm
            simp only [hj, hr, ih (fun x hx => hsteps x (List.mem_cons_of_mem _ hx)), List.map_cons]

theorem inStepOrder_eq (sp : Str → Int → Cls K) (dvar : Str) (n : Nat) :
    inStepOrder ((0, sp Param.central 0) :: (stepNumbers n).map (fun s => (s, sp dvar s))) =
      (allSteps n).map (spectraAt sp dvar) := by
  unfold inStepOrder
  have h0 := (Names.loaded_steps_ok n).2
  have : ((0, sp Param.central 0) :: (stepNumbers n).map (fun s => (s, sp dvar s))).insertionSort
      (fun a b => a.1 ≤ b.1) = (allSteps n).map (fun s => (s, spectraAt sp dvar s)) := by
    apply sort_keys'
    · have e : (0, sp Param.central 0) :: (stepNumbers n).map (fun s => (s, sp dvar s)) =
          (0 :: stepNumbers n).map (fun s => (s, spectraAt sp dvar s)) := by
        rw [List.map_cons]
        congr 1
        apply List.map_congr_left
        intro s hs
        unfold spectraAt
        rw [if_neg (fun e : s = 0 => h0 (e ▸ hs))]
      rw [e, allSteps_split]
      apply List.Perm.map
      have := (List.perm_middle (a := (0 : Int)) (l₁ := (stepNumbers n).take n)
        (l₂ := (stepNumbers n).drop n)).symm
      rwa [List.take_append_drop] at this
    · rw [List.map_map]
      have := allSteps_sorted n
      rwa [show ((fun x : Int × Cls K => x.1) ∘ fun s => (s, spectraAt sp dvar s)) = id from rfl,
        List.map_id]
  rw [this, List.map_map]
  rfl

/-- C115 (partial). The derivatives in one process, for seven displacements and a parameter whose spectra
are those of finished jobs, whatever its method: for every fiducial spectrum the fit through the same
points as from files; the parameters are left as they were.  Missing: other numbers of displacements, see
`mem_needs_seven`. -/
theorem mem_derivative_partial (th : Theory K S) (store : Store K S) {c₀ : Coll K} {base : List K}
    {dvar : Str} {p : Par K} (hs : Setting c₀ base dvar p) (h7 : base.length = 7)
    (hc : Param.loadStem c₀ base = Param.reset (Param.loadStem c₀ base))
    {fid : Cosmo K S} (hfid : store.lookup (Param.central, 0) = some fid) {sp : Str → Int → Cls K}
    (hjobs : ∀ s ∈ stepNumbers base.length,
      clJob th store (Param.loadStem c₀ base) (Names.jobDir dvar s) = .ok (sp dvar s))
    (m : Str × Str → Nat)
    (he : ∀ q ∈ sp Param.central 0, 0 < m q.1 ∧ Entries sp dvar base.length q.1 (m q.1)) :
    memDerivative th store fid (sp Param.central 0) (Param.loadStem c₀ base) dvar =
      (Param.loadStem c₀ base, .ok ((sp Param.central 0).map (fun q => (q.1, (q.2.ells,
        (List.range (m q.1)).map (fun e => Stem.colLoop (points base p sp dvar q.1 e))))))) := by
  unfold memDerivative
  rw [← h7, memLoop_spec th store hs (by omega) hc hfid _ (fun _ h => h) hjobs]
  simp only
  rw [inStepOrder_eq]
  congr 1
  suffices h : ∀ l : Cls K, (∀ q ∈ l, q ∈ sp Param.central 0) →
      memKeys (Param.loadStem c₀ base) dvar ((allSteps base.length).map (spectraAt sp dvar)) l =
      .ok (l.map (fun q => (q.1, (q.2.ells,
        (List.range (m q.1)).map (fun e => Stem.colLoop (points base p sp dvar q.1 e)))))) from
    h _ (fun _ h => h)
  intro l hl
  induction l with
  | nil => rfl
  | cons q l ih =>
    obtain ⟨key, f⟩ := q
    obtain ⟨hm, hent⟩ := he _ (hl _ List.mem_cons_self)
    obtain ⟨v, hv, hlen⟩ := hent.choose
    unfold memKeys
    rw [rowsOf_map key _ _ v hv]
    simp only
    rw [doStem_steps c₀ hs.pos hs.mem (fun s => (v s).vals) hm hlen]
    simp only [ih (fun q hq => hl q (List.mem_cons_of_mem _ hq)), List.map_cons]
    congr 4
    apply List.map_congr_left
    intro e _
    unfold points
    congr 1
    apply List.map_congr_left
    intro s hsm
    unfold entry
    rw [hv s hsm]
    rfl

/-- C115. With any other number of displacements the derivatives in one process are refused. -/
theorem mem_needs_seven (th : Theory K S) (store : Store K S) (fid : Cosmo K S) {fidCls : Cls K}
    (hne : fidCls ≠ []) (c₀ : Coll K) {base : List K} (hpos : ∀ x ∈ base, 0 < x) {dvar : Str}
    (hd : dvar ≠ Param.central) (h7 : base.length ≠ 7)
    (hc : Param.loadStem c₀ base = Param.reset (Param.loadStem c₀ base)) :
    ∃ c' e, memDerivative th store fid fidCls (Param.loadStem c₀ base) dvar = (c', .error e) := by
  unfold memDerivative
  cases hl : memLoop th store fid dvar (Param.loadStem c₀ base) (stepNumbers 7) with
  | mk c' r =>
    cases r with
    | error e => exact ⟨c', e, rfl⟩
    | ok l =>
      -- every successful loop leaves the parameters as they were, and gives one collection a step
      have hloop : ∀ (steps : List Int) c' l,
          memLoop th store fid dvar (Param.loadStem c₀ base) steps = (c', .ok l) →
          c' = Param.loadStem c₀ base ∧ l.length = steps.length ∧
          ∀ s ∈ steps, (Param.update (Param.loadStem c₀ base) dvar s).2 = none := by
        intro steps
        induction steps with
        | nil => intro c' l h; unfold memLoop at h; cases h; exact ⟨rfl, rfl, by simp⟩
        | cons s rest ih =>
          intro c' l h
          unfold memLoop at h
          cases hu : Param.update (Param.loadStem c₀ base) dvar s with
          | mk c₁ r₁ =>
            rw [hu] at h
            cases r₁ with
            | some e => cases h
            | none =>
              simp only at h
              cases hlc : loadCosmology store c₁.pars dvar s with
              | error e => rw [hlc] at h; cases h
              | ok cosmo =>
                rw [hlc] at h
                simp only at h
                cases ht : th cosmo fid c₁.pars with
                | error e => rw [ht] at h; cases h
                | ok cls =>
                  rw [ht] at h
                  simp only at h
                  have hr : Param.reset c₁ = Param.loadStem c₀ base := by
                    have := Runner.reset_update (Param.loadStem c₀ base) dvar s
                    rw [hu] at this
                    exact this.trans hc.symm
                  rw [hr] at h
                  cases hm : memLoop th store fid dvar (Param.loadStem c₀ base) rest with
                  | mk c₂ r₂ =>
                    rw [hm] at h
                    cases r₂ with
                    | error e => cases h
                    | ok l₂ =>
                      cases h
                      obtain ⟨i1, i2, i3⟩ := ih _ _ hm
                      refine ⟨i1, by simp [i2], fun x hx => ?_⟩
                      rcases List.mem_cons.mp hx with rfl | hx
                      · rw [hu]
                      · exact i3 x hx
      obtain ⟨rfl, hlen, hup⟩ := hloop _ _ _ hl
      simp only
      rcases Nat.lt_or_gt_of_ne h7 with hlt | hgt
      · -- step -7 does not exist
        exfalso
        have hnone := hup (-7) (by decide)
        cases hu : Param.update (Param.loadStem c₀ base) dvar (-7) with
        | mk c₁ r₁ =>
          rw [hu] at hnone
          simp only at hnone
          subst hnone
          obtain ⟨_, dict, eps, _, _, e3, e4, _⟩ := Param.update_effect hd hu
          obtain ⟨_, dict', _, hdict, _, _, _, _, _, hany⟩ := Param.stem_steps c₀ hpos
          rw [e3] at hdict
          obtain rfl := Option.some.inj hdict
          have := ((hany (-7)).mp (by rw [e4]; rfl)).2
          have h77 : (-7 : Int).natAbs = 7 := rfl
          omega
      · cases fidCls with
        | nil => exact absurd rfl hne
        | cons q rest =>
          obtain ⟨key, f⟩ := q
          suffices hx : ∃ e, memKeys (Param.loadStem c₀ base) dvar
              (inStepOrder ((0, (key, f) :: rest) :: l)) ((key, f) :: rest) = .error e by
            obtain ⟨e, he⟩ := hx
            exact ⟨_, e, by rw [he]⟩
          unfold memKeys
          cases hrow : rowsOf key (inStepOrder ((0, (key, f) :: rest) :: l)) with
          | error e => exact ⟨e, rfl⟩
          | ok rows =>
            have hrowlen : ∀ (l : List (Cls K)) r, rowsOf key l = .ok r → r.length = l.length := by
              intro l
              induction l with
              | nil => intro r h; unfold rowsOf at h; cases h; rfl
              | cons d l ih =>
                intro r h
                unfold rowsOf at h
                split at h
                · cases h
                · split at h
                  · cases h
                  · next hx => cases h; simp [ih _ hx]
            have h15 : rows.length = 15 := by
              rw [hrowlen _ _ hrow]
              unfold inStepOrder
              rw [List.length_map, List.length_insertionSort, List.length_cons, hlen]
              decide
            obtain ⟨e, he⟩ := doStem_wrong_number c₀ hpos dvar rows (by omega)
            exact ⟨e, by simp only [he]⟩

/-! ### Both ways -/

/-- C115 (partial). For seven displacements and a parameter differentiated numerically, the derivatives
from the files of a finished run and those computed in one process are the same for every spectrum that
can depend on the parameter, and for every other spectrum that does not change with it.  Missing: other
numbers of displacements, analytic derivatives (see `bias_derivative`), and spectra that change with a
nuisance parameter of another probe, which the two ways treat differently. -/
theorem routes_agree_partial (th : Theory K S)
    (ana : Cosmo K S → Par K → Str × Str → Spec K → Except Err (List K)) (store : Store K S)
    {c₀ : Coll K} {base : List K} {dvar : Str} {p : Par K} (hs : Setting c₀ base dvar p)
    (h7 : base.length = 7) (hm : p.method = Names.stem)
    (hc : Param.loadStem c₀ base = Param.reset (Param.loadStem c₀ base))
    {fid : Cosmo K S} (hfid : store.lookup (Param.central, 0) = some fid)
    {sp : Str → Int → Cls K} {dirs : List (Str × Cls K)}
    (hf : Finished th store (Param.loadStem c₀ base) base.length sp dirs)
    (hnd : ((sp Param.central 0).map (·.1)).Nodup) (m : Str × Str → Nat)
    (he : ∀ q ∈ sp Param.central 0, 0 < m q.1 ∧ Entries sp dvar base.length q.1 (m q.1))
    (hconst : ∀ q ∈ sp Param.central 0, ¬ Relevant p q.1 → ∀ s ∈ allSteps base.length,
      (spectraAt sp dvar s).lookup q.1 = some q.2) :
    ∃ d, fileDerivative ana store dirs (Param.loadStem c₀ base) ((sp Param.central 0).map (·.1)) dvar
        = .ok d ∧
      memDerivative th store fid (sp Param.central 0) (Param.loadStem c₀ base) dvar =
        (Param.loadStem c₀ base, .ok d) := by
  have hmemp := PyDict.mem_of_lookup hs.mem
  refine ⟨_, ?_, mem_derivative_partial th store hs h7 hc hfid
    (hf.steps _ (by rw [(Param.loaded c₀ hs.pos).2.2.2.1]; exact hmemp) hs.free hm) m he⟩
  unfold fileDerivative
  rw [(Param.loaded c₀ hs.pos).2.2.2.1, hs.mem]
  simp only
  suffices h : ∀ l : Cls K, (∀ q ∈ l, q ∈ sp Param.central 0) →
      evaluateKeys ana store dirs (Param.loadStem c₀ base) p (l.map (·.1)) =
      .ok (l.map (fun q => (q.1, (q.2.ells,
        (List.range (m q.1)).map (fun e => Stem.colLoop (points base p sp dvar q.1 e)))))) from
    h _ (fun _ h => h)
  intro l hl
  induction l with
  | nil => rfl
  | cons q l ih =>
    obtain ⟨key, f⟩ := q
    have hq := hl _ List.mem_cons_self
    obtain ⟨hm0, hent⟩ := he _ hq
    have hkey : (sp Param.central 0).lookup key = some f :=
      PyDict.lookup_of_mem _ hnd (p := (key, f)) hq
    have hone : evaluate ana store dirs (Param.loadStem c₀ base) p key = .ok (f.ells,
        (List.range (m key)).map (fun e => Stem.colLoop (points base p sp dvar key e))) := by
      by_cases hr : Relevant p key
      · obtain ⟨f', h1, h2⟩ := file_derivative_partial th ana store hs (by omega) (by omega) hm hf hr hm0
          hent
        rw [hkey] at h1
        obtain rfl := Option.some.inj h1
        exact h2
      · obtain ⟨f', h1, h2⟩ := file_derivative_unrelated_partial th ana store hs (by omega) (by omega) hm hf
          hr hent
        rw [hkey] at h1
        obtain rfl := Option.some.inj h1
        rw [h2]
        congr 2
        rw [List.eq_replicate_iff.mpr ⟨(by simp : ((List.range (m key)).map
          (fun e => Stem.colLoop (points base p sp dvar key e))).length = m key), ?_⟩]
        intro x hx
        obtain ⟨e, _, rfl⟩ := List.mem_map.mp hx
        refine Stem.colLoop_const (a := f.vals.getD e 0) ?_ ?_
        · intro hnil
          have := congrArg List.length hnil
          unfold points at this
          rw [List.length_map, length_allSteps] at this
          simp at this
        · intro q hq'
          obtain ⟨s, hsm, rfl⟩ := List.mem_map.mp hq'
          simp only [entry, hconst _ hq hr s hsm]
          rfl
    simp only [List.map_cons, evaluateKeys, hone, ih (fun q hq => hl q (List.mem_cons_of_mem _ hq))]

/-! ### Spectra that are powers of the parameter -/

/-- C115. If an entry of the spectra is a polynomial of degree two in the displacement of the parameter
from its fiducial value, the fit gives its derivative at the fiducial value exactly, however many points
are discarded. -/
theorem quadratic_exact {base : List K} (hpos : ∀ x ∈ base, 0 < x) (h0 : 0 < base.length) {p : Par K}
    (hst : p.stem ≠ 0) (sp : Str → Int → Cls K) (dvar : Str) (key : Str × Str) (e : Nat) (a b q : K)
    (h : ∀ s ∈ allSteps base.length, entry (spectraAt sp dvar s) key e =
      a + b * (valueAt base p s - p.fiducial) + q * (valueAt base p s - p.fiducial) ^ 2) :
    Stem.colLoop (points base p sp dvar key e) = b := by
  have hodd : ∀ s, valueAt base p (-s) - p.fiducial = -(valueAt base p s - p.fiducial) := by
    intro s
    unfold valueAt
    rw [dispAt_neg]
    split
    · next hz => rw [hz]; ring
    · ring
  have hne : ∀ s ∈ allSteps base.length, s ≠ 0 → valueAt base p s - p.fiducial ≠ 0 := by
    intro s hs hs0
    have hd := dispAt_ne base hpos hs0 ((mem_allSteps _ _).mp hs)
    unfold valueAt
    split
    · next hz => rw [hz, sub_zero]; exact mul_ne_zero hd hst
    · next hz =>
      rw [show p.fiducial * (1 + dispAt base s * p.stem) - p.fiducial =
        p.fiducial * (dispAt base s * p.stem) by ring]
      exact mul_ne_zero hz (mul_ne_zero hd hst)
  have := colLoop_parabola base.length h0 (fun s => valueAt base p s - p.fiducial) hodd hne p.fiducial a b q
  rw [← this]
  unfold points
  congr 1
  apply List.map_congr_left
  intro s hs
  rw [h s hs]
  simp only [add_sub_cancel, Prod.mk.injEq, true_and]
  ring

/-- How often a bias value of bin `k` of a probe enters the entry `(i, j)` of a spectrum. -/
def power (probe : Str) (key : Str × Str) (k i j : Nat) : Nat :=
  (if probe = key.1 ∧ i = k then 1 else 0) + (if probe = key.2 ∧ j = k then 1 else 0)

/-- C115. The bias of bin `k`, constant in the bin, enters the entry `(i, j)` of a spectrum as a factor for
each of the two probes and bins that are its own.  The numerical derivative is then exactly the analytic
one, so that it does not matter that the computation in one process does not use the latter. -/
theorem bias_derivative {base : List K} (hpos : ∀ x ∈ base, 0 < x) (h0 : 0 < base.length) {p : Par K}
    (hst : p.stem ≠ 0) (hb : p.fiducial ≠ 0) (sp : Str → Int → Cls K) (dvar : Str)
    (st : Stem.Setting) (e k l i j : Nat) (c : Nat → Nat → Nat → K)
    (h : ∀ s ∈ allSteps base.length, entry (spectraAt sp dvar s) (st.p1, st.p2) e =
      c l i j * (valueAt base p s / p.fiducial) ^ power st.probe (st.p1, st.p2) k i j) :
    Stem.colLoop (points base p sp dvar (st.p1, st.p2) e) = Stem.constantEntry st k p.fiducial c l i j := by
  have hpow : Stem.constantEntry st k p.fiducial c l i j =
      (power st.probe (st.p1, st.p2) k i j : K) / p.fiducial * c l i j := by
    unfold Stem.constantEntry Stem.deltaTerm power
    by_cases h1 : st.probe = st.p1 <;> by_cases h2 : st.probe = st.p2 <;> by_cases hi : i = k <;>
      by_cases hj : j = k <;>
      simp only [h1, h2, hi, hj, if_true, if_false, decide_true, decide_false, and_true, and_false,
        true_and, false_and, Bool.false_eq_true] <;> push_cast <;> ring_nf <;> simp_all <;> ring
  rw [hpow]
  have hcases : power st.probe (st.p1, st.p2) k i j = 0 ∨ power st.probe (st.p1, st.p2) k i j = 1 ∨
      power st.probe (st.p1, st.p2) k i j = 2 := by
    unfold power
    split <;> split <;> simp
  rcases hcases with hn | hn | hn
  · refine (quadratic_exact hpos h0 hst sp dvar _ e (c l i j) 0 0 ?_).trans ?_
    · intro s hs; rw [h s hs, hn]; ring
    · rw [hn]; simp
  · refine (quadratic_exact hpos h0 hst sp dvar _ e (c l i j) (c l i j / p.fiducial) 0 ?_).trans ?_
    · intro s hs; rw [h s hs, hn]; field_simp; ring
    · rw [hn]; push_cast; ring
  · refine (quadratic_exact hpos h0 hst sp dvar _ e (c l i j) (2 * c l i j / p.fiducial)
      (c l i j / p.fiducial ^ 2) ?_).trans ?_
    · intro s hs; rw [h s hs, hn]; field_simp; ring
    · rw [hn]; push_cast; ring

/-! ### A run -/

/-- A run with one cosmological parameter and a theory in which the spectrum is its square. -/
def hPar : Par ℚ :=
  ⟨"h".toList, 67 / 100, 67 / 100, .cosmo, none, true, false, 1 / 100, [], [], Names.stem⟩

def hColl : Coll ℚ := ⟨[("h".toList, hPar)], none, none, none, none, none⟩

def hBase : List ℚ := [1, 2, 3, 4, 5, 6, 7]

def hKey : Str × Str := ("a".toList, "a".toList)

def hTheory : Theory ℚ Unit := fun _ _ pars =>
  match pars.lookup "h".toList with
  | none => .error .theory
  | some p => .ok [(hKey, ⟨[1], [p.current * p.current]⟩)]

def hStore : Store ℚ Unit :=
  ((Param.central, 0), ⟨[], ()⟩) :: (stepNumbers 7).map (fun s => (("h".toList, s), ⟨[], ()⟩))

def hSp (d : Str) (s : Int) : Cls ℚ :=
  match clJob hTheory hStore (Param.loadStem hColl hBase) (Names.jobDir d s) with
  | .ok cls => cls
  | .error _ => []

def isOk (r : Except Err (Cls ℚ)) : Bool :=
  match r with
  | .ok _ => true
  | .error _ => false

theorem hSp_ok {d : Str} {s : Int}
    (h : isOk (clJob hTheory hStore (Param.loadStem hColl hBase) (Names.jobDir d s)) = true) :
    clJob hTheory hStore (Param.loadStem hColl hBase) (Names.jobDir d s) = .ok (hSp d s) := by
  unfold hSp
  cases hx : clJob hTheory hStore (Param.loadStem hColl hBase) (Names.jobDir d s) with
  | error e => rw [hx] at h; cases h
  | ok cls => rfl

def hDirs : List (Str × Cls ℚ) :=
  (((Names.angularJobs (Param.loadStem hColl hBase)).getD []).map
    (fun q => (Names.jobDir q.1 q.2, hSp q.1 q.2))).reverse

theorem hSetting : Setting hColl hBase "h".toList hPar :=
  ⟨by decide +kernel, by decide, by decide, by decide +kernel, rfl, rfl, by decide⟩

theorem hFinished : Finished hTheory hStore (Param.loadStem hColl hBase) hBase.length hSp hDirs := by
  refine ⟨hSp_ok (by decide +kernel), ?_, ?_⟩
  · intro q hq _ _ s hs
    have hq' : q = ("h".toList, hPar) := by
      have : q ∈ [("h".toList, hPar)] := hq
      simpa using this
    rw [hq']
    have hall : (stepNumbers 7).all (fun s => isOk (clJob hTheory hStore (Param.loadStem hColl hBase)
        (Names.jobDir "h".toList s))) = true := by decide +kernel
    exact hSp_ok (List.all_eq_true.mp hall s hs)
  · cases hj : Names.angularJobs (Param.loadStem hColl hBase) with
    | none =>
      have : (Names.angularJobs (Param.loadStem hColl hBase)).isSome = true := by decide +kernel
      rw [hj] at this
      cases this
    | some jobs =>
      refine ⟨jobs, rfl, ?_⟩
      unfold hDirs
      rw [hj]
      exact List.reverse_perm _

def hasOne (s : Int) : Bool :=
  match (spectraAt hSp "h".toList s).lookup hKey with
  | some t => decide (t.vals.length = 1)
  | none => false

theorem hEntries : Entries hSp "h".toList hBase.length hKey 1 := by
  have hall : (allSteps 7).all hasOne = true := by decide +kernel
  intro s hs
  have := List.all_eq_true.mp hall s hs
  unfold hasOne at this
  cases hx : (spectraAt hSp "h".toList s).lookup hKey with
  | none => rw [hx] at this; cases this
  | some t => rw [hx] at this; exact ⟨t, rfl, of_decide_eq_true this⟩

/-- In this run the derivative from files exists and is twice the fiducial value. -/
example : ∃ ells, evaluate (fun _ _ _ _ => .error .notImplemented) hStore hDirs
    (Param.loadStem hColl hBase) hPar hKey = .ok (ells, [2 * (67 / 100)]) := by
  obtain ⟨fid, _, h⟩ := file_derivative_partial hTheory (fun _ _ _ _ => .error .notImplemented) hStore
    hSetting (by decide) (by decide) rfl hFinished (Or.inl rfl) (by decide) hEntries
  refine ⟨fid.ells, ?_⟩
  rw [h]
  have hq : Stem.colLoop (points hBase hPar hSp "h".toList hKey 0) = 2 * (67 / 100) := by
    refine quadratic_exact (by decide +kernel) (by decide) (by decide +kernel) hSp "h".toList hKey 0
      ((67 / 100) ^ 2) (2 * (67 / 100)) 1 ?_
    have hall : (allSteps 7).all (fun s => decide (entry (spectraAt hSp "h".toList s) hKey 0 =
        (67 / 100) ^ 2 + 2 * (67 / 100) * (valueAt hBase hPar s - hPar.fiducial) +
          1 * (valueAt hBase hPar s - hPar.fiducial) ^ 2)) = true := by decide +kernel
    intro s hs
    exact of_decide_eq_true (List.all_eq_true.mp hall s hs)
  rw [show List.range 1 = [0] from rfl, List.map_cons, List.map_nil, hq]

/-- Concrete case of `load_unknown`: the file of `h` holds a parameter `w0` which the collection lacks. -/
example : loadCosmology [(("h".toList, (2 : Int)), (⟨[("w0".toList, hPar)], ()⟩ : Cosmo ℚ Unit))] [("h".toList, hPar)] "h".toList 2 =
    .error .keyError :=
  load_unknown _ (p := hPar) (cosmo := ⟨[("w0".toList, hPar)], ()⟩) (q := ("w0".toList, hPar)) (by decide +kernel)
    (by decide +kernel) 2 rfl (.head _) (by decide +kernel) (by decide +kernel)

end Seyfert.ClDer
