import Verif.Lemmas.ForecastLoad

/-!
C112: the parameters and probes of a forecast are those that the configuration file declares.

`Lists j ps`: the file `j` has the entries `ps`, each under the alias of its probe.  `declared j ps` are the parameters
declared in the file in order, `lastOf` the last one of a name (specification).
-/

namespace Seyfert.FLoad

open Param (Par Args Coll construct)
open Keys (Probe)

variable {K : Type} [Field K] [LinearOrder K]

theorem load_iff (isFile : Str → Bool) {j : Json K} {ps : List (Probe × PDict K)} (hj : Lists j ps)
    (r : Coll K × Forecast K) : load isFile j fresh = .ok r ↔ Readable isFile j ps ∧
      r = ({ Param.loadStem ⟨[], none, none, none, none, j.flat⟩ j.base with
              pars := collOf (PyDict.ofItems (listed j.cosmo)) ((on ps).map (fun q => (q, []))) },
        ⟨(on ps).map (fun q => (q.1.name .long, { cfgOf q with nuis := nuisOf [] q })),
          Config.combosWR ((on ps).map (fun q => q.1.name .long)), j.shot⟩) := by
  have hcfg : PyDict.update ([] : Dict Str (PCfg K)) ((on ps).map (fun q => (q.1.name .long, cfgOf q)))
      = (on ps).map (fun q => (q.1.name .long, cfgOf q)) := by
    rw [PyDict.update_nodup [] _ (by simpa using long_nodup .long cfgOf (on_nodup hj.2)), List.nil_append]
  have hsame : ((on ps).map (fun q => (q, ([] : Dict Str (Par K))))).map
        (fun x => (x.1.1.name .long, { cfgOf x.1 with nuis := x.2 }))
      = (on ps).map (fun q => (q.1.name .long, cfgOf q)) := by
    rw [List.map_map]
    apply List.map_congr_left
    intro q _
    simp only [Function.comp, cfgOf]
    split <;> rfl
  have hkeys : ((on ps).map (fun q => (q.1.name .long, cfgOf q))).map (·.1) = (on ps).map (fun q => q.1.name .long) := by
    rw [List.map_map]; rfl
  unfold load
  cases hp : loadProbes isFile j fresh with
  | error e =>
    simp only
    constructor
    · intro h; cases h
    · rintro ⟨⟨h1, _, h3⟩, _⟩
      have := (loadProbes_iff isFile hj fresh _).mpr ⟨fun q hq => (h3 q hq).1, h1, rfl⟩
      rw [hp] at this; cases this
  | ok f =>
    obtain ⟨h1, h2, hf⟩ := (loadProbes_iff isFile hj fresh f).mp hp
    have hfc : f.cfgs = (on ps).map (fun q => (q.1.name .long, cfgOf q)) := by
      rw [hf]; exact hcfg
    simp only [loadPars]
    cases hm : mapE named j.cosmo with
    | error e =>
      simp only
      constructor
      · intro h; cases h
      · rintro ⟨⟨_, h, _⟩, _⟩
        have := (mapE_named j.cosmo _).mpr ⟨h, rfl⟩
        rw [hm] at this; cases this
    | ok items =>
      obtain ⟨h3, rfl⟩ := (mapE_named _ _).mp hm
      have hup : PyDict.update [] (PyDict.ofItems (listed j.cosmo)) = PyDict.ofItems (listed j.cosmo) := by
        rw [PyDict.update_nodup [] _ (by simpa using ofItems_keys_nodup (listed j.cosmo)), List.nil_append]
      have key := fun r => probePars_iff hj ((on ps).map (fun q => (q, ([] : Dict Str (Par K)))))
        (by
          intro x hx
          obtain ⟨q, hq, rfl⟩ := List.mem_map.mp hx
          exact (List.mem_filter.mp hq).1) (PyDict.ofItems (listed j.cosmo)) r
      rw [hsame, ← hfc] at key
      simp only [hup]
      cases hr : probePars j.probes f.cfgs (PyDict.ofItems (listed j.cosmo)) with
      | error e =>
        simp only
        constructor
        · intro h; cases h
        · rintro ⟨⟨_, _, h⟩, _⟩
          have := (key _).mpr ⟨by
            intro x hx
            obtain ⟨q, hq, rfl⟩ := List.mem_map.mp hx
            exact (h q hq).2, rfl⟩
          rw [hr] at this; cases this
      | ok r' =>
        obtain ⟨h4, rfl⟩ := (key r').mp hr
        simp only
        have hfin : (⟨((on ps).map (fun q => (q, ([] : Dict Str (Par K))))).map
              (fun x => (x.1.1.name .long, { cfgOf x.1 with nuis := nuisOf x.2 x.1 })), f.combos, f.shot⟩ : Forecast K)
            = ⟨(on ps).map (fun q => (q.1.name .long, { cfgOf q with nuis := nuisOf [] q })),
                Config.combosWR ((on ps).map (fun q => q.1.name .long)), j.shot⟩ := by
          rw [hf]
          change (⟨_, Config.combosWR ((PyDict.update [] _).map (·.1)), j.shot.or none⟩ : Forecast K) = _
          rw [hcfg, hkeys, Option.or_none, List.map_map]
          rfl
        rw [hfin]
        constructor
        · intro h
          cases h
          refine ⟨⟨h2, h3, fun q hq => ⟨h1 q hq, h4 (q, []) (List.mem_map.mpr ⟨q, hq, rfl⟩)⟩⟩, rfl⟩
        · rintro ⟨_, rfl⟩
          rfl

/-- C112. A configuration file with known probes is read exactly if the shot noise file, if named, exists, and all
multipole grids of the probes switched on, all cosmological parameters and all extra parameters of the probes switched
on are acceptable; what is wrong in the entry of a probe switched off does not matter. -/
theorem load_ok_iff (isFile : Str → Bool) {j : Json K} {ps : List (Probe × PDict K)} (hj : Lists j ps) :
    (∃ r, load isFile j fresh = .ok r) ↔ Readable isFile j ps := by
  constructor
  · rintro ⟨r, h⟩
    exact ((load_iff isFile hj r).mp h).1
  · intro h
    exact ⟨_, (load_iff isFile hj _).mpr ⟨h, rfl⟩⟩

/-- C112. The probes of the forecast are those switched on, under their long names, in the order of the file, with the
multipoles of their entries; the combinations are all pairs of them; the shot noise file is the one named. -/
theorem load_probes {isFile : Str → Bool} {j : Json K} {ps : List (Probe × PDict K)} (hj : Lists j ps) {c : Coll K}
    {f : Forecast K} (h : load isFile j fresh = .ok (c, f)) :
    f.cfgs.map (·.1) = (on ps).map (fun q => q.1.name .long) ∧
      f.combos = Config.combosWR ((on ps).map (fun q => q.1.name .long)) ∧ f.shot = j.shot ∧
      ∀ q ∈ on ps, ∃ p, f.cfgs.lookup (q.1.name .long) = some p ∧ q.2.grid = .ok (p.centers, p.widths) := by
  obtain ⟨hr, he⟩ := (load_iff isFile hj _).mp h
  injection he with _ he
  subst he
  refine ⟨by rw [List.map_map]; rfl, rfl, rfl, ?_⟩
  intro q hq
  refine ⟨{ cfgOf q with nuis := nuisOf [] q }, ?_, ?_⟩
  · exact PyDict.lookup_of_mem (p := (q.1.name .long, { cfgOf q with nuis := nuisOf [] q })) _
      (long_nodup .long (fun q => { cfgOf q with nuis := nuisOf [] q }) (on_nodup hj.2)) (List.mem_map.mpr ⟨q, hq, rfl⟩)
  · obtain ⟨g, hg⟩ := (hr.2.2 q hq).1
    unfold cfgOf
    rw [hg]
    by_cases hl : q.1 = .lensing
    · simp only [hl, if_true]
    · simp only [hl, if_false]

/-- C112. A name denotes the last parameter of that name declared in the file (cosmological parameters, then the bias
parameters and extra parameters of each probe switched on); names that are not declared are not in the collection. -/
theorem load_lookup {isFile : Str → Bool} {j : Json K} {ps : List (Probe × PDict K)} (hj : Lists j ps) {c : Coll K}
    {f : Forecast K} (h : load isFile j fresh = .ok (c, f)) :
    (∀ k, c.pars.lookup k = lastOf (declared j ps) k) ∧ (c.pars.map (·.1)).Nodup := by
  obtain ⟨_, he⟩ := (load_iff isFile hj _).mp h
  injection he with he _
  subst he
  refine ⟨?_, ?_⟩
  · intro k
    change (collOf _ _).lookup k = _
    rw [lookup_collOf, lookup_ofItems, lastOf, declared, lookup_append_rev]
  · exact collOf_nodup _ (ofItems_keys_nodup _) _

/-- C112. If no name is declared twice, the collection is exactly what is declared, in order. -/
theorem load_exact {isFile : Str → Bool} {j : Json K} {ps : List (Probe × PDict K)} (hj : Lists j ps) {c : Coll K}
    {f : Forecast K} (h : load isFile j fresh = .ok (c, f)) (hn : ((declared j ps).map (·.1)).Nodup) :
    c.pars = declared j ps := by
  obtain ⟨_, he⟩ := (load_iff isFile hj _).mp h
  injection he with he _
  subst he
  change collOf _ _ = _
  have h1 : ((listed j.cosmo).map (·.1)).Nodup := by
    unfold declared at hn
    rw [List.map_append] at hn; exact hn.of_append_left
  rw [PyDict.ofItems_nodup _ h1]
  exact collOf_exact _ _ hn

/-- C112. Flatness and displacements are those of the file, whatever the parameters. -/
theorem load_steps {isFile : Str → Bool} {j : Json K} {ps : List (Probe × PDict K)} (hj : Lists j ps) {c : Coll K}
    {f : Forecast K} (h : load isFile j fresh = .ok (c, f)) :
    c.flat = j.flat ∧ c.disps = some ((j.base.map (fun x => -x) ++ j.base).insertionSort (· ≤ ·)) ∧
      c.steps = some (Param.stepNumbers j.base.length) := by
  obtain ⟨_, he⟩ := (load_iff isFile hj _).mp h
  injection he with he _
  subst he
  exact ⟨rfl, rfl, rfl⟩

/-- C112. Each entry of the bias file of a probe switched on is a nuisance parameter of that probe with this fiducial
value, free exactly if the bias is marginalised over, and with the derivative method of the configuration. -/
theorem load_bias {isFile : Str → Bool} {j : Json K} {ps : List (Probe × PDict K)} (hj : Lists j ps) {c : Coll K}
    {f : Forecast K} (h : load isFile j fresh = .ok (c, f)) (hn : ((declared j ps).map (·.1)).Nodup)
    {q : Probe × PDict K} (hq : q ∈ ps) (hon : q.2.present = true) (hl : q.1 ≠ .lensing) {m : Bool}
    (hm : q.2.marg = some m) {k : Str} {v : K} (hk : (k, v) ∈ q.2.bias) :
    ∃ p, c.pars.lookup k = some p ∧ p.name = k ∧ p.fiducial = v ∧ p.current = v ∧ p.kind = .nuisance ∧
      p.probe = some (q.1.name .long) ∧ (p.free = true ↔ m = true) ∧
      (∀ d, q.2.diff = some d → p.method = d) ∧ (q.2.diff = none → p.method = "SteM".toList) := by
  have he := load_exact hj h hn
  refine ⟨biasPar q.1 m q.2.diff (k, v), ?_, rfl, rfl, rfl, rfl, rfl, Iff.rfl, ?_, ?_⟩
  · rw [he]
    refine PyDict.lookup_of_mem (p := (k, biasPar q.1 m q.2.diff (k, v))) _ hn ?_
    refine List.mem_append_right _ (List.mem_flatMap.mpr ⟨q, List.mem_filter.mpr ⟨hq, hon⟩, ?_⟩)
    refine List.mem_append_left _ ?_
    unfold biasPars
    rw [if_neg hl, hm]
    exact List.mem_map.mpr ⟨(k, v), hk, rfl⟩
  · intro d hd
    simp only [biasPar, hd]; rfl
  · intro hd
    simp only [biasPar, hd]; rfl

/-- C112. A nuisance parameter of a probe comes from the entry of a probe switched on, and one from a bias file names
the probe whose entry it is in. -/
theorem load_nuisance {isFile : Str → Bool} {j : Json K} {ps : List (Probe × PDict K)} (hj : Lists j ps) {c : Coll K}
    {f : Forecast K} (h : load isFile j fresh = .ok (c, f)) {k : Str} {p : Par K} (hk : c.pars.lookup k = some p) :
    (k, p) ∈ listed j.cosmo ∨ ∃ q ∈ on ps, (k, p) ∈ listed (q.2.extra.getD []) ∨
      (k, p) ∈ biasPars q ∧ p.probe = some (q.1.name .long) := by
  rw [(load_lookup hj h).1] at hk
  have := PyDict.mem_of_lookup hk
  rw [List.mem_reverse] at this
  rcases List.mem_append.mp this with h | h
  · exact .inl h
  · obtain ⟨q, hq, h⟩ := List.mem_flatMap.mp h
    refine .inr ⟨q, hq, ?_⟩
    rcases List.mem_append.mp h with h | h
    · refine .inr ⟨h, ?_⟩
      unfold biasPars at h
      split at h
      · cases h
      · split at h
        · cases h
        · obtain ⟨kv, _, e⟩ := List.mem_map.mp h
          injection e with _ e
          rw [← e]; rfl
    · exact .inl h

/-- C112. The configuration of a probe holds the parameters declared in its entry. -/
theorem load_probe_nuisance {isFile : Str → Bool} {j : Json K} {ps : List (Probe × PDict K)} (hj : Lists j ps)
    {c : Coll K} {f : Forecast K} (h : load isFile j fresh = .ok (c, f)) {q : Probe × PDict K} (hq : q ∈ on ps) :
    ∃ p, f.cfgs.lookup (q.1.name .long) = some p ∧ (p.nuis.map (·.1)).Nodup ∧
      (∀ k, p.nuis.lookup k = lastOf (probeDeclared q) k) ∧
      (((probeDeclared q).map (·.1)).Nodup → p.nuis = probeDeclared q) := by
  obtain ⟨_, he⟩ := (load_iff isFile hj _).mp h
  injection he with _ he
  subst he
  refine ⟨{ cfgOf q with nuis := nuisOf [] q }, ?_, nuisOf_nodup [] (by simp) q, ?_, nuisOf_exact q⟩
  · exact PyDict.lookup_of_mem (p := (q.1.name .long, { cfgOf q with nuis := nuisOf [] q })) _
      (long_nodup .long (fun q => { cfgOf q with nuis := nuisOf [] q }) (on_nodup hj.2)) (List.mem_map.mpr ⟨q, hq, rfl⟩)
  · intro k
    rw [lookup_nuisOf, lastOf]
    simp

/-- C112. The nuisance parameters of a probe that are varied: those of its bias file exactly if the bias is marginalised
over (never for lensing), and the extra ones that are declared free. -/
theorem load_varied {isFile : Str → Bool} {j : Json K} {ps : List (Probe × PDict K)} (hj : Lists j ps)
    {c : Coll K} {f : Forecast K} (h : load isFile j fresh = .ok (c, f)) {q : Probe × PDict K} (hq : q ∈ on ps)
    (hn : ((probeDeclared q).map (·.1)).Nodup) :
    ∃ p, f.cfgs.lookup (q.1.name .long) = some p ∧ presentNuis p =
      (if q.1 ≠ .lensing ∧ q.2.marg = some true then q.2.bias.map (fun kv => (kv.1, biasPar q.1 true q.2.diff kv))
        else []) ++ (listed (q.2.extra.getD [])).filter (fun x => x.2.free) := by
  obtain ⟨p, hp, _, _, he⟩ := load_probe_nuisance hj h hq
  refine ⟨p, hp, ?_⟩
  unfold presentNuis
  rw [he hn, probeDeclared, List.filter_append]
  congr 1
  unfold biasPars
  by_cases hl : q.1 = .lensing
  · simp [hl]
  · simp only [hl, if_false, ne_eq, not_false_eq_true, true_and]
    cases hm : q.2.marg with
    | none => simp
    | some m =>
      cases m with
      | true => simp [List.filter_map, Function.comp_def, biasPar]
      | false => simp [List.filter_map, Function.comp_def, biasPar]

/-- C112. When the cosmological entries are of that kind and each extra entry is a nuisance parameter of its own probe,
the nuisance parameters the collection gives for a probe are those declared in its entry, in order; for a probe that is
not switched on there are none. -/
theorem load_nuisance_for {isFile : Str → Bool} {j : Json K} {ps : List (Probe × PDict K)} (hj : Lists j ps)
    {c : Coll K} {f : Forecast K} (h : load isFile j fresh = .ok (c, f)) (hn : ((declared j ps).map (·.1)).Nodup)
    (hc : ∀ x ∈ listed j.cosmo, x.2.kind ≠ .nuisance)
    (he : ∀ q ∈ on ps, ∀ x ∈ listed (q.2.extra.getD []), x.2.kind = .nuisance ∧ x.2.probe = some (q.1.name .long)) :
    (∀ q ∈ on ps, nuisFor c (q.1.name .long) = probeDeclared q) ∧
    ∀ n, (∀ q ∈ on ps, q.1.name .long ≠ n) → nuisFor c n = [] := by
  have own : ∀ q ∈ on ps, ∀ x ∈ probeDeclared q, x.2.kind = .nuisance ∧ x.2.probe = some (q.1.name .long) := by
    intro q hq x hx
    rcases List.mem_append.mp hx with hx | hx
    · unfold biasPars at hx
      split at hx
      · cases hx
      · split at hx
        · cases hx
        · obtain ⟨kv, _, rfl⟩ := List.mem_map.mp hx
          exact ⟨rfl, rfl⟩
    · exact he q hq x hx
  have cut : ∀ n, nuisFor c n = (on ps).flatMap fun q => if q.1.name .long = n then probeDeclared q else [] := by
    intro n
    unfold nuisFor
    rw [load_exact hj h hn, declared, List.filter_append, List.filter_eq_nil_iff.mpr, List.nil_append,
      List.filter_flatMap]
    · apply List.flatMap_congr
      intro q hq
      split
      · rename_i e
        rw [List.filter_eq_self]
        intro x hx
        obtain ⟨h1, h2⟩ := own q hq x hx
        simp [h1, h2, e]
      · rename_i e
        rw [List.filter_eq_nil_iff]
        intro x hx
        obtain ⟨h1, h2⟩ := own q hq x hx
        simp [h1, h2, e]
    · intro x hx
      simp [hc x hx]
  refine ⟨fun q hq => ?_, fun n hno => ?_⟩
  · rw [cut]
    have nd : ((on ps).map fun q => q.1.name .long).Nodup := by
      have := long_nodup .long (fun _ => ()) (on_nodup hj.2)
      rw [List.map_map] at this
      exact this
    have key : ∀ l : List (Probe × PDict K), (l.map fun q => q.1.name .long).Nodup → q ∈ l →
        (l.flatMap fun q' => if q'.1.name .long = q.1.name .long then probeDeclared q' else []) = probeDeclared q := by
      intro l
      induction l with
      | nil => intro _ h; cases h
      | cons a l ih =>
        intro hnd hm
        rw [List.map_cons, List.nodup_cons] at hnd
        rw [List.flatMap_cons]
        rcases List.mem_cons.mp hm with rfl | hm
        · rw [if_pos rfl, List.flatMap_eq_nil_iff.mpr, List.append_nil]
          intro q' hq'
          rw [if_neg]
          intro e
          exact hnd.1 (by rw [← e]; exact List.mem_map_of_mem hq')
        · rw [if_neg, List.nil_append, ih hnd.2 hm]
          intro e
          exact hnd.1 (by rw [e]; exact List.mem_map_of_mem hm)
    exact key _ nd hq
  · rw [cut, List.flatMap_eq_nil_iff]
    intro q hq
    rw [if_neg (hno q hq)]

/-- C112. Reading the same file again into the same object gives the same collection and the same configuration. -/
theorem load_twice {isFile : Str → Bool} {j : Json K} {ps : List (Probe × PDict K)} (hj : Lists j ps) {c : Coll K}
    {f : Forecast K} (h : load isFile j fresh = .ok (c, f)) : load isFile j f = .ok (c, f) := by
  obtain ⟨hr, he⟩ := (load_iff isFile hj _).mp h
  have hf : f = (⟨(on ps).map (fun q => (q.1.name .long, { cfgOf q with nuis := nuisOf [] q })),
          Config.combosWR ((on ps).map (fun q => q.1.name .long)), j.shot⟩ : Forecast K) := by
    injection he
  have h2 := (loadProbes_iff isFile hj f _).mpr ⟨fun q hq => (hr.2.2 q hq).1, hr.1, rfl⟩
  have h1 := (loadProbes_iff isFile hj fresh _).mpr ⟨fun q hq => (hr.2.2 q hq).1, hr.1, rfl⟩
  have hup : PyDict.update f.cfgs ((on ps).map (fun q => (q.1.name .long, cfgOf q)))
      = PyDict.update fresh.cfgs ((on ps).map (fun q => (q.1.name .long, cfgOf q))) := by
    rw [update_same, update_nodup_nil]
    · rw [hf]; simp only [List.map_map]; rfl
    · exact long_nodup .long cfgOf (on_nodup hj.2)
  have hs : j.shot.or f.shot = j.shot.or (fresh : Forecast K).shot := by
    rw [hf]
    cases j.shot <;> rfl
  rw [hup, hs] at h2
  unfold load at h ⊢
  rw [h1] at h
  rw [h2]
  exact h
where
  update_nodup_nil : PyDict.update (fresh : Forecast K).cfgs ((on ps).map (fun q => (q.1.name .long, cfgOf q)))
      = (on ps).map (fun q => (q.1.name .long, cfgOf q)) := by
    change PyDict.update [] _ = _
    rw [PyDict.update_nodup [] _ (by simpa using long_nodup .long cfgOf (on_nodup hj.2)), List.nil_append]

omit [Field K] [LinearOrder K] in
/-- C112. Reading another file into the same object: the probes it switches on are replaced, but those that were there
and that it does not switch on stay, and so does a shot noise file when it names none. -/
theorem reload_keeps {isFile : Str → Bool} {j : Json K} {ps : List (Probe × PDict K)} (hj : Lists j ps)
    {f f' : Forecast K} (h : loadProbes isFile j f = .ok f') :
    (∀ k, k ∉ (on ps).map (fun q => q.1.name .long) → f'.cfgs.lookup k = f.cfgs.lookup k) ∧
      (∀ q ∈ on ps, ∃ p, f'.cfgs.lookup (q.1.name .long) = some p ∧ q.2.grid = .ok (p.centers, p.widths)) ∧
      (j.shot = none → f'.shot = f.shot) := by
  obtain ⟨h1, h2, he⟩ := (loadProbes_iff isFile hj f f').mp h
  subst he
  have hn := long_nodup .long cfgOf (on_nodup hj.2)
  have hk : ((on ps).map (fun q => (q.1.name .long, cfgOf q))).map (·.1) = (on ps).map (fun q => q.1.name .long) := by
    rw [List.map_map]; rfl
  refine ⟨?_, ?_, ?_⟩
  · intro k hk'
    change (PyDict.update _ _).lookup k = _
    rw [PyDict.lookup_update, PyDict.lookup_reverse _ hn, (PyDict.lookup_none_iff _ k).mpr (by rw [hk]; exact hk'),
      Option.none_or]
  · intro q hq
    refine ⟨cfgOf q, ?_, ?_⟩
    · change (PyDict.update _ _).lookup _ = _
      rw [PyDict.lookup_update, PyDict.lookup_reverse _ hn,
        PyDict.lookup_of_mem (p := (q.1.name .long, cfgOf q)) _ hn (List.mem_map.mpr ⟨q, hq, rfl⟩)]
      rfl
    · obtain ⟨g, hg⟩ := h1 q hq
      unfold cfgOf
      rw [hg]
      by_cases hl : q.1 = .lensing
      · simp only [hl, if_true]
      · simp only [hl, if_false]
  · intro hs
    change j.shot.or f.shot = f.shot
    rw [hs]; rfl

/-! ### Cases -/

/-- An entry with the given bias file and extra parameters. -/
def entry (on : Bool) (bias : Dict Str ℚ) (extra : List (Args ℚ)) : PDict ℚ :=
  ⟨on, .ok ([10, 20], [1, 1]), bias, some true, none, some extra⟩

def extraPar (name probe : Str) (v : ℚ) : Args ℚ :=
  ⟨name, v, none, "NuisanceParameter".toList, some probe, true, 1, [], "None".toList, "SteM".toList⟩

def cosmoPar (name : Str) (v : ℚ) : Args ℚ :=
  ⟨name, v, none, "CosmologicalParameter".toList, none, true, 1, [], "None".toList, "SteM".toList⟩

/-- A file with the given entries. -/
def file (ps : List (Probe × PDict ℚ)) : Json ℚ :=
  ⟨ps.map (fun q => (q.1.name .alias, q.2)), [cosmoPar "h".toList (67 / 100), cosmoPar "ns".toList (96 / 100)],
    some true, [1 / 100], none⟩

/-- The names, fiducial values and probes of the collection read from a file. -/
def result (j : Json ℚ) : Option (List (Str × ℚ × Option Str)) :=
  match load (fun _ => false) j fresh with
  | .error _ => none
  | .ok r => some (r.1.pars.map (fun q => (q.1, q.2.fiducial, q.2.probe)))

def photo : Str := "PhotometricGalaxy".toList
def spectro : Str := "SpectroscopicGalaxy".toList
def aIA : Str := "aIA".toList
def bA : Str := "b0".toList
def bB : Str := "c0".toList

/-- Three probes, one of them switched off. -/
def ps0 : List (Probe × PDict ℚ) :=
  [(.lensing, entry true [(bA, 5)] [extraPar aIA lensing 2]), (.photo, entry true [(bA, 3)] []),
    (.spectro, entry false [(bB, 4)] [])]

/-- The hypotheses of the theorems hold for this file, with distinct names. -/
example : Lists (file ps0) ps0 ∧ ((declared (file ps0) ps0).map (·.1)).Nodup ∧
    result (file ps0) = some [("h".toList, 67 / 100, none), ("ns".toList, 96 / 100, none), (aIA, 2, some lensing),
      (bA, 3, some photo)] := by
  refine ⟨⟨rfl, by decide⟩, by decide +kernel, by decide +kernel⟩

/-- Those of `load_nuisance_for` too. -/
example : (∀ x ∈ listed (file ps0).cosmo, x.2.kind ≠ .nuisance) ∧
    ∀ q ∈ on ps0, ∀ x ∈ listed (q.2.extra.getD []), x.2.kind = .nuisance ∧ x.2.probe = some (q.1.name .long) := by
  constructor <;> decide +kernel

/-- A file that switches the two others on instead. -/
example : (match loadProbes (fun _ => false) (file ps0) fresh with
    | .error _ => none
    | .ok f => some f.combos) = some [(lensing, lensing), (lensing, photo), (photo, photo)] := by decide +kernel

/-- C112 fails without distinct names: two probes whose bias files use the same name share one parameter, and the first
probe is left without it. -/
theorem collision_loses : ∃ (ps : List (Probe × PDict ℚ)), Lists (file ps) ps ∧
    (∀ q ∈ on ps, q.2.bias.map (·.1) = [bA]) ∧ ps.map (·.1) = [.photo, .spectro] ∧
    result (file ps) = some [("h".toList, 67 / 100, none), ("ns".toList, 96 / 100, none), (bA, 4, some spectro)] :=
  ⟨[(.photo, entry true [(bA, 3)] []), (.spectro, entry true [(bA, 4)] [])], ⟨rfl, by decide⟩, by decide +kernel, rfl,
    by decide +kernel⟩

/-- An extra parameter with the name of a cosmological parameter replaces it, in its place. -/
theorem extra_replaces_cosmological :
    result (file [(.lensing, entry true [] [extraPar "h".toList lensing 2])])
      = some [("h".toList, 2, some lensing), ("ns".toList, 96 / 100, none)] := by decide +kernel

/-- An extra parameter listed under one probe may name another probe, even one that is switched off. -/
theorem extra_other_probe :
    result (file [(.lensing, entry true [] [extraPar aIA spectro 2]), (.spectro, entry false [] [])])
      = some [("h".toList, 67 / 100, none), ("ns".toList, 96 / 100, none), (aIA, 2, some spectro)] := by decide +kernel

/-- An entry under the long name of a probe is refused when there is none under its alias, and otherwise the entry
under the alias is read in its place, even if that one is switched off. -/
theorem long_name_entry :
    (load (fun _ => false) { file [] with probes := [(lensing, entry true [] [])] } fresh).toOption.isNone = true ∧
    result { file [] with probes := [(lensing, entry true [] [extraPar aIA lensing 2]),
        ("WL".toList, entry false [] [extraPar aIA lensing 7])] }
      = some [("h".toList, 67 / 100, none), ("ns".toList, 96 / 100, none), (aIA, 7, some lensing)] := by
  constructor <;> decide +kernel

/-- Reading a second file into the same object keeps the probes of the first, and reads their parameters from the
second file although it switches them off. -/
theorem stale_probe : ∃ (j1 j2 : Json ℚ) (ps1 ps2 : List (Probe × PDict ℚ)), Lists j1 ps1 ∧ Lists j2 ps2 ∧
    on ps2 = ps2.filter (fun q => decide (q.1 = .photo)) ∧
    (match load (fun _ => false) j1 fresh with
      | .error _ => none
      | .ok r => match load (fun _ => false) j2 r.2 with
        | .error _ => none
        | .ok r => some (r.1.pars.map (·.1), r.2.combos))
      = some (["h".toList, "ns".toList, aIA, bA], [(lensing, lensing), (lensing, photo), (photo, photo)]) :=
  ⟨file [(.lensing, entry true [] [])],
    file [(.lensing, entry false [] [extraPar aIA lensing 2]), (.photo, entry true [(bA, 3)] [])], _, _,
    ⟨rfl, by decide⟩, ⟨rfl, by decide⟩, rfl, by decide +kernel⟩

end Seyfert.FLoad
