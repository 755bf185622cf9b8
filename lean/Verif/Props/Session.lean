import Verif.Spec.Session
import Verif.Props.Workspace

/-!
C132: what the objects of the class `Seyfert` compute, for every history of calls.
-/

namespace Seyfert.Sess

open Work (Path Loc Tree Disk copyInputs createInputs inputContent mkdirOk prepareDirs existsAt write inputDirName paramsName)

variable {C F P M G D B Q S : Type}

/-! ### Effects of the single steps -/

/-- Writing the input files changes files in the directory of copies and the input dictionary only. -/
theorem putInputs_effect (run : Path) (srcs : List (Str × Path)) (params : C) (data : DataArg)
    (s : State C F P M D B Q) :
    (putInputs run srcs params data s).1.objs = s.objs ∧ (putInputs run srcs params data s).1.store = s.store ∧
    (putInputs run srcs params data s).1.next = s.next ∧ (putInputs run srcs params data s).1.niz = s.niz ∧
    (putInputs run srcs params data s).1.tree = s.tree ∧
    ∀ q, ¬ InCopies run q → (putInputs run srcs params data s).1.file q = s.file q := by
  cases data with
  | path p =>
    unfold putInputs
    dsimp only
    refine ⟨rfl, rfl, rfl, rfl, rfl, fun q hq => ?_⟩
    exact (Work.inputs_frame run srcs params p ⟨s.file, s.inputs run⟩).1 q hq
  | text p =>
    have ho := Work.copy_outside run srcs s.file []
    unfold putInputs
    dsimp only
    cases h : copyInputs run s.file [] srcs with
    | mk fs r =>
      rw [h] at ho
      cases r with
      | error e => exact ⟨rfl, rfl, rfl, rfl, rfl, fun q hq => ho q hq⟩
      | ok m =>
        refine ⟨rfl, rfl, rfl, rfl, rfl, fun q hq => ?_⟩
        dsimp only
        rw [Work.write_ne _ _ (fun e => hq ⟨paramsName, e⟩)]
        exact ho q hq

theorem setObj_objs (s : State C F P M D B Q) (i : Nat) (o : Obj F P M D B Q) (j : Nat) :
    (setObj s i o).objs j = if j = i then some o else s.objs j := rfl

section Names

variable {C : Type} {site : Site} {file : Path → Option C} {homes : Path → Prop} {r : Path} {c : Conf C} {a : Args}

theorem runDir_iff : runDir site a = some r ↔ InDir site a r := by
  unfold runDir InDir
  cases a.test with
  | true =>
    rw [if_pos rfl]
    exact ⟨fun h => .inl ⟨rfl, (Option.some.inj h).symm⟩, fun h => h.elim (fun h => by rw [h.2]) (fun h => nomatch h.1)⟩
  | false =>
    rw [if_neg nofun]
    exact ⟨fun h => .inr ⟨rfl, h⟩, fun h => h.elim (fun h => nomatch h.1) (fun h => h.2)⟩

theorem Names.run (h : Names site file homes r c a) : runDir site a = some r := runDir_iff.mpr h.inDir

theorem Names.data (h : Names site file homes r c a) : dataOf site a = .path c.data := by
  unfold dataOf
  rcases h.dataIn with e | ⟨e, e2⟩
  · rw [e]; rfl
  · rw [e, e2]; rfl

theorem sources_files : (sources site a).map (·.2) = files site a := rfl

theorem Names.distinct (h : Names site file homes r c a) : ((sources site a).map (fun s => Work.name s.2)).Nodup := by
  have := h.apart
  rw [← sources_files, List.map_map] at this
  exact this

theorem mem_files {x : Str × Path} (hx : x ∈ sources site a) : x.2 ∈ files site a := by
  rw [← sources_files]
  exact List.mem_map_of_mem hx

theorem Names.noParams (h : Names site file homes r c a) : ∀ s ∈ sources site a, Work.name s.2 ≠ paramsName :=
  fun _ hs => h.notParams _ (mem_files hs)

theorem Names.outside (h : Names site file homes r c a) : ∀ s ∈ sources site a, ∀ r, homes r → ¬ InCopies r s.2 :=
  fun _ hs => h.away _ (mem_files hs)

end Names

/-- The task of every source reads the file named for it, when the input files could be written. -/
theorem taskConfig_eq (lib : Lib C F P M G D B Q S) {site : Site} {homes : Path → Prop} {r : Path} {c : Conf C} {a : Args}
    (s : State C F P M D B Q) (params : C) (hn : Names site s.file homes r c a)
    (hok : (putInputs r (sources site a) params (dataOf site a) s).2 = none) (t : Tree) :
    let s' := { (putInputs r (sources site a) params (dataOf site a) s).1 with tree := t }
    taskConfig lib s' r "PowerSpectrum".toList = lib.config "PowerSpectrum".toList c.powerSpectrum ∧
    taskConfig lib s' r "Angular".toList = lib.config "Angular".toList c.angular ∧
    taskConfig lib s' r "Derivative".toList = lib.config "Derivative".toList c.derivative ∧
    taskConfig lib s' r "Fisher".toList = lib.config "Fisher".toList c.fisher := by
  rw [hn.data] at hok ⊢
  unfold putInputs at hok ⊢
  dsimp only at hok ⊢
  have hok' : (createInputs r (sources site a) params c.data ⟨s.file, s.inputs r⟩).2 = none := by
    cases h : (createInputs r (sources site a) params c.data ⟨s.file, s.inputs r⟩).2 with
    | none => rfl
    | some e => rw [h] at hok; cases hok
  have hkeys : (sources site a).map (·.1) = ["forecast".toList, "PowerSpectrum".toList, "Angular".toList,
      "Derivative".toList, "Fisher".toList] := rfl
  have hk : ((sources site a).map (·.1)).Nodup := by rw [hkeys]; decide +kernel
  have hp : "params".toList ∉ (sources site a).map (·.1) := by rw [hkeys]; decide +kernel
  have hd : "input_data_dir".toList ∉ (sources site a).map (·.1) := by rw [hkeys]; decide +kernel
  have key := Work.inputs_kept_partial r (sources site a) params c.data ⟨s.file, s.inputs r⟩ hk hp hd hn.distinct
    hn.noParams hok' _ (fun q _ => rfl)
  have each : ∀ x ∈ sources site a, taskConfig lib (C := C) (F := F) (P := P) (D := D) (B := B) (Q := Q)
      ({ s with
          file := (createInputs r (sources site a) params c.data ⟨s.file, s.inputs r⟩).1.file
          inputs := fun q => if q = r then (createInputs r (sources site a) params c.data ⟨s.file, s.inputs r⟩).1.dict
            else s.inputs q
          tree := t }) r x.1 = (s.file x.2).bind (lib.config x.1) := by
    intro x hx
    have := key x hx
    unfold taskConfig
    dsimp only
    rw [if_pos rfl]
    exact congrArg (fun z => Option.bind z (lib.config x.1)) this
  have m1 : (("PowerSpectrum".toList, a.powerSpectrum.getD (site.cfg ++ ["power_spectrum_config.json".toList])) : Str × Path)
      ∈ sources site a := by unfold sources; exact .tail _ (.head _)
  have m2 : (("Angular".toList, a.angular.getD (site.cfg ++ ["angular_config.json".toList])) : Str × Path)
      ∈ sources site a := by unfold sources; exact .tail _ (.tail _ (.head _))
  have m3 : (("Derivative".toList, a.derivative.getD (site.cfg ++ ["derivative_config.json".toList])) : Str × Path)
      ∈ sources site a := by unfold sources; exact .tail _ (.tail _ (.tail _ (.head _)))
  have m4 : (("Fisher".toList, a.fisher.getD (site.cfg ++ ["fisher_config.json".toList])) : Str × Path)
      ∈ sources site a := by unfold sources; exact .tail _ (.tail _ (.tail _ (.tail _ (.head _))))
  refine ⟨(each _ m1).trans ?_, (each _ m2).trans ?_, (each _ m3).trans ?_, (each _ m4).trans ?_⟩ <;> dsimp only
  · rw [hn.powerSpectrum]; rfl
  · rw [hn.angular]; rfl
  · rw [hn.derivative]; rfl
  · rw [hn.fisher]; rfl

/-- The object after a preparation: cosmology and densities are kept, the settings are those from before or those of the
configuration. -/
structure Prepared (lib : Lib C F P M G D B Q S) (r : Path) (c : Conf C) (o o' : Obj F P M D B Q) : Prop where
  args : o'.args = o.args
  cosmo : o'.cosmo = o.cosmo
  dens : o'.dens = o.dens
  ws : o'.ws = o.ws ∨ o'.ws = some r
  fcfg : o'.fcfg = o.fcfg ∨ o'.fcfg = c.f lib
  rest : (o'.pmm = o.pmm ∧ o'.cl = o.cl ∧ o'.pars = o.pars) ∨
    (o'.pmm = c.pmm lib ∧ o'.cl = c.cl lib ∧ o'.pars = c.p lib)

/-- What a preparation changes. -/
theorem prepare_effect (lib : Lib C F P M G D B Q S) {site : Site} {homes : Path → Prop} {r : Path} {c : Conf C} (i : Nat)
    (o : Obj F P M D B Q) (s : State C F P M D B Q) (hi : s.objs i = some o)
    (hn : Names site s.file homes r c (s.store o.args)) :
    let s' := (prepare lib site i o s).1
    s'.store = s.store ∧ s'.next = s.next ∧ s'.niz = s.niz ∧ (∀ q, ¬ InCopies r q → s'.file q = s.file q) ∧
    ∃ o', (∀ j, s'.objs j = if j = i then some o' else s.objs j) ∧ Prepared lib r c o o' ∧
      ((prepare lib site i o s).2 = none → o'.ws = some r ∧ o'.fcfg = c.f lib ∧ o'.pmm = c.pmm lib ∧ o'.cl = c.cl lib ∧
        o'.pars = c.p lib) := by
  have hself : ∀ j, s.objs j = if j = i then some o else s.objs j := by
    intro j; split
    · next h => rw [h, hi]
    · rfl
  have hf : (s.file (forecastSource site (s.store o.args))).bind
      (fun x => lib.forecast x (dataOf site (s.store o.args)).dir) = c.f lib := by
    rw [show forecastSource site (s.store o.args) = (s.store o.args).forecast.getD
      (site.cfg ++ ["basic_forecast_config.json".toList]) from rfl, hn.forecast, hn.data]; rfl
  unfold prepare
  dsimp only
  rw [hf]
  cases h1 : c.f lib with
  | none =>
    dsimp only
    exact ⟨rfl, rfl, rfl, fun _ _ => rfl, o, hself, ⟨rfl, rfl, rfl, .inl rfl, .inl rfl, .inl ⟨rfl, rfl, rfl⟩⟩, nofun⟩
  | some f =>
    dsimp only
    cases h2 : lib.params f with
    | none =>
      dsimp only
      exact ⟨rfl, rfl, rfl, fun _ _ => rfl, _, fun j => rfl,
        ⟨rfl, rfl, rfl, .inl rfl, .inr h1.symm, .inl ⟨rfl, rfl, rfl⟩⟩, nofun⟩
    | some p =>
      dsimp only
      rw [hn.run]
      dsimp only
      have hobj : ∀ (x : State C F P M D B Q) (o1 o2 : Obj F P M D B Q) j,
          (setObj (setObj x i o1) i o2).objs j = if j = i then some o2 else x.objs j := by
        intro x o1 o2 j
        rw [setObj_objs, setObj_objs]
        split <;> rfl
      cases h3 : mkdirOk (setObj (setObj s i { o with fcfg := some f }) i { o with fcfg := some f, ws := some r }).tree r with
      | mk t e =>
        cases e with
        | some e =>
          dsimp only
          exact ⟨rfl, rfl, rfl, fun _ _ => rfl, _, hobj _ _ _,
            ⟨rfl, rfl, rfl, .inr rfl, .inr h1.symm, .inl ⟨rfl, rfl, rfl⟩⟩, nofun⟩
        | none =>
          dsimp only
          generalize hs1 : ({ setObj (setObj s i { o with fcfg := some f }) i { o with fcfg := some f, ws := some r } with
            tree := t } : State C F P M D B Q) = s1
          have e1 : s1.store = s.store := by rw [← hs1]; rfl
          have e2 : s1.next = s.next := by rw [← hs1]; rfl
          have e3 : s1.niz = s.niz := by rw [← hs1]; rfl
          have e4 : s1.file = s.file := by rw [← hs1]; rfl
          have e5 : ∀ j, s1.objs j = if j = i then some { o with fcfg := some f, ws := some r } else s.objs j := by
            intro j; rw [← hs1]; exact hobj s _ _ j
          obtain ⟨g1, g2, g3, g4, g5, g6⟩ := putInputs_effect r (sources site (s.store o.args)) (lib.paramsText p)
            (dataOf site (s.store o.args)) s1
          have hn1 : Names site s1.file homes r c (s.store o.args) := by rw [e4]; exact hn
          have hc := taskConfig_eq lib s1 (lib.paramsText p) hn1
          cases h4 : putInputs r (sources site (s.store o.args)) (lib.paramsText p) (dataOf site (s.store o.args)) s1 with
          | mk s2 e =>
            rw [h4] at g1 g2 g3 g4 g5 g6 hc
            dsimp only at g1 g2 g3 g4 g5 g6 hc
            cases e with
            | some e =>
              dsimp only
              exact ⟨g2.trans e1, g3.trans e2, g4.trans e3, fun q hq => (g6 q hq).trans (by rw [e4]),
                _, fun j => (congrFun g1 j).trans (e5 j),
                ⟨rfl, rfl, rfl, .inr rfl, .inr h1.symm, .inl ⟨rfl, rfl, rfl⟩⟩, nofun⟩
            | none =>
              dsimp only
              cases h5 : prepareDirs r (s.store o.args).pmmDir (s.store o.args).clDir (s.store o.args).derDir s2.tree with
              | mk t2 e =>
                cases e with
                | some e =>
                  dsimp only
                  exact ⟨g2.trans e1, g3.trans e2, g4.trans e3, fun q hq => (g6 q hq).trans (by rw [e4]),
                    _, fun j => (congrFun g1 j).trans (e5 j),
                    ⟨rfl, rfl, rfl, .inr rfl, .inr h1.symm, .inl ⟨rfl, rfl, rfl⟩⟩, nofun⟩
                | none =>
                  dsimp only
                  obtain ⟨c1, c2, c3, c4⟩ := hc rfl t2
                  split
                  · next m1 m2 m3 m4 q1 q2 q3 q4 =>
                    refine ⟨g2.trans e1, g3.trans e2, g4.trans e3, fun q hq => (g6 q hq).trans (by rw [e4]),
                      { o with fcfg := some f, ws := some r, pmm := some m1, cl := some m2, der := some m3, fish := some m4, pars := some p },
                      fun j => ?_,
                      ⟨rfl, rfl, rfl, .inr rfl, .inr h1.symm, .inr ?_⟩, fun _ => ⟨rfl, rfl, ?_⟩⟩
                    · rw [setObj_objs]
                      split
                      · rfl
                      · next hj => exact (congrFun g1 j).trans ((e5 j).trans (if_neg hj))
                    · exact ⟨q1.symm.trans c1, q2.symm.trans c2, by unfold Conf.p; rw [h1]; exact h2.symm⟩
                    · exact ⟨q1.symm.trans c1, q2.symm.trans c2, by unfold Conf.p; rw [h1]; exact h2.symm⟩
                  · exact ⟨g2.trans e1, g3.trans e2, g4.trans e3, fun q hq => (g6 q hq).trans (by rw [e4]),
                      _, fun j => (congrFun g1 j).trans (e5 j),
                      ⟨rfl, rfl, rfl, .inr rfl, .inr h1.symm, .inl ⟨rfl, rfl, rfl⟩⟩, nofun⟩

/-! The calls, one by one. -/

theorem step_new (lib : Lib C F P M G D B Q S) (site : Site) (s : State C F P M D B Q) (i : Nat) (a : Args) :
    step lib site s (.new i (some a)) = (setObj
      { s with store := fun j => if j = s.next then a else s.store j, next := s.next + 1 } i { args := s.next }, .ok none) := rfl

theorem step_none (lib : Lib C F P M G D B Q S) (site : Site) (s : State C F P M D B Q) (i : Nat) (hi : s.objs i = none) :
    (∀ a, step lib site s (.setArgs i a) = (s, .error .noObject)) ∧ step lib site s (.prepare i) = (s, .error .noObject) ∧
    (∀ p f, step lib site s (.cosmology i p f) = (s, .error .noObject)) ∧
    step lib site s (.densities i) = (s, .error .noObject) ∧ step lib site s (.cls i) = (s, .error .noObject) ∧
    (∀ k, step lib site s (.killPrepare i k) = (s, .error .noObject)) ∧
    (∀ k, step lib site s (.killDensities i k) = (s, .error .noObject)) := by
  refine ⟨fun a => ?_, ?_, fun p f => ?_, ?_, ?_, fun k => ?_, fun k => ?_⟩ <;> simp only [step, hi]

/-- The result of a method: an exception or nothing. -/
def outcome (e : Option Err) : Except Err (Option S) :=
  match e with
  | none => .ok none
  | some e => .error e

theorem step_some (lib : Lib C F P M G D B Q S) (site : Site) (s : State C F P M D B Q) (i : Nat) (o : Obj F P M D B Q)
    (hi : s.objs i = some o) :
    (∀ a, step lib site s (.setArgs i a) = ({ s with store := fun j => if j = o.args then a else s.store j }, .ok none)) ∧
    step lib site s (.prepare i) = ((prepare lib site i o s).1, outcome (prepare lib site i o s).2) ∧
    (∀ p f, step lib site s (.cosmology i p f) = ((cosmology lib p f i o s).1, outcome (cosmology lib p f i o s).2)) ∧
    step lib site s (.densities i) = ((densities lib i o s).1, outcome (densities lib i o s).2) ∧
    step lib site s (.cls i) = (s, (computeCls lib o).map some) ∧
    (∀ k, step lib site s (.killPrepare i k) = (reborn { s with file := cutPrepare site k o s }, .ok none)) ∧
    (∀ k, step lib site s (.killDensities i k) = (reborn { s with niz := cutDensities lib k o s }, .ok none)) := by
  refine ⟨fun a => ?_, ?_, fun p f => ?_, ?_, ?_, fun k => ?_, fun k => ?_⟩
  · simp only [step, hi]
  · simp only [step, hi]
    cases prepare lib site i o s with
    | mk s' e => cases e <;> rfl
  · simp only [step, hi]
    cases cosmology lib p f i o s with
    | mk s' e => cases e <;> rfl
  · simp only [step, hi]
    cases densities lib i o s with
    | mk s' e => cases e <;> rfl
  · simp only [step, hi]
  · simp only [step, hi]
  · simp only [step, hi]

/-- The table of densities has the density of every probe. -/
theorem densityTable_lookup (lib : Lib C F P M G D B Q S) (file : Path → Option C) (g : G) :
    ∀ (l : List (Str × Path)) (t : Dict Str D), densityTable lib file g l = some t → ∀ n,
      t.lookup n = (l.lookup n).bind fun x => (file x).bind fun c => lib.density c g
  | [], t, h, n => by
    unfold densityTable at h
    cases h; rfl
  | (k, x) :: l, t, h, n => by
    unfold densityTable at h
    cases hd : (file x).bind (fun c => lib.density c g) with
    | none => rw [hd] at h; cases h
    | some d =>
      rw [hd] at h
      dsimp only at h
      cases ht : densityTable lib file g l with
      | none => rw [ht] at h; cases h
      | some t' =>
        rw [ht] at h
        cases h
        have ih := densityTable_lookup lib file g l t' ht n
        rw [List.lookup_cons, List.lookup_cons]
        cases hb : n == k with
        | true => exact hd.symm
        | false => exact ih

theorem densityTable_congr (lib : Lib C F P M G D B Q S) (f f' : Path → Option C) (g : G) :
    ∀ (l : List (Str × Path)), (∀ x ∈ l, f x.2 = f' x.2) → densityTable lib f g l = densityTable lib f' g l
  | [], _ => rfl
  | (k, x) :: l, h => by
    unfold densityTable
    rw [show f x = f' x from h (k, x) (.head _), densityTable_congr lib f f' g l (fun y hy => h y (.tail _ hy))]

/-- What is right about an object with run directory `r` and configuration `c`. -/
structure Right (lib : Lib C F P M G D B Q S) (file : Path → Option C) (r : Path) (c : Conf C) (o : Obj F P M D B Q) :
    Prop where
  ws : ∀ r', o.ws = some r' → r' = r
  fcfg : ∀ f, o.fcfg = some f → c.f lib = some f
  pmm : ∀ m, o.pmm = some m → c.pmm lib = some m
  cl : ∀ m, o.cl = some m → c.cl lib = some m
  pars : ∀ p, o.pars = some p → c.p lib = some p
  cosmo : ∀ b q, o.cosmo = some (b, q) → ∃ p m, c.p lib = some p ∧ c.pmm lib = some m ∧
    lib.cosmo p c.flat (lib.grid m) = some b ∧ ∀ q', q = some q' → lib.spectrum p m = some q'
  dens : ∀ t, o.dens = some t → ∀ n, t.lookup n = c.dens lib file n

/-- The invariant of the histories which keep to a plan. -/
structure Inv (lib : Lib C F P M G D B Q S) (site : Site) (file : Path → Option C) (home : Nat → Path)
    (conf : Path → Conf C) (s : State C F P M D B Q) : Prop where
  files : ∀ q, (∀ j, ¬ InCopies (home j) q) → s.file q = file q
  niz : ∀ i t, s.niz (home i) = some t → ∀ n, t.lookup n = (conf (home i)).dens lib file n
  right : ∀ i o, s.objs i = some o → Right lib file (home i) (conf (home i)) o
  args : ∀ i o, s.objs i = some o →
    Names site file (fun r => ∃ i, r = home i) (home i) (conf (home i)) (s.store o.args)
  low : ∀ i o, s.objs i = some o → o.args < s.next
  inj : ∀ i j o o', s.objs i = some o → s.objs j = some o' → o.args = o'.args → i = j

/-- Arguments name the same files with the same contents as long as the files outside the copies are the same. -/
theorem Names.congr {site : Site} {f f' : Path → Option C} {homes : Path → Prop} {r : Path} {c : Conf C} {a : Args}
    (h : Names site f homes r c a) (hf : ∀ q, (∀ r, homes r → ¬ InCopies r q) → f' q = f q) : Names site f' homes r c a := by
  have m0 : (("forecast".toList, a.forecast.getD (site.cfg ++ ["basic_forecast_config.json".toList])) : Str × Path)
      ∈ sources site a := by unfold sources; exact .head _
  have m1 : (("PowerSpectrum".toList, a.powerSpectrum.getD (site.cfg ++ ["power_spectrum_config.json".toList])) : Str × Path)
      ∈ sources site a := by unfold sources; exact .tail _ (.head _)
  have m2 : (("Angular".toList, a.angular.getD (site.cfg ++ ["angular_config.json".toList])) : Str × Path)
      ∈ sources site a := by unfold sources; exact .tail _ (.tail _ (.head _))
  have m3 : (("Derivative".toList, a.derivative.getD (site.cfg ++ ["derivative_config.json".toList])) : Str × Path)
      ∈ sources site a := by unfold sources; exact .tail _ (.tail _ (.tail _ (.head _)))
  have m4 : (("Fisher".toList, a.fisher.getD (site.cfg ++ ["fisher_config.json".toList])) : Str × Path)
      ∈ sources site a := by unfold sources; exact .tail _ (.tail _ (.tail _ (.tail _ (.head _))))
  exact
    { h with
      forecast := (hf _ (h.outside _ m0)).trans h.forecast
      powerSpectrum := (hf _ (h.outside _ m1)).trans h.powerSpectrum
      angular := (hf _ (h.outside _ m2)).trans h.angular
      derivative := (hf _ (h.outside _ m3)).trans h.derivative
      fisher := (hf _ (h.outside _ m4)).trans h.fisher }

/-- Replacing an object by a right one with the same dictionary keeps the invariant. -/
theorem Inv.setObj {lib : Lib C F P M G D B Q S} {site : Site} {file : Path → Option C} {home : Nat → Path}
    {conf : Path → Conf C} {s s' : State C F P M D B Q} (h : Inv lib site file home conf s) {i : Nat}
    {o o' : Obj F P M D B Q} (hi : s.objs i = some o) (ho : ∀ j, s'.objs j = if j = i then some o' else s.objs j)
    (ha : o'.args = o.args) (hr : Right lib file (home i) (conf (home i)) o') (h1 : s'.store = s.store)
    (h2 : s'.next = s.next) (h3 : ∀ q, (∀ j, ¬ InCopies (home j) q) → s'.file q = s.file q)
    (h4 : ∀ i t, s'.niz (home i) = some t → ∀ n, t.lookup n = (conf (home i)).dens lib file n) :
    Inv lib site file home conf s' := by
  have old : ∀ j o2, s'.objs j = some o2 → ∃ o3, s.objs j = some o3 ∧ o2.args = o3.args := by
    intro j o2 hj
    rw [ho j] at hj
    split at hj
    · next e => cases hj; rw [e]; exact ⟨o, hi, ha⟩
    · exact ⟨o2, hj, rfl⟩
  refine ⟨fun q hq => (h3 q hq).trans (h.files q hq), h4, ?_, ?_, ?_, ?_⟩
  · intro j o2 hj
    rw [ho j] at hj
    split at hj
    · next e => cases hj; rw [e]; exact hr
    · exact h.right j o2 hj
  · intro j o2 hj
    obtain ⟨o3, hj3, e⟩ := old j o2 hj
    rw [h1, e]
    exact h.args j o3 hj3
  · intro j o2 hj
    obtain ⟨o3, hj3, e⟩ := old j o2 hj
    rw [h2, e]
    exact h.low j o3 hj3
  · intro j k o2 o3 hj hk e
    obtain ⟨o4, hj4, e4⟩ := old j o2 hj
    obtain ⟨o5, hk5, e5⟩ := old k o3 hk
    exact h.inj j k o4 o5 hj4 hk5 (e4.symm.trans (e.trans e5))

/-- A new process keeps the invariant, if the files outside the copies and the densities do not change. -/
theorem Inv.reborn {lib : Lib C F P M G D B Q S} {site : Site} {file : Path → Option C} {home : Nat → Path}
    {conf : Path → Conf C} {s s' : State C F P M D B Q} (h : Inv lib site file home conf s)
    (h3 : ∀ q, (∀ j, ¬ InCopies (home j) q) → s'.file q = s.file q) (h4 : s'.niz = s.niz) :
    Inv lib site file home conf (Sess.reborn s') where
  files q hq := (h3 q hq).trans (h.files q hq)
  niz i t ht := h.niz i t (by rw [← h4]; exact ht)
  right i o hi := by cases hi
  args i o hi := by cases hi
  low i o hi := by cases hi
  inj i j o o' hi := by cases hi

/-- Every call which keeps to the plan keeps the invariant. -/
theorem step_inv (lib : Lib C F P M G D B Q S) (site : Site) (file : Path → Option C) (home : Nat → Path)
    (conf : Path → Conf C)
    (hd : ∀ i f, (conf (home i)).f lib = some f → ∀ x ∈ lib.probes f, ∀ j, ¬ InCopies (home j) x.2)
    (s : State C F P M D B Q) (h : Inv lib site file home conf s) (op : Op) (hk : Keeps site file home conf op) :
    Inv lib site file home conf (step lib site s op).1 := by
  have named : ∀ i o, s.objs i = some o →
      Names site s.file (fun r => ∃ i, r = home i) (home i) (conf (home i)) (s.store o.args) := by
    intro i o hi
    exact (h.args i o hi).congr (fun q hq => h.files q (fun j => hq _ ⟨j, rfl⟩))
  cases op with
  | new i a =>
    cases a with
    | none => exact absurd hk id
    | some a =>
      have hk : Names site file (fun r => ∃ i, r = home i) (home i) (conf (home i)) a := hk
      rw [step_new]
      refine ⟨h.files, h.niz, ?_, ?_, ?_, ?_⟩
      · intro j o hj
        rw [setObj_objs] at hj
        split at hj
        · next e =>
          cases hj
          exact ⟨nofun, nofun, nofun, nofun, nofun, nofun, nofun⟩
        · exact h.right j o hj
      · intro j o hj
        rw [setObj_objs] at hj
        split at hj
        · next e =>
          cases hj
          rw [e]
          show Names site file _ _ _ (if s.next = s.next then a else s.store s.next)
          rw [if_pos rfl]; exact hk
        · have hlt := h.low j o hj
          show Names site file _ _ _ (if o.args = s.next then a else s.store o.args)
          rw [if_neg (Nat.ne_of_lt hlt)]
          exact h.args j o hj
      · intro j o hj
        rw [setObj_objs] at hj
        split at hj
        · cases hj; exact Nat.lt_succ_self _
        · exact Nat.lt_succ_of_lt (h.low j o hj)
      · intro j k o o' hj hk' e
        rw [setObj_objs] at hj hk'
        split at hj
        · next ej =>
          split at hk'
          · next ek => exact ej.trans ek.symm
          · cases hj
            have hlt := h.low k o' hk'
            rw [← e] at hlt
            exact absurd hlt (Nat.lt_irrefl _)
        · split at hk'
          · cases hk'
            have hlt := h.low j o hj
            rw [e] at hlt
            exact absurd hlt (Nat.lt_irrefl _)
          · exact h.inj j k o o' hj hk' e
  | setArgs i a =>
    have hk : Names site file (fun r => ∃ i, r = home i) (home i) (conf (home i)) a := hk
    cases hi : s.objs i with
    | none => rw [(step_none lib site s i hi).1 a]; exact h
    | some o =>
      rw [(step_some lib site s i o hi).1 a]
      refine ⟨h.files, h.niz, h.right, ?_, h.low, h.inj⟩
      intro j o' hj
      show Names site file _ _ _ (if o'.args = o.args then a else s.store o'.args)
      split
      · next e =>
        rw [h.inj j i o' o hj hi e]; exact hk
      · exact h.args j o' hj
  | prepare i =>
    cases hi : s.objs i with
    | none => rw [(step_none lib site s i hi).2.1]; exact h
    | some o =>
      rw [(step_some lib site s i o hi).2.1]
      obtain ⟨p1, p2, p3, p4, o', p5, p6, _⟩ := prepare_effect lib i o s hi (named i o hi)
      have hinv : Inv lib site file home conf (prepare lib site i o s).1 := by
        refine h.setObj hi p5 p6.args ?_ p1 p2 (fun q hq => p4 q (hq i)) (fun i t ht => h.niz i t (by rw [← p3]; exact ht))
        have hr := h.right i o hi
        refine ⟨fun r hr' => ?_, fun f hf => ?_, fun m hm => ?_, fun m hm => ?_, fun p hp => ?_, fun b q hb => ?_,
          fun t ht => ?_⟩
        · rcases p6.ws with e | e
          · exact hr.ws r (e.symm.trans hr')
          · exact Option.some.inj (hr'.symm.trans e)
        · rcases p6.fcfg with e | e
          · exact hr.fcfg f (e.symm.trans hf)
          · exact e.symm.trans hf
        · rcases p6.rest with e | e
          · exact hr.pmm m (e.1.symm.trans hm)
          · exact e.1.symm.trans hm
        · rcases p6.rest with e | e
          · exact hr.cl m (e.2.1.symm.trans hm)
          · exact e.2.1.symm.trans hm
        · rcases p6.rest with e | e
          · exact hr.pars p (e.2.2.symm.trans hp)
          · exact e.2.2.symm.trans hp
        · exact hr.cosmo b q (p6.cosmo.symm.trans hb)
        · exact hr.dens t (p6.dens.symm.trans ht)
      exact hinv
  | cosmology i pmm flat =>
    have hk : flat = (conf (home i)).flat := hk
    cases hi : s.objs i with
    | none => rw [(step_none lib site s i hi).2.2.1 pmm flat]; exact h
    | some o =>
      rw [(step_some lib site s i o hi).2.2.1 pmm flat]
      have hr := h.right i o hi
      have hinv : Inv lib site file home conf (cosmology lib pmm flat i o s).1 := by
        have base : ∀ p m b, o.pars = some p → o.pmm = some m → lib.cosmo p flat (lib.grid m) = some b → ∀ q,
            (∀ q', q = some q' → lib.spectrum p m = some q') →
            Inv lib site file home conf (Sess.setObj s i { o with cosmo := some (b, q) }) := by
          intro p m b hp hm hb q hq
          refine h.setObj hi (setObj_objs s i _) rfl ?_ rfl rfl (fun _ _ => rfl) h.niz
          refine ⟨hr.ws, hr.fcfg, hr.pmm, hr.cl, hr.pars, fun b' q' e => ?_, hr.dens⟩
          cases e
          exact ⟨p, m, hr.pars p hp, hr.pmm m hm, by rw [← hk]; exact hb, hq⟩
        unfold cosmology
        split
        · next p m r hp hm hw =>
          split
          · exact h
          · next b hb =>
            dsimp only
            split
            · split
              · exact base p m b hp hm hb none nofun
              · split
                · exact base p m b hp hm hb none nofun
                · next q hq => exact base p m b hp hm hb (some q) (fun q' e => by cases e; exact hq)
            · exact base p m b hp hm hb none nofun
        · exact h
      exact hinv
  | densities i =>
    cases hi : s.objs i with
    | none => rw [(step_none lib site s i hi).2.2.2.1]; exact h
    | some o =>
      rw [(step_some lib site s i o hi).2.2.2.1]
      have hr := h.right i o hi
      have hinv : Inv lib site file home conf (densities lib i o s).1 := by
        unfold densities
        split
        · next m r hm hw =>
          have er : r = home i := hr.ws r hw
          split
          · next t ht =>
            refine h.setObj hi (setObj_objs s i _) rfl ?_ rfl rfl (fun _ _ => rfl) h.niz
            refine ⟨hr.ws, hr.fcfg, hr.pmm, hr.cl, hr.pars, hr.cosmo, fun t' e => ?_⟩
            cases e
            rw [er] at ht
            exact h.niz i t ht
          · split
            · exact h
            · next f hf =>
              split
              · exact h
              · next t ht =>
                have hfc := hr.fcfg f hf
                have hmc := hr.pmm m hm
                have hl : ∀ n, t.lookup n = (conf (home i)).dens lib file n := by
                  intro n
                  rw [densityTable_congr lib s.file file (lib.grid m) (lib.probes f)
                    (fun x hx => h.files x.2 (hd i f hfc x hx))] at ht
                  rw [densityTable_lookup lib file (lib.grid m) (lib.probes f) t ht n]
                  unfold Conf.dens
                  rw [hfc, hmc]; rfl
                refine h.setObj hi (setObj_objs _ i _) rfl ?_ rfl rfl (fun _ _ => rfl) ?_
                · refine ⟨hr.ws, hr.fcfg, hr.pmm, hr.cl, hr.pars, hr.cosmo, fun t' e => ?_⟩
                  cases e
                  exact hl
                · intro j t' ht'
                  have ht' : (if home j = r ∧ t ≠ [] then some t else s.niz (home j)) = some t' := ht'
                  split at ht'
                  · next e =>
                    cases ht'
                    rw [e.1, er]; exact hl
                  · exact h.niz j t' ht'
        · exact h
      exact hinv
  | cls i =>
    cases hi : s.objs i with
    | none => rw [(step_none lib site s i hi).2.2.2.2.1]; exact h
    | some o =>
      rw [(step_some lib site s i o hi).2.2.2.2.1]; exact h
  | restart => exact h.reborn (fun _ _ => rfl) rfl
  | killPrepare i k =>
    cases hi : s.objs i with
    | none => rw [(step_none lib site s i hi).2.2.2.2.2.1 k]; exact h
    | some o =>
      rw [(step_some lib site s i o hi).2.2.2.2.2.1 k]
      refine h.reborn (s' := { s with file := cutPrepare site k o s }) (fun q hq => ?_) rfl
      show cutPrepare site k o s q = s.file q
      unfold cutPrepare
      rw [(named i o hi).run]
      exact Work.copy_outside (home i) _ s.file [] q (hq i)
  | killDensities i k => exact absurd hk id

/-- The result of a call of an object which is right. -/
theorem cls_right (lib : Lib C F P M G D B Q S) (file : Path → Option C) (r : Path) (c : Conf C) (o : Obj F P M D B Q)
    (h : Right lib file r c o) (x : S) (hx : computeCls lib o = .ok x) : c.spectra lib file = some x := by
  unfold computeCls at hx
  split at hx
  · next b q p t f m hb hp ht hf hm =>
    split at hx
    · next r hr =>
      cases hx
      obtain ⟨p', m', e1, e2, e3, e4⟩ := h.cosmo b (some q) hb
      have ep : p' = p := Option.some.inj (e1.symm.trans (h.pars p hp))
      rw [ep] at e1 e3 e4
      have hdens : (fun n => t.lookup n) = c.dens lib file := funext fun n => h.dens t ht n
      rw [hdens] at hr
      unfold Conf.spectra
      rw [h.fcfg f hf, e1, e2, h.cl m hm, Option.bind_some, Option.bind_some, Option.bind_some, Option.bind_some, e3,
        Option.bind_some, e4 q rfl, Option.bind_some]
      exact hr
    · cases hx
  · cases hx

/-- **C132, histories.** Let every object have its run directory and every run directory its configuration. Whatever
calls are made, with any number of objects and processes, failing or not, and with processes killed while they prepare a
run directory: every call of `computeCls` which succeeds gives the angular spectra of the configuration, as computed
directly from its files. Missing for the full claim: objects without their own arguments (`defaults_shared`), a change of
configuration (`densities_stale`, `prepare_keeps`), another flatness (`flat_not_read`), and processes killed while they
write the densities (`interrupted_densities`). -/
theorem session_partial (lib : Lib C F P M G D B Q S) (site : Site) (file : Path → Option C) (home : Nat → Path)
    (conf : Path → Conf C)
    (hd : ∀ i f, (conf (home i)).f lib = some f → ∀ x ∈ lib.probes f, ∀ j, ¬ InCopies (home j) x.2) :
    ∀ (ops : List Op) (s : State C F P M D B Q), Inv lib site file home conf s → (∀ op ∈ ops, Keeps site file home conf op) →
      ∀ i x, (Op.cls i, Except.ok (some x)) ∈ (run lib site s ops).2 → (conf (home i)).spectra lib file = some x
  | [], s, _, _, i, x, h => by cases h
  | op :: ops, s, hs, hk, i, x, h => by
    have hstep := step_inv lib site file home conf hd s hs op (hk op (.head _))
    unfold run at h
    rcases List.mem_cons.mp h with e | e
    · cases op with
      | cls j =>
        have e1 : i = j := by injection e with e1 _; injection e1
        have e2 : (step lib site s (.cls j)).2 = .ok (some x) := by injection e with _ e2; exact e2.symm
        rw [e1]
        cases hi : s.objs j with
        | none => rw [(step_none lib site s j hi).2.2.2.2.1] at e2; cases e2
        | some o =>
          rw [(step_some lib site s j o hi).2.2.2.2.1] at e2
          cases hc : computeCls lib o with
          | error e3 => rw [hc] at e2; cases e2
          | ok y =>
            rw [hc] at e2
            have : y = x := by injection e2 with e2; injection e2
            rw [← this]
            exact cls_right lib file _ _ o (hs.right j o hi) y hc
      | _ => injection e with e1 _; cases e1
    · exact session_partial lib site file home conf hd ops _ hstep (fun op ho => hk op (.tail _ ho)) i x e

/-- The first process of a machine: no objects. -/
theorem start_inv (lib : Lib C F P M G D B Q S) (site : Site) (home : Nat → Path) (conf : Path → Conf C)
    (s : State C F P M D B Q) (ho : ∀ i, s.objs i = none) (hn : ∀ i, s.niz (home i) = none) :
    Inv lib site s.file home conf s where
  files _ _ := rfl
  niz i t ht := by rw [hn i] at ht; cases ht
  right i o hi := by rw [ho i] at hi; cases hi
  args i o hi := by rw [ho i] at hi; cases hi
  low i o hi := by rw [ho i] at hi; cases hi
  inj i j o o' hi := by rw [ho i] at hi; cases hi

/-- Writing the input files succeeds if the files are there. -/
theorem putInputs_ok {site : Site} {homes : Path → Prop} {r : Path} {c : Conf C} {a : Args} (s : State C F P M D B Q)
    (params : C) (hr : homes r) (hn : Names site s.file homes r c a) :
    (putInputs r (sources site a) params (dataOf site a) s).2 = none := by
  have h : (createInputs r (sources site a) params c.data ⟨s.file, s.inputs r⟩).2 = none := by
    rw [Work.inputs_ok_iff]
    intro x hx
    refine ⟨?_, hn.outside x hx r hr⟩
    unfold sources at hx
    rcases List.mem_cons.mp hx with e | hx
    · rw [e]; dsimp only; rw [hn.forecast]; rfl
    rcases List.mem_cons.mp hx with e | hx
    · rw [e]; dsimp only; rw [hn.powerSpectrum]; rfl
    rcases List.mem_cons.mp hx with e | hx
    · rw [e]; dsimp only; rw [hn.angular]; rfl
    rcases List.mem_cons.mp hx with e | hx
    · rw [e]; dsimp only; rw [hn.derivative]; rfl
    rcases List.mem_cons.mp hx with e | hx
    · rw [e]; dsimp only; rw [hn.fisher]; rfl
    · cases hx
  rw [hn.data]
  unfold putInputs
  dsimp only
  rw [h]; rfl

/-- A place for a directory: there is nothing or a directory. -/
def Place (t : Tree) (p : Path) : Prop := t p = none ∨ t p = some .dir

theorem mkdirOk_place {t : Tree} {p : Path} (h : Place t p) :
    (mkdirOk t p).2 = none ∧ (mkdirOk t p).1 p = some .dir ∧ ∀ q, q ≠ p → (mkdirOk t p).1 q = t q := by
  unfold mkdirOk
  rcases h with h | h <;> rw [h]
  · exact ⟨rfl, Work.write_same t p _, fun q hq => Work.write_ne t _ hq⟩
  · exact ⟨rfl, h, fun _ _ => rfl⟩

/-- Preparing succeeds, and makes the directory of the power spectra. -/
theorem prepare_ok (lib : Lib C F P M G D B Q S) {site : Site} {homes : Path → Prop} {r : Path} {c : Conf C} (i : Nat)
    (o : Obj F P M D B Q) (s : State C F P M D B Q) (hr : homes r)
    (hn : Names site s.file homes r c (s.store o.args))
    (hp : (c.p lib).isSome) (h1 : (c.pmm lib).isSome) (h2 : (c.cl lib).isSome)
    (h3 : (lib.config "Derivative".toList c.derivative).isSome) (h4 : (lib.config "Fisher".toList c.fisher).isSome)
    (hx : (s.store o.args).pmmDir = none ∧ (s.store o.args).clDir = none ∧ (s.store o.args).derDir = none)
    (ht : Place s.tree r) (ht' : Place s.tree (r ++ ["PowerSpectrum".toList])) :
    (prepare lib site i o s).2 = none ∧
      existsAt (prepare lib site i o s).1.tree (r ++ ["PowerSpectrum".toList]) = true := by
  have hf : (s.file (forecastSource site (s.store o.args))).bind
      (fun x => lib.forecast x (dataOf site (s.store o.args)).dir) = c.f lib := by
    rw [show forecastSource site (s.store o.args) = (s.store o.args).forecast.getD
      (site.cfg ++ ["basic_forecast_config.json".toList]) from rfl, hn.forecast, hn.data]; rfl
  unfold Conf.p at hp
  cases e1 : c.f lib with
  | none => rw [e1] at hp; cases hp
  | some f =>
    rw [e1, Option.bind_some] at hp
    cases e2 : lib.params f with
    | none => rw [e2] at hp; cases hp
    | some p =>
      unfold prepare
      dsimp only
      rw [hf, e1]
      dsimp only
      rw [e2]
      dsimp only
      rw [hn.run]
      dsimp only
      generalize hs0 : (setObj (setObj s i { o with fcfg := some f }) i { o with fcfg := some f, ws := some r }) = s0
      have t0 : s0.tree = s.tree := by rw [← hs0]; rfl
      have f0 : s0.file = s.file := by rw [← hs0]; rfl
      rw [t0]
      obtain ⟨k1, k2, k3⟩ := mkdirOk_place ht
      cases e3 : mkdirOk s.tree r with
      | mk t e =>
        rw [e3] at k1 k2 k3
        dsimp only at k1 k2 k3
        rw [k1]
        dsimp only
        have hn1 : Names site ({ s0 with tree := t } : State C F P M D B Q).file homes r c (s.store o.args) := by
          show Names site s0.file homes r c (s.store o.args)
          rw [f0]; exact hn
        have ok := putInputs_ok ({ s0 with tree := t } : State C F P M D B Q) (lib.paramsText p) hr hn1
        have hc := taskConfig_eq lib ({ s0 with tree := t } : State C F P M D B Q) (lib.paramsText p) hn1 ok
        have tr := (putInputs_effect r (sources site (s.store o.args)) (lib.paramsText p) (dataOf site (s.store o.args))
          ({ s0 with tree := t } : State C F P M D B Q)).2.2.2.2.1
        cases e4 : putInputs r (sources site (s.store o.args)) (lib.paramsText p) (dataOf site (s.store o.args))
            ({ s0 with tree := t } : State C F P M D B Q) with
        | mk s2 e =>
          rw [e4] at ok hc tr
          dsimp only at ok hc tr
          rw [ok]
          dsimp only
          rw [hx.1, hx.2.1, hx.2.2, tr]
          have hplace : Place t (r ++ ["PowerSpectrum".toList]) := by
            unfold Place
            have hne : r ++ ["PowerSpectrum".toList] ≠ r := by
              intro e
              have := congrArg List.length e
              rw [List.length_append] at this
              exact absurd this (Nat.ne_of_gt (Nat.lt_succ_self _))
            rw [k3 _ hne]
            exact ht'
          obtain ⟨j1, j2, _⟩ := mkdirOk_place hplace
          have hdirs : prepareDirs r none none none t = ((mkdirOk t (r ++ ["PowerSpectrum".toList])).1, none) := by
            unfold prepareDirs
            dsimp only
            cases e5 : mkdirOk t (r ++ ["PowerSpectrum".toList]) with
            | mk t2 e =>
              rw [e5] at j1
              dsimp only at j1
              rw [j1]
              rfl
          rw [hdirs]
          dsimp only
          obtain ⟨c1, c2, c3, c4⟩ := hc (mkdirOk t (r ++ ["PowerSpectrum".toList])).1
          rw [c1, c2, c3, c4]
          obtain ⟨m1, e6⟩ := Option.isSome_iff_exists.mp h1
          obtain ⟨m2, e7⟩ := Option.isSome_iff_exists.mp h2
          obtain ⟨m3, e8⟩ := Option.isSome_iff_exists.mp h3
          obtain ⟨m4, e9⟩ := Option.isSome_iff_exists.mp h4
          unfold Conf.pmm at e6
          unfold Conf.cl at e7
          rw [e6, e7, e8, e9]
          refine ⟨rfl, ?_⟩
          show existsAt (mkdirOk t (r ++ ["PowerSpectrum".toList])).1 _ = true
          unfold existsAt
          rw [j2]

/-- The densities can be computed if every density file is there and can be interpreted. -/
theorem densityTable_some (lib : Lib C F P M G D B Q S) (file : Path → Option C) (g : G) :
    ∀ (l : List (Str × Path)), (∀ x ∈ l, ((file x.2).bind fun c => lib.density c g).isSome) →
      ∃ t, densityTable lib file g l = some t
  | [], _ => ⟨[], rfl⟩
  | (n, p) :: l, h => by
    obtain ⟨t, ht⟩ := densityTable_some lib file g l (fun x hx => h x (.tail _ hx))
    obtain ⟨d, hd⟩ := Option.isSome_iff_exists.mp (h (n, p) (.head _))
    unfold densityTable
    have hd : ((file p).bind fun c => lib.density c g) = some d := hd
    rw [hd]
    dsimp only
    rw [ht]
    exact ⟨_, rfl⟩

/-- Evaluating the densities of a prepared object. -/
theorem densities_ok (lib : Lib C F P M G D B Q S) (i : Nat) (o : Obj F P M D B Q) (s : State C F P M D B Q) (r : Path)
    (m : M) (f : F) (t : Dict Str D) (hm : o.pmm = some m) (hw : o.ws = some r) (hf : o.fcfg = some f)
    (hz : s.niz r = some t ∨ s.niz r = none ∧ densityTable lib s.file (lib.grid m) (lib.probes f) = some t) :
    ∃ s', densities lib i o s = (s', none) ∧ s'.objs i = some { o with dens := some t } := by
  unfold densities
  rw [hm, hw]
  dsimp only
  rcases hz with h | ⟨h, h'⟩
  · rw [h]
    exact ⟨_, rfl, if_pos rfl⟩
  · rw [h]
    dsimp only
    rw [hf]
    dsimp only
    rw [h']
    exact ⟨_, rfl, if_pos rfl⟩

/-- **C132, one session.** A new object for a configuration which can be computed, in a run directory which is new or has
the densities of the same configuration: preparing, evaluating cosmology and densities and computing succeed and give the
angular spectra of the configuration. -/
theorem session_ok (lib : Lib C F P M G D B Q S) (site : Site) (homes : Path → Prop) (r : Path) (c : Conf C) (i : Nat)
    (a : Args) (s : State C F P M D B Q) (x : S) (f : F) (m : M) (hr : homes r) (hn : Names site s.file homes r c a)
    (hx : c.spectra lib s.file = some x) (hf : c.f lib = some f) (hm : c.pmm lib = some m)
    (h3 : (lib.config "Derivative".toList c.derivative).isSome) (h4 : (lib.config "Fisher".toList c.fisher).isSome)
    (he : a.pmmDir = none ∧ a.clDir = none ∧ a.derDir = none)
    (ht : Place s.tree r) (ht' : Place s.tree (r ++ ["PowerSpectrum".toList]))
    (hd : ∀ y ∈ lib.probes f, ((s.file y.2).bind fun t => lib.density t (lib.grid m)).isSome ∧ ¬ InCopies r y.2)
    (hz : ∀ t, s.niz r = some t → ∀ n, t.lookup n = c.dens lib s.file n) :
    ((run lib site s [.new i (some a), .prepare i, .cosmology i true c.flat, .densities i, .cls i]).2.map (·.2)) =
      [.ok none, .ok none, .ok none, .ok none, .ok (some x)] := by
  -- the parts of the configuration
  unfold Conf.spectra at hx
  rw [hf, Option.bind_some] at hx
  obtain ⟨p, hp, hx⟩ := Option.bind_eq_some_iff.mp hx
  rw [hm, Option.bind_some] at hx
  obtain ⟨ac, hac, hx⟩ := Option.bind_eq_some_iff.mp hx
  obtain ⟨b, hb, hx⟩ := Option.bind_eq_some_iff.mp hx
  obtain ⟨q, hq, hx⟩ := Option.bind_eq_some_iff.mp hx
  -- the new object
  generalize hs1 : (step lib site s (.new i (some a))).1 = s1
  have o1 : s1.objs i = some { args := s.next } := by
    rw [← hs1, step_new, setObj_objs, if_pos rfl]
  have a1 : s1.store s.next = a := by
    rw [← hs1, step_new]
    show (if s.next = s.next then a else s.store s.next) = a
    rw [if_pos rfl]
  have f1 : s1.file = s.file := by rw [← hs1, step_new]; rfl
  have n1 : s1.niz = s.niz := by rw [← hs1, step_new]; rfl
  have t1 : s1.tree = s.tree := by rw [← hs1, step_new]; rfl
  have hn1 : Names site s1.file homes r c (s1.store ({ args := s.next } : Obj F P M D B Q).args) := by
    show Names site s1.file homes r c (s1.store s.next)
    rw [f1, a1]; exact hn
  -- preparing
  obtain ⟨pr1, pr2⟩ := prepare_ok lib i { args := s.next } s1 hr hn1 (by rw [hp]; rfl) (by rw [hm]; rfl)
    (by rw [hac]; rfl) h3 h4 (by show (s1.store s.next).pmmDir = none ∧ _; rw [a1]; exact he) (by rw [t1]; exact ht)
    (by rw [t1]; exact ht')
  obtain ⟨-, -, e3, e4, o', e5, e6, e7⟩ := prepare_effect lib i { args := s.next } s1 o1 hn1
  obtain ⟨w1, w2, w3, w4, w5⟩ := e7 pr1
  generalize hs2 : (prepare lib site i { args := s.next } s1).1 = s2 at pr2 e3 e4 e5
  have o2 : s2.objs i = some o' := by rw [e5, if_pos rfl]
  have f2 : ∀ z, ¬ InCopies r z → s2.file z = s.file z := fun z hz => (e4 z hz).trans (by rw [f1])
  -- the cosmology
  have hco : cosmology lib true c.flat i o' s2 = (setObj s2 i { o' with cosmo := some (b, some q) }, none) := by
    unfold cosmology
    rw [w5, hp, w3, hm, w1]
    dsimp only
    rw [hb]
    dsimp only
    rw [if_pos rfl, if_neg (by rw [pr2]; rintro ⟨_, h⟩; cases h), hq]
  -- the densities
  have hde : ∃ t s4, densities lib i { o' with cosmo := some (b, some q) }
      (setObj s2 i { o' with cosmo := some (b, some q) }) = (s4, none) ∧
      s4.objs i = some { o' with cosmo := some (b, some q), dens := some t } ∧
      ∀ n, t.lookup n = c.dens lib s.file n := by
    have hniz : (setObj s2 i { o' with cosmo := some (b, some q) }).niz r = s.niz r := by
      rw [show (setObj s2 i { o' with cosmo := some (b, some q) }).niz = s2.niz from rfl, e3, n1]
    cases hnz : s.niz r with
    | some t =>
      obtain ⟨s4, g1, g2⟩ := densities_ok lib i { o' with cosmo := some (b, some q) }
        (setObj s2 i { o' with cosmo := some (b, some q) }) r m f t (w3.trans hm) w1 (w2.trans hf)
        (.inl (hniz.trans hnz))
      exact ⟨t, s4, g1, g2, hz t hnz⟩
    | none =>
      obtain ⟨t, htt⟩ := densityTable_some lib s.file (lib.grid m) (lib.probes f) (fun y hy => (hd y hy).1)
      have hcong : densityTable lib (setObj s2 i { o' with cosmo := some (b, some q) }).file (lib.grid m) (lib.probes f) =
          some t := by
        rw [← htt]
        exact densityTable_congr lib _ _ _ _ (fun y hy => f2 y.2 (hd y hy).2)
      obtain ⟨s4, g1, g2⟩ := densities_ok lib i { o' with cosmo := some (b, some q) }
        (setObj s2 i { o' with cosmo := some (b, some q) }) r m f t (w3.trans hm) w1 (w2.trans hf)
        (.inr ⟨hniz.trans hnz, hcong⟩)
      refine ⟨t, s4, g1, g2, fun n => ?_⟩
      rw [densityTable_lookup lib s.file (lib.grid m) (lib.probes f) t htt n]
      unfold Conf.dens
      rw [hf, hm]; rfl
  obtain ⟨t, s4, hde, o4, hl⟩ := hde
  -- the spectra
  have hcl : computeCls lib { o' with cosmo := some (b, some q), dens := some t } = .ok x := by
    unfold computeCls
    dsimp only
    rw [w5, hp, w2, hf, w4, hac]
    dsimp only
    rw [show (fun n => t.lookup n) = c.dens lib s.file from funext hl, hx]
  unfold run
  rw [List.map_cons, hs1]
  unfold run
  rw [List.map_cons, (step_some lib site s1 i _ o1).2.1]
  dsimp only
  rw [pr1, hs2]
  unfold run
  rw [List.map_cons, (step_some lib site s2 i _ o2).2.2.1]
  dsimp only
  rw [hco]
  dsimp only
  have o3 : (setObj s2 i { o' with cosmo := some (b, some q) }).objs i = some { o' with cosmo := some (b, some q) } := by
    rw [setObj_objs, if_pos rfl]
  unfold run
  rw [List.map_cons, (step_some lib site _ i _ o3).2.2.2.1]
  dsimp only
  rw [hde]
  dsimp only
  unfold run
  rw [List.map_cons, (step_some lib site s4 i _ o4).2.2.2.2.1]
  dsimp only
  rw [hcl]
  rfl

/-! ### What is kept -/

theorem mem_of_run (lib : Lib C F P M G D B Q S) (site : Site) (I : State C F P M D B Q → Prop)
    (hI : ∀ s op, I s → I (step lib site s op).1) : ∀ (ops : List Op) (s : State C F P M D B Q), I s → I (run lib site s ops).1
  | [], _, h => h
  | op :: ops, s, h => by
    unfold run
    exact mem_of_run lib site I hI ops _ (hI s op h)

/-- Preparing never changes the densities of any directory. -/
theorem prepare_niz (lib : Lib C F P M G D B Q S) (site : Site) (i : Nat) (o : Obj F P M D B Q) (s : State C F P M D B Q) :
    (prepare lib site i o s).1.niz = s.niz := by
  unfold prepare
  dsimp only
  split
  · rfl
  split
  · rfl
  split
  · rfl
  split
  · rfl
  · next run _ _ t _ =>
    generalize hq : putInputs run (sources site (s.store o.args)) _ (dataOf site (s.store o.args)) _ = q
    have key : q.1.niz = s.niz := by
      rw [← hq]
      exact (putInputs_effect _ _ _ _ _).2.2.2.1
    split
    · exact key
    · next s2 =>
      split
      · exact key
      · split
        · exact key
        · exact key

/-- **C132, the densities of a directory stay.** Once a run directory has a file of densities, no call ever changes it, with
whatever objects, arguments, configurations and processes. -/
theorem niz_kept (lib : Lib C F P M G D B Q S) (site : Site) (r : Path) (t : Dict Str D) (ops : List Op)
    (s : State C F P M D B Q) (h : s.niz r = some t) : (run lib site s ops).1.niz r = some t := by
  refine mem_of_run lib site (fun s => s.niz r = some t) ?_ ops s h
  intro s op h
  cases op with
  | new i a => cases a <;> exact h
  | restart => exact h
  | setArgs i a => cases hi : s.objs i with
    | none => rw [(step_none lib site s i hi).1]; exact h
    | some o => rw [(step_some lib site s i o hi).1]; exact h
  | prepare i => cases hi : s.objs i with
    | none => rw [(step_none lib site s i hi).2.1]; exact h
    | some o =>
      rw [(step_some lib site s i o hi).2.1]
      dsimp only
      rw [prepare_niz]; exact h
  | cosmology i p f => cases hi : s.objs i with
    | none => rw [(step_none lib site s i hi).2.2.1]; exact h
    | some o =>
      rw [(step_some lib site s i o hi).2.2.1]
      dsimp only
      unfold cosmology
      split
      · split
        · exact h
        · dsimp only
          split
          · split
            · exact h
            · split <;> exact h
          · exact h
      · exact h
  | densities i => cases hi : s.objs i with
    | none => rw [(step_none lib site s i hi).2.2.2.1]; exact h
    | some o =>
      rw [(step_some lib site s i o hi).2.2.2.1]
      dsimp only
      unfold densities
      split
      · next m run _ _ =>
        split
        · exact h
        · next hz =>
          split
          · exact h
          · split
            · exact h
            · next t' _ =>
              show (if r = run ∧ t' ≠ [] then some t' else s.niz r) = some t
              rw [if_neg (fun e => by rw [← e.1, h] at hz; cases hz)]
              exact h
      · exact h
  | cls i => cases hi : s.objs i with
    | none => rw [(step_none lib site s i hi).2.2.2.2.1]; exact h
    | some o => rw [(step_some lib site s i o hi).2.2.2.2.1]; exact h
  | killPrepare i k => cases hi : s.objs i with
    | none => rw [(step_none lib site s i hi).2.2.2.2.2.1]; exact h
    | some o => rw [(step_some lib site s i o hi).2.2.2.2.2.1]; exact h
  | killDensities i k => cases hi : s.objs i with
    | none => rw [(step_none lib site s i hi).2.2.2.2.2.2]; exact h
    | some o =>
      rw [(step_some lib site s i o hi).2.2.2.2.2.2]
      show cutDensities lib k o s r = some t
      have key : ∀ x y z, cutDensities lib k { o with pmm := x, ws := y, fcfg := z } s r = some t := by
        rintro (_ | m) (_ | run) (_ | f)
        all_goals try exact h
        unfold cutDensities
        dsimp only
        cases hz : s.niz run with
        | some t' => exact h
        | none =>
          cases ht : densityTable lib s.file (lib.grid m) (lib.probes f) with
          | none => exact h
          | some t' =>
            show (if r = run ∧ t'.take k ≠ [] then some (t'.take k) else s.niz r) = some t
            rw [if_neg (fun e => by rw [← e.1, h] at hz; cases hz)]
            exact h
      exact key o.pmm o.ws o.fcfg

/-- **C132, the first densities win.** Whatever happened since a run directory got its densities: the evaluation of any
object prepared for the directory gives it these densities, whatever its own configuration says. -/
theorem densities_first (lib : Lib C F P M G D B Q S) (site : Site) (r : Path) (t : Dict Str D) (ops : List Op)
    (s : State C F P M D B Q) (h : s.niz r = some t) (i : Nat) (o : Obj F P M D B Q) (m : M)
    (hi : (run lib site s ops).1.objs i = some o) (hm : o.pmm = some m) (hw : o.ws = some r) :
    (step lib site (run lib site s ops).1 (.densities i)).1.objs i = some { o with dens := some t } ∧
    (step lib site (run lib site s ops).1 (.densities i)).2.toOption = some none := by
  have hz := niz_kept lib site r t ops s h
  rw [(step_some lib site _ i o hi).2.2.2.1]
  unfold densities
  rw [hm, hw]
  dsimp only
  rw [hz]
  exact ⟨if_pos rfl, rfl⟩

/-- **C132, interrupted densities.** If the process is killed when `k` of the probes have been written, these are the
densities of the directory for ever: whatever happens later, every object evaluating them gets the first `k` only. -/
theorem interrupted_densities (lib : Lib C F P M G D B Q S) (site : Site) (s : State C F P M D B Q) (i k : Nat)
    (o : Obj F P M D B Q) (m : M) (f : F) (r : Path) (t : Dict Str D) (hi : s.objs i = some o) (hm : o.pmm = some m)
    (hw : o.ws = some r) (hf : o.fcfg = some f) (hz : s.niz r = none)
    (ht : densityTable lib s.file (lib.grid m) (lib.probes f) = some t) (hk : t.take k ≠ []) (ops : List Op)
    (j : Nat) (o' : Obj F P M D B Q) (m' : M)
    (hj : (run lib site s (.killDensities i k :: ops)).1.objs j = some o') (hm' : o'.pmm = some m') (hw' : o'.ws = some r) :
    (step lib site (run lib site s (.killDensities i k :: ops)).1 (.densities j)).1.objs j =
      some { o' with dens := some (t.take k) } := by
  have h1 : (step lib site s (.killDensities i k)).1.niz r = some (t.take k) := by
    rw [(step_some lib site s i o hi).2.2.2.2.2.2]
    show cutDensities lib k o s r = _
    unfold cutDensities
    rw [hm, hw, hf]
    dsimp only
    rw [hz]
    dsimp only
    rw [ht]
    exact if_pos ⟨rfl, hk⟩
  unfold run at hj ⊢
  exact (densities_first lib site r _ ops _ h1 j o' m' hj hm' hw').1

/-- **C132, what is evaluated stays.** Preparing an object again, for whatever arguments and with whatever outcome, keeps
its cosmology and its densities. -/
theorem prepare_keeps (lib : Lib C F P M G D B Q S) (site : Site) (i : Nat) (o : Obj F P M D B Q) (s : State C F P M D B Q)
    (hi : s.objs i = some o) :
    ∃ o', (prepare lib site i o s).1.objs i = some o' ∧ o'.cosmo = o.cosmo ∧ o'.dens = o.dens := by
  have hset : ∀ (x : State C F P M D B Q) o1, (setObj x i o1).objs i = some o1 := fun x o1 => if_pos rfl
  unfold prepare
  dsimp only
  split
  · exact ⟨o, hi, rfl, rfl⟩
  split
  · exact ⟨_, hset _ _, rfl, rfl⟩
  split
  · exact ⟨_, hset _ _, rfl, rfl⟩
  split
  · exact ⟨_, hset _ _, rfl, rfl⟩
  · next run _ _ t _ =>
    generalize hq : putInputs run (sources site (s.store o.args)) _ (dataOf site (s.store o.args)) _ = q
    have key : ∃ o', q.1.objs i = some o' ∧ o'.cosmo = o.cosmo ∧ o'.dens = o.dens := by
      rw [← hq]
      exact ⟨_, (congrFun (putInputs_effect _ _ _ _ _).1 i).trans (hset _ _), rfl, rfl⟩
    split
    · exact key
    · next s2 =>
      split
      · exact key
      · split
        · exact ⟨_, hset _ _, rfl, rfl⟩
        · exact key

/-- **C132, no directory.** Without a run directory in the arguments, the preparation fails and nothing is written. -/
theorem no_workdir (lib : Lib C F P M G D B Q S) (site : Site) (i : Nat) (o : Obj F P M D B Q) (s : State C F P M D B Q)
    (ht : (s.store o.args).test = false) (hw : (s.store o.args).workdir = none) :
    (prepare lib site i o s).2 ≠ none ∧ (prepare lib site i o s).1.file = s.file ∧
    (prepare lib site i o s).1.inputs = s.inputs ∧ (prepare lib site i o s).1.tree = s.tree := by
  have h : runDir site (s.store o.args) = none := by
    unfold runDir
    rw [ht, hw]
    rfl
  unfold prepare
  dsimp only
  split
  · exact ⟨nofun, rfl, rfl, rfl⟩
  split
  · exact ⟨nofun, rfl, rfl, rfl⟩
  rw [h]
  exact ⟨nofun, rfl, rfl, rfl⟩

/-- **C132, a text for the data.** If the directory of the data is given as a text, the preparation fails whatever the
rest is, and the input dictionary of the run is not written. -/
theorem text_data_fails (lib : Lib C F P M G D B Q S) (site : Site) (i : Nat) (o : Obj F P M D B Q)
    (s : State C F P M D B Q) (p : Path) (h : (s.store o.args).dataDir = some (.text p)) :
    (prepare lib site i o s).2 ≠ none ∧ (prepare lib site i o s).1.inputs = s.inputs := by
  have hdata : dataOf site (s.store o.args) = .text p := by unfold dataOf; rw [h]; rfl
  unfold prepare
  dsimp only
  rw [hdata]
  split
  · exact ⟨nofun, rfl⟩
  split
  · exact ⟨nofun, rfl⟩
  split
  · exact ⟨nofun, rfl⟩
  split
  · exact ⟨nofun, rfl⟩
  · next run _ _ t _ =>
    generalize hq : putInputs run (sources site (s.store o.args)) _ (.text p) _ = q
    have key : q.2 ≠ none ∧ q.1.inputs = s.inputs := by
      rw [← hq]
      unfold putInputs
      dsimp only
      split
      · exact ⟨nofun, rfl⟩
      · exact ⟨nofun, rfl⟩
    split
    · exact ⟨nofun, key.2⟩
    · exact absurd rfl key.1

/-- **C132, the default dictionary.** Two objects made without arguments share one dictionary: what is set in one is set in
the other. -/
theorem defaults_shared (lib : Lib C F P M G D B Q S) (site : Site) (s : State C F P M D B Q) (i j : Nat) (a : Args)
    (hij : i ≠ j) :
    let s' := (run lib site s [.new i none, .new j none, .setArgs i a]).1
    ∃ o, s'.objs j = some o ∧ s'.store o.args = a := by
  refine ⟨{ args := 0 }, ?_, ?_⟩
  · show (step lib site (step lib site (step lib site s (.new i none)).1 (.new j none)).1 (.setArgs i a)).1.objs j = _
    have hi : (step lib site (step lib site s (.new i none)).1 (.new j none)).1.objs i = some { args := 0 } := by
      show (if i = j then _ else if i = i then _ else _) = _
      rw [if_neg hij, if_pos rfl]
    rw [(step_some lib site _ i _ hi).1]
    show (if j = j then _ else _) = _
    rw [if_pos rfl]
  · show (step lib site (step lib site (step lib site s (.new i none)).1 (.new j none)).1 (.setArgs i a)).1.store 0 = _
    have hi : (step lib site (step lib site s (.new i none)).1 (.new j none)).1.objs i = some { args := 0 } := by
      show (if i = j then _ else if i = i then _ else _) = _
      rw [if_neg hij, if_pos rfl]
    rw [(step_some lib site _ i _ hi).1]
    dsimp only
    exact if_pos rfl

/-- An object with its own dictionary is not touched by changes of other objects' arguments. -/
theorem own_arguments (lib : Lib C F P M G D B Q S) (site : Site) (s : State C F P M D B Q) (i j : Nat) (a : Args)
    (o o' : Obj F P M D B Q) (hi : s.objs i = some o) (hj : s.objs j = some o') (h : o.args ≠ o'.args) :
    (step lib site s (.setArgs i a)).1.objs j = some o' ∧
    (step lib site s (.setArgs i a)).1.store o'.args = s.store o'.args := by
  rw [(step_some lib site s i o hi).1]
  exact ⟨hj, if_neg (fun e => h e.symm)⟩

/-- **C132, the order of the calls.** `computeCls` succeeds for objects only which were prepared and have a cosmology with
its power spectrum and densities. -/
theorem cls_needs (lib : Lib C F P M G D B Q S) (o : Obj F P M D B Q) (x : S) (h : computeCls lib o = .ok x) :
    o.pars.isSome ∧ o.fcfg.isSome ∧ o.cl.isSome ∧ o.dens.isSome ∧ ∃ b q, o.cosmo = some (b, some q) := by
  unfold computeCls at h
  split at h
  · next b q p t f m hb hp ht hf hm =>
    rw [hp, ht, hf, hm]
    exact ⟨rfl, rfl, rfl, rfl, b, q, hb⟩
  · cases h

/-- **C132, other power spectra.** If a directory of power spectra is given, the directory of the run is not made: in a
new run directory CAMB can not write, and no cosmology gets its power spectrum. -/
theorem power_dir_not_linked (lib : Lib C F P M G D B Q S) (flat : Bool) (i : Nat) (o : Obj F P M D B Q)
    (s : State C F P M D B Q) (p : P) (m : M) (r : Path) (hp : o.pars = some p) (hm : o.pmm = some m) (hw : o.ws = some r)
    (hwr : lib.writes m = true) (ht : existsAt s.tree (r ++ ["PowerSpectrum".toList]) = false) :
    (cosmology lib true flat i o s).2 ≠ none ∧
    ∀ (pmm : Path) (t : Tree), prepareDirs r (some pmm) none none t = (t, none) := by
  refine ⟨?_, fun _ _ => rfl⟩
  unfold cosmology
  rw [hp, hm, hw]
  dsimp only
  split
  · nofun
  · rw [if_pos rfl, if_pos ⟨hwr, ht⟩]
    nofun

/-! ### Examples -/

/-- A small library: contents are numbers, and the spectra show everything they were made from. A universe with an odd
number is curved. -/
def exLib : Lib Nat Nat Nat Nat Nat (Nat × Nat) (Nat × Bool × Nat) Nat (List Nat) where
  forecast c _ := some c
  params f := some f
  paramsText p := p
  config _ c := some c
  grid m := m
  probes _ := [("A".toList, ["a".toList]), ("B".toList, ["b".toList])]
  density c g := some (c, g)
  cosmo p flat g := if flat && p % 2 == 1 then none else some (p, flat, g)
  writes _ := true
  spectrum p m := some (p + m)
  cls b q p t f m := match t "A".toList, t "B".toList with
    | some x, some y => some [b.1, b.2.2, q, p, x.1, x.2, y.1, y.2, f, m]
    | _, _ => none

def exSite : Site := ⟨["cfg".toList], ["data".toList], ["cwd".toList]⟩

/-- The files of the example. -/
def exFiles : List (Path × Nat) :=
  [(["cfg".toList, "basic_forecast_config.json".toList], 2), (["cfg".toList, "power_spectrum_config.json".toList], 4),
   (["cfg".toList, "angular_config.json".toList], 5), (["cfg".toList, "derivative_config.json".toList], 6),
   (["cfg".toList, "fisher_config.json".toList], 7), (["a".toList], 11), (["b".toList], 12),
   (["my".toList, "grid.json".toList], 40), (["my".toList, "curved.json".toList], 3)]

def exState : State Nat Nat Nat Nat (Nat × Nat) (Nat × Bool × Nat) Nat where
  objs _ := none
  store _ := {}
  next := 1
  file p := exFiles.lookup p
  inputs _ := none
  niz _ := none
  tree _ := none

/-- The results of a history, exceptions as nothing. -/
def results (ops : List Op) : List (Option (Option (List Nat))) :=
  (run exLib exSite exState ops).2.map (fun x => x.2.toOption)

/-- Object `i` in the directory `w`: one session. -/
def session (i : Nat) (a : Args) : List Op :=
  [.new i (some a), .prepare i, .cosmology i true true, .densities i, .cls i]

/-- A session with the default files. -/
example : results (session 0 { workdir := some ["w".toList] }) =
    [some none, some none, some none, some none, some (some [2, 4, 6, 2, 11, 4, 12, 4, 2, 5])] := by decide +kernel

/-- After a session with the default grid, one with another grid in the same directory succeeds with the old densities
(on grid 4, the cosmology being on grid 40): a change of configuration is not noticed. -/
theorem densities_stale :
    results (session 0 { workdir := some ["w".toList] } ++
      session 1 { workdir := some ["w".toList], powerSpectrum := some ["my".toList, "grid.json".toList] }) =
    [some none, some none, some none, some none, some (some [2, 4, 6, 2, 11, 4, 12, 4, 2, 5]),
     some none, some none, some none, some none, some (some [2, 40, 42, 2, 11, 4, 12, 4, 2, 5])] := by decide +kernel

/-- In a directory of its own the session uses its own grid. -/
example : (results (session 0 { workdir := some ["w".toList] } ++
      session 1 { workdir := some ["v".toList], powerSpectrum := some ["my".toList, "grid.json".toList] }))[9]? =
    some (some (some [2, 40, 42, 2, 11, 40, 12, 40, 2, 5])) := by decide +kernel

/-- In test mode every session works in one directory, so that the second one gets the densities of the first. -/
example : (results (session 0 { test := true } ++
      session 1 { test := true, powerSpectrum := some ["my".toList, "grid.json".toList] }))[9]? =
    some (some (some [2, 40, 42, 2, 11, 4, 12, 4, 2, 5])) := by decide +kernel

/-- The flatness is not taken from the configuration: a curved universe is refused unless the call says that it is not
flat, and a flat one is computed as not flat if the call says so. -/
theorem flat_not_read :
    results [.new 0 (some { workdir := some ["w".toList], forecast := some ["my".toList, "curved.json".toList] }),
      .prepare 0, .cosmology 0 true true, .cosmology 0 true false] = [some none, some none, none, some none] := by
  decide +kernel

/-- An object prepared a second time computes with the cosmology of the first configuration. -/
theorem prepared_again_mixes :
    (results (session 0 { workdir := some ["w".toList] } ++ [.setArgs 0 { workdir := some ["v".toList], powerSpectrum := some ["my".toList, "grid.json".toList], forecast := some ["my".toList, "curved.json".toList] },
      .prepare 0, .cls 0]))[7]? = some (some (some [2, 4, 6, 3, 11, 4, 12, 4, 3, 5])) := by decide +kernel

/-- Killed after the density of the first probe: no later session in the directory succeeds. -/
example : results ([.new 0 (some { workdir := some ["w".toList] }), .prepare 0, .killDensities 0 1] ++
      session 1 { workdir := some ["w".toList] }) =
    [some none, some none, some none, some none, some none, some none, some none, none] := by decide +kernel

/-- Killed while preparing: a later session succeeds. -/
example : (results ([.new 0 (some { workdir := some ["w".toList] }), .killPrepare 0 3] ++
      session 1 { workdir := some ["w".toList] }))[6]? = some (some (some [2, 4, 6, 2, 11, 4, 12, 4, 2, 5])) := by
  decide +kernel

/-- With a directory of power spectra given, CAMB finds no directory to write into. -/
example : results (session 0 { workdir := some ["w".toList], pmmDir := some ["p".toList] }) =
    [some none, some none, none, some none, none] := by decide +kernel

/-- The data directory as a text. -/
example : results (session 0 { workdir := some ["w".toList], dataDir := some (.text ["d".toList]) }) =
    [some none, none, none, none, none] := by decide +kernel

/-- The plan of the example: one directory with the default files. -/
def exConf : Conf Nat := ⟨2, 4, 5, 6, 7, ["data".toList], true⟩

/-- The arguments of the example name the configuration, so that `session_partial` and `session_ok` apply. -/
theorem exNames : Names exSite exState.file (fun r => ∃ _ : Nat, r = ["w".toList]) ["w".toList] exConf
    { workdir := some ["w".toList] } where
  inDir := .inr ⟨rfl, rfl⟩
  dataIn := .inr ⟨rfl, rfl⟩
  forecast := by decide +kernel
  powerSpectrum := by decide +kernel
  angular := by decide +kernel
  derivative := by decide +kernel
  fisher := by decide +kernel
  apart := by decide +kernel
  notParams := by decide +kernel
  away := by
    rintro s hs r ⟨_, rfl⟩ ⟨x, hx⟩
    have h : ∀ s ∈ files exSite { workdir := some ["w".toList] }, s.length = 2 := by decide +kernel
    have := h s hs
    rw [hx] at this
    exact absurd this (by simp)

/-- The hypotheses of `session_partial` are met by histories of many sessions, with processes killed between: -/
example (n : Nat) : ∀ op ∈ session n { workdir := some ["w".toList] } ++ [.restart, .killPrepare n 2],
    Keeps exSite exState.file (fun _ => ["w".toList]) (fun _ => exConf) op := by
  intro op h
  simp only [session, List.cons_append, List.nil_append, List.mem_cons, List.not_mem_nil, or_false] at h
  rcases h with rfl | rfl | rfl | rfl | rfl | rfl | rfl
  · exact exNames
  all_goals first | trivial | rfl

example : ∀ (_ : Nat) f, exConf.f exLib = some f → ∀ x ∈ exLib.probes f, ∀ _ : Nat, ¬ InCopies ["w".toList] x.2 := by
  intro _ f _ x hx _ ⟨y, hy⟩
  have h : ∀ x ∈ exLib.probes f, x.2.length = 1 := by
    show ∀ x ∈ [("A".toList, ["a".toList]), ("B".toList, ["b".toList])], x.2.length = 1
    decide +kernel
  have := h x hx
  rw [hy] at this
  exact absurd this (by simp)

example : exConf.spectra exLib exState.file = some [2, 4, 6, 2, 11, 4, 12, 4, 2, 5] := by decide +kernel

end Seyfert.Sess
