import Verif.Spec.CosmoFile
import Verif.Lemmas.StoredDict

/-! The files of cosmologies and power spectra. -/

namespace Seyfert.CosmoFile
open H5 (Path File begins)
open Stored hiding Fld N N_inj N_beq key

variable {V A : Type}

theorem N_inj {a b : Fld} : N a = N b ↔ a = b := by
  constructor
  · have h : ∀ a b : Fld, N a = N b → a = b := by
      intro a b
      cases a <;> cases b <;> first | (intro _; rfl) | (intro h; revert h; decide)
    exact h a b
  · rintro rfl; rfl

theorem N_beq (a b : Fld) : (N a == N b) = decide (a = b) := by
  rw [Bool.eq_iff_iff]
  simp [N_inj]

/-- Adding a data set does not change what is seen elsewhere. -/
theorem view_add {f : File V} {p s : Path} {v : V} (h : Apart p s) :
    view { f with data := f.data ++ [(p, v)] } s = view f s := by
  have hne : ∀ q, s ++ q ≠ p := fun q e => h.2 (e ▸ List.prefix_append s q)
  apply View.ext'
  · funext q
    simp only [view]
    rw [lookup_append_left]
    simpa using (hne q)
  · funext q
    rw [Bool.eq_iff_iff, view_has, view_has]
    simp [hne q]
  · rfl
  · funext q
    simp only [view, kids, List.map_append, List.map_cons, List.map_nil]
    congr 1
    rw [← List.append_assoc, List.filterMap_append]
    have : childOf (s ++ q) p = none := by
      rw [Option.eq_none_iff_forall_ne_some]
      intro n hn
      rw [childOf_some] at hn
      exact hne (q ++ [n]) (by rw [hn, List.append_assoc])
    simp [this]

theorem step_group {f : File V} {r : Path} (hf : Fresh f r) : step f (.group r) = step f (.enter r) := by
  have : f.has r = false := by
    rw [Bool.eq_false_iff]
    intro hc
    rcases has_iff.1 hc with h | h | h
    · exact hf.ne h
    · exact hf.groups [] (by simpa using h)
    · exact hf.data [] (by simpa using h)
  simp only [step, this]
  rfl

theorem group_graft {f : File V} {r : Path} (hf : Fresh f r) (ops : List (Op V)) :
    runOps f (.group r :: ops.map (shift r)) = ((runOps File.empty ops).1, graft f r (runOps File.empty ops).2) := by
  rw [← save_graft hf]
  simp only [runOps, step_group hf]

/-! ### Parameters -/

def parFile (p : Param.Par A) : File (Val A) :=
  { groups := [], data := [], attrs := (parAttrs p).map (fun i => (([], i.1), i.2)) }

theorem par_run (p : Param.Par A) :
    runOps File.empty ((parAttrs p).map (fun i => Op.att [] i.1 i.2)) = (.ok (), parFile p) := by
  rw [atts_ok]
  · simp [parFile, File.empty]
  · simp [File.empty]
  · unfold parAttrs
    cases p.kind <;> cases p.probe <;> simp [N_inj]

theorem kind_ne : Param.Kind.nuisance.str ≠ Param.Kind.cosmo.str := by decide

theorem par_read (p : Param.Par A) (h : p.kind = .nuisance → p.probe.isSome) :
    readPar (view (parFile p) []) = .ok (parKept p) := by
  have ha : ∀ n, (view (parFile p) []).att [] n = (parAttrs p).lookup n := by
    intro n
    simp only [view, parFile, List.append_nil]
    exact attr_lookup _ n
  have e1 : (view (parFile p) []).str (N .name) = .ok p.name := by
    simp [View.str, ha, parAttrs]
  have e2 : attNum (view (parFile p) []) (N .fiducial) = .ok p.fiducial := by
    simp [attNum, ha, parAttrs, List.lookup_cons, N_beq]
  have e3 : attNum (view (parFile p) []) (N .current) = .ok p.current := by
    simp [attNum, ha, parAttrs, List.lookup_cons, N_beq]
  have e4 : (view (parFile p) []).str (N .kind) = .ok p.kind.str := by
    simp [View.str, ha, parAttrs, List.lookup_cons, N_beq]
  have e5 : attFlag (view (parFile p) []) (N .free) = .ok p.free := by
    simp [attFlag, ha, parAttrs, List.lookup_cons, N_beq]
  have e6 : attNum (view (parFile p) []) (N .stem) = .ok p.stem := by
    simp [attNum, ha, parAttrs, List.lookup_cons, N_beq]
  have e7 : (view (parFile p) []).str (N .units) = .ok p.units := by
    simp [View.str, ha, parAttrs, List.lookup_cons, N_beq]
  have e8 : (view (parFile p) []).str (N .method) = .ok p.method := by
    simp [View.str, ha, parAttrs, List.lookup_cons, N_beq]
  have e9 : (view (parFile p) []).strOpt (N .probe) = if p.kind = .nuisance then p.probe else none := by
    simp only [View.strOpt, ha]
    unfold parAttrs
    cases p.kind <;> cases p.probe <;> simp [List.lookup_cons, N_beq]
  unfold readPar
  simp only [e1, e2, e3, e4, e5, e6, e7, e8, e9, Param.construct]
  obtain ⟨n, f, c, k, pr, fr, nf, s, d, u, m⟩ := p
  cases k with
  | cosmo => simp [parKept]
  | nuisance =>
    obtain ⟨x, rfl⟩ := Option.isSome_iff_exists.1 (h rfl)
    simp [kind_ne, parKept]

theorem par_clean (p : Param.Par A) : Clean (parFile p) := by
  have := clean_run (ops := (parAttrs p).map (fun i => Op.att [] i.1 i.2)) (clean_empty (V := Val A))
  rwa [par_run] at this

/-- The group of the parameters. -/
def parGroups (ps : Dict Str (Param.Par A)) : List (Op (Val A)) :=
  ps.flatMap (fun i => .group ([] ++ [i.1]) :: ((parAttrs i.2).map (fun a => Op.att [] a.1 a.2)).map (shift ([] ++ [i.1])))

theorem pars_file {ps : Dict Str (Param.Par A)} (h1 : (ps.map (·.1)).Nodup)
    (h2 : ∀ i ∈ ps, i.2.kind = .nuisance → i.2.probe.isSome) : ∃ D : File (Val A),
    runOps File.empty (parGroups ps) = (.ok (), D) ∧
      readDict (fun n => readPar ((view D []).sub [n])) ((view D []).kids []) = .ok (parsKept ps) := by
  obtain ⟨g, r1, r2, _⟩ := items_run (b := []) (P := fun x v => readPar v = .ok (parKept x)) (.group : Path → Op (Val A))
    (fun f r hf => step_group hf) (fun p => (parAttrs p).map (fun a => Op.att [] a.1 a.2)) ps (items_empty (V := Val A))
    (by simpa using h1) (by
      intro i hi
      exact ⟨_, par_run i.2, par_read i.2 (h2 i hi), par_clean i.2⟩)
  refine ⟨g, r1, ?_⟩
  have := items_read (fun v => readPar v) parKept r2
  simp only [List.nil_append] at this
  exact this

/-! ### The group of the cosmology -/

def cosItems (c : Cosmo A) (z : A) : List (Str × Val A) :=
  [(N .zGrid, .num z)] ++ optItem (N .hubble) c.hubble ++ optItem (N .distance) c.distance ++ optItem (N .growth) c.growth

def cosTop (c : Cosmo A) (b : Bool) (m : Str) (z : A) : File (Val A) :=
  { groups := [], data := top (cosItems c z),
    attrs := [(N .isFlat, .flag b), (N .model, .str m)].map (fun i => (([], i.1), i.2)) }

/-- The calls of `cosmoOps` below its group, but for the parameters. -/
def cosBase (c : Cosmo A) (b : Bool) (m : Str) (z : A) : List (Op (Val A)) :=
  [(N .isFlat, .flag b), (N .model, .str m)].map (fun i => Op.att [] i.1 i.2) ++ puts [] (cosItems c z)

theorem cosItems_nodup (c : Cosmo A) (z : A) : ((cosItems c z).map (·.1)).Nodup := by
  unfold cosItems
  cases c.hubble <;> cases c.distance <;> cases c.growth <;> simp [optItem, N_inj]

theorem cosBase_run (c : Cosmo A) (b : Bool) (m : Str) (z : A) :
    runOps File.empty (cosBase c b m z) = (.ok (), cosTop c b m z) := by
  unfold cosBase
  rw [runOps_append, atts_ok]
  · simp only
    rw [puts_ok]
    · simp [cosTop, File.empty, top]
    · simp [begins]
    · simp [begins]
    · simp [File.empty]
    · simp [File.empty]
    · exact cosItems_nodup c z
  · simp [File.empty]
  · simp [N_inj]

theorem cosTop_field (c : Cosmo A) (b : Bool) (m : Str) (z : A) (n : Str) :
    (view (cosTop c b m z) []).data [n] = (cosItems c z).lookup n := by
  simp only [view, cosTop, List.nil_append]
  exact top_lookup _ n

theorem cosTop_att (c : Cosmo A) (b : Bool) (m : Str) (z : A) :
    (cosTop c b m z).attrs.lookup ([], N .isFlat) = some (.flag b) ∧
      (cosTop c b m z).attrs.lookup ([], N .model) = some (.str m) := by
  constructor
  · unfold cosTop
    rw [attr_lookup]; simp
  · unfold cosTop
    rw [attr_lookup]; simp [List.lookup_cons, N_beq]

theorem cosTop_fresh (c : Cosmo A) (b : Bool) (m : Str) (z : A) : Fresh (cosTop c b m z) [N .pars] := by
  apply fresh_top
  · simp [cosTop]
  · intro i hi
    simp only [cosTop, top, List.mem_map] at hi
    obtain ⟨j, hj, rfl⟩ := hi
    have : j.1 ∈ (cosItems c z).map (·.1) := List.mem_map.2 ⟨j, hj, rfl⟩
    simp only [List.nil_append, List.head?_cons, ne_eq, Option.some.injEq]
    intro e
    rw [e] at this
    revert this
    unfold cosItems
    cases c.hubble <;> cases c.distance <;> cases c.growth <;> simp [optItem, N_inj]
  · simp [cosTop]
  · constructor
    · simp [cosTop]
    · simp [cosTop, top]

/-- The calls of `cosmoOps` below its group. -/
def cosInner (c : Cosmo A) (b : Bool) (m : Str) (z : A) : List (Op (Val A)) :=
  cosBase c b m z ++ match c.pars with
  | none => []
  | some ps => .group [N .pars] :: (parGroups ps).map (shift [N .pars])

theorem cosmoOps_shift (r : Path) {c : Cosmo A} {b : Bool} {m : Str} {z : A} (h1 : c.flat = some b) (h2 : c.model = some m)
    (h3 : c.grid = some z) : cosmoOps r c =
      .enter r :: (.group [N .cosmology] :: (cosInner c b m z).map (shift [N .cosmology])).map (shift r) := by
  unfold cosmoOps cosInner cosBase cosItems
  simp only [h1, h2, h3]
  obtain ⟨fl, mo, ps, gr, hu, di, gw, po, na⟩ := c
  cases ps <;> cases hu <;> cases di <;> cases gw <;>
    simp [shift, puts, optItem, putIf, putO, parsOps, parGroups, List.map_flatMap, Function.comp_def]

/-- What a group of a cosmology shows. -/
structure CosAt (u : View (Val A)) (c : Cosmo A) (b : Bool) (m : Str) (z : A) : Prop where
  flat : attFlag u (N .isFlat) = .ok b
  model : u.str (N .model) = .ok m
  grid : u.field (N .zGrid) = some z
  hubble : u.field (N .hubble) = c.hubble
  distance : u.field (N .distance) = c.distance
  growth : u.field (N .growth) = c.growth
  parsNone : c.pars = none → u.has [N .pars] = false
  parsSome : ∀ ps, c.pars = some ps → u.has [N .pars] = true ∧
    readDict (fun n => readPar (u.sub [N .pars, n])) (u.kids [N .pars]) = .ok (parsKept ps)

theorem fresh_has' {f : File V} {r : Path} (h : Fresh f r) : f.has r = false := by
  rw [Bool.eq_false_iff]
  intro hc
  rcases has_iff.1 hc with e | e | e
  · exact h.ne e
  · exact h.groups [] (by simpa using e)
  · exact h.data [] (by simpa using e)

theorem graft_here {f g : File V} {r : Path} (h : Fresh f r) : (graft f r g).has r = true := by
  have := graft_has (g := g) h []
  rw [List.append_nil] at this
  rw [this]; rfl

/-- Attributes of the root and data sets outside a graft are as before. -/
theorem graft_data {f g : File V} {a n : Str} (h : n ≠ a) : (view (graft f [a] g) []).data [n] = (view f []).data [n] := by
  have := view_graft_apart (f := f) (g := g) (show Apart [a] [n] from apart_of_ne [] [] [] (Ne.symm h))
  have := congrArg (fun v => v.data []) this
  simpa [view] using this

theorem cos_file {c : Cosmo A} (b : Bool) (m : Str) (z : A)
    (hp : ∀ ps, c.pars = some ps → (ps.map (·.1)).Nodup ∧ ∀ i ∈ ps, i.2.kind = .nuisance → i.2.probe.isSome) :
    ∃ C : File (Val A), runOps File.empty (cosInner c b m z) = (.ok (), C) ∧ CosAt (view C []) c b m z := by
  have hat : ∀ f : File (Val A), f.attrs.lookup ([], N .isFlat) = some (.flag b) →
      attFlag (view f []) (N .isFlat) = .ok b := by
    intro f h; simp [attFlag, view, h]
  have hmo : ∀ f : File (Val A), f.attrs.lookup ([], N .model) = some (.str m) →
      (view f []).str (N .model) = .ok m := by
    intro f h; simp [View.str, view, h]
  have hfs : ∀ f : File (Val A), (∀ n, n ≠ N .pars → (view f []).data [n] = (cosItems c z).lookup n) →
      (view f []).field (N .zGrid) = some z ∧ (view f []).field (N .hubble) = c.hubble ∧
      (view f []).field (N .distance) = c.distance ∧ (view f []).field (N .growth) = c.growth := by
    intro f h
    simp only [View.field, h (N .zGrid) (by simp [N_inj]), h (N .hubble) (by simp [N_inj]),
      h (N .distance) (by simp [N_inj]), h (N .growth) (by simp [N_inj])]
    unfold cosItems
    cases c.hubble <;> cases c.distance <;> cases c.growth <;> simp [optItem, List.lookup_cons, N_beq]
  have hf := cosTop_fresh c b m z
  cases hps : c.pars with
  | none =>
    refine ⟨cosTop c b m z, ?_, ?_⟩
    · unfold cosInner
      rw [hps]
      simp [cosBase_run]
    · obtain ⟨a1, a2, a3, a4⟩ := hfs (cosTop c b m z) (fun n _ => cosTop_field c b m z n)
      refine ⟨hat _ (cosTop_att c b m z).1, hmo _ (cosTop_att c b m z).2, a1, a2, a3, a4, ?_, ?_⟩
      · intro _
        exact fresh_has' hf
      · intro ps h; rw [hps] at h; cases h
  | some ps =>
    obtain ⟨D, d1, d2⟩ := pars_file (hp ps hps).1 (hp ps hps).2
    refine ⟨graft (cosTop c b m z) [N .pars] D, ?_, ?_⟩
    · unfold cosInner
      rw [hps, runOps_append, cosBase_run]
      simp only
      rw [group_graft hf, d1]
    · obtain ⟨a1, a2, a3, a4⟩ := hfs (graft (cosTop c b m z) [N .pars] D) (fun n h => by
        rw [graft_data h]; exact cosTop_field c b m z n)
      refine ⟨hat _ (by simp only [graft, List.lookup_append, (cosTop_att c b m z).1, Option.some_or]),
        hmo _ (by simp only [graft, List.lookup_append, (cosTop_att c b m z).2, Option.some_or]), a1, a2, a3, a4, ?_, ?_⟩
      · intro h; rw [hps] at h; cases h
      · intro qs h
        rw [hps] at h
        injection h with h
        subst h
        refine ⟨graft_here (g := D) hf, ?_⟩
        have hv := view_graft (g := D) hf
        have hk : (view (graft (cosTop c b m z) [N .pars] D) []).kids [N .pars] = (view D []).kids [] := by
          rw [← hv]; simp [view]
        rw [hk, ← d2]
        congr 1
        funext n
        have : (view (graft (cosTop c b m z) [N .pars] D) []).sub [N .pars, n] = (view D []).sub [n] := by
          rw [← hv, view_sub, view_sub]; rfl
        rw [this]

/-! ### The group of the power spectrum -/

def powItems (z k l n : A) : List (Str × Val A) :=
  [(N .zGrid, .num z), (N .kGrid, .num k), (N .lin, .num l), (N .nonlin, .num n)]

def powFile (s : Str) (z k l n : A) : File (Val A) :=
  { groups := [], data := top (powItems z k l n), attrs := [(([], N .code), .str s)] }

theorem pow_run (s : Str) (z k l n : A) :
    runOps File.empty (Op.att [] (N .code) (.str s) :: puts [] (powItems z k l n)) = (.ok (), powFile s z k l n) := by
  rw [runOps_cons_ok (g := { groups := [], data := [], attrs := [(([], N .code), .str s)] }) rfl, puts_ok]
  · simp [powFile, top]
  · simp [begins]
  · simp [begins]
  · simp
  · simp
  · simp [powItems, N_inj]

theorem pow_file {f : File (Val A)} (hf : Fresh f [N .power]) (ht : Fresh f [N .transfer]) {p : Power A} (h : p.Complete) :
    ∃ G, runOps f (powerOps [] p) = (.ok (), G) ∧
      (∀ o, readPower o (view G []) = .ok { p with transfer := p.transfer.or o.transfer }) ∧
      ∀ s, Apart [N .power] s → Apart [N .transfer] s → view G s = view f s := by
  obtain ⟨h1, h2, h3, h4⟩ := h
  obtain ⟨code, z, k, l, n, t⟩ := p
  obtain ⟨z, rfl⟩ := Option.isSome_iff_exists.1 h1
  obtain ⟨k, rfl⟩ := Option.isSome_iff_exists.1 h2
  obtain ⟨l, rfl⟩ := Option.isSome_iff_exists.1 h3
  obtain ⟨n, rfl⟩ := Option.isSome_iff_exists.1 h4
  have hap : Apart [N .power] [N .transfer] := apart_of_ne [] [] [] (by simp [N_inj])
  have hG := group_graft hf (Op.att [] (N .code) (.str code) :: puts [] (powItems z k l n))
  rw [pow_run] at hG
  simp only at hG
  have hft := fresh_graft (g := powFile code z k l n) hap ht
  have hread : ∀ (G : File (Val A)) o, G.has [N .power] = true → view G [N .power] = view (powFile code z k l n) [] →
      (view G []).opt [N .transfer] = .ok t →
      readPower o (view G []) = .ok ⟨code, some z, some k, some l, some n, t.or o.transfer⟩ := by
    intro G o hh hv hopt
    unfold readPower
    have hh' : (view G []).has [N .power] = true := hh
    rw [hh', view_sub, List.nil_append, hv, hopt]
    have e1 : (view (powFile code z k l n) []).str (N .code) = .ok code := by simp [View.str, view, powFile]
    have e2 : ∀ x, (view (powFile code z k l n) []).data [x] = (powItems z k l n).lookup x := by
      intro x
      simp only [view, powFile, List.nil_append]
      exact top_lookup _ x
    simp only [if_true, e1, View.field, e2]
    simp [powItems, List.lookup_cons, N_beq]
  cases t with
  | none =>
    refine ⟨graft f [N .power] (powFile code z k l n), ?_, ?_, ?_⟩
    · rw [← hG]
      simp [powerOps, putO, putIf, puts, powItems, shift]
    · intro o
      apply hread _ _ (graft_here hf) (view_graft hf)
      have := fresh_has' hft
      unfold View.opt
      have h' : (view (graft f [N .power] (powFile code z k l n)) []).has [N .transfer] = false := this
      rw [h']; rfl
    · intro s hs _
      exact view_graft_apart hs
  | some t =>
    have hput : step (graft f [N .power] (powFile code z k l n)) (.put [N .transfer] (.num t)) =
        .ok { graft f [N .power] (powFile code z k l n) with
          data := (graft f [N .power] (powFile code z k l n)).data ++ [([N .transfer], .num t)] } := by
      have := puts_ok [] [(N .transfer, Val.num t)] (graft f [N .power] (powFile code z k l n)) (by simp [begins]) (by simp [begins])
        (by simpa using fun h => hft.groups [] (by simpa using h)) (by
          intro i hi hm
          simp only [List.mem_singleton] at hi
          subst hi
          exact hft.data [] (by simpa using hm)) (by simp)
      simp only [puts, List.map_cons, List.map_nil, List.nil_append, runOps] at this
      cases hs : step (graft f [N .power] (powFile code z k l n)) (.put [N .transfer] (.num t)) with
      | error e => rw [hs] at this; simp at this
      | ok g =>
        rw [hs] at this
        simp only [Prod.mk.injEq, true_and] at this
        rw [this]
    refine ⟨{ graft f [N .power] (powFile code z k l n) with
          data := (graft f [N .power] (powFile code z k l n)).data ++ [([N .transfer], .num t)] }, ?_, ?_, ?_⟩
    · have : powerOps [] (⟨code, some z, some k, some l, some n, some t⟩ : Power A) =
          (.group [N .power] :: (Op.att [] (N .code) (.str code) :: puts [] (powItems z k l n)).map (shift [N .power])) ++
            [.put [N .transfer] (.num t)] := by
        simp [powerOps, putO, putIf, puts, powItems, shift]
      rw [this, runOps_append, hG]
      simp only [runOps, hput]
    · intro o
      apply hread
      · rw [has_iff]
        rcases has_iff.1 (graft_here (g := powFile code z k l n) hf) with e | e | e
        · exact Or.inl e
        · exact Or.inr (Or.inl e)
        · right; right; simp [e]
      · rw [view_add hap.symm]
        exact view_graft hf
      · have hd : (graft f [N .power] (powFile code z k l n)).data.lookup [N .transfer] = none := by
          rw [PyDict.lookup_none_iff]
          exact fun h => hft.data [] (by simpa using h)
        have hl : ((graft f [N .power] (powFile code z k l n)).data ++ [([N .transfer], Val.num t)]).lookup [N .transfer] =
            some (.num t) := by
          rw [lookup_append_right]
          · simp
          · exact fun h => hft.data [] (by simpa using h)
        unfold View.opt View.num
        have h1 : (view { graft f [N .power] (powFile code z k l n) with
          data := (graft f [N .power] (powFile code z k l n)).data ++ [([N .transfer], .num t)] } []).has [N .transfer] = true := by
          rw [view_has]; simp
        rw [h1]
        simp only [view, List.nil_append, hl, if_true]
    · intro s hs hs'
      rw [view_add hs', view_graft_apart hs]

/-! ### The whole -/

theorem savePower_shift (r : Path) (p : Power A) : savePower r p = .enter r :: (powerOps [] p).map (shift r) := by
  simp [savePower, powerOps, shift_putO, shift_putIf]

theorem fresh_empty' {r : Path} (h : r ≠ []) : Fresh (File.empty : File V) r := by
  constructor <;> simp [File.empty, h]

/-- The calls of `saveCosmo` below its path. -/
def saveInner (c : Cosmo A) (b : Bool) (m : Str) (z : A) (w : Bool) : List (Op (Val A)) :=
  (.group [N .cosmology] :: (cosInner c b m z).map (shift [N .cosmology])) ++ match c.power with
  | some p => if w then .enter [] :: powerOps [] p else []
  | none => []

theorem saveCosmo_shift (r : Path) {c : Cosmo A} {b : Bool} {m : Str} {z : A} (h1 : c.flat = some b) (h2 : c.model = some m)
    (h3 : c.grid = some z) (w : Bool) : saveCosmo r c w = .enter r :: (saveInner c b m z w).map (shift r) := by
  unfold saveCosmo saveInner
  rw [cosmoOps_shift r h1 h2 h3]
  cases c.power with
  | none => simp
  | some p => cases w <;> simp [savePower_shift]

/-- The file after a cosmology was saved. -/
theorem cosmo_file {c : Cosmo A} (b : Bool) (m : Str) (z : A) (w : Bool)
    (hp : ∀ ps, c.pars = some ps → (ps.map (·.1)).Nodup ∧ ∀ i ∈ ps, i.2.kind = .nuisance → i.2.probe.isSome)
    (hw : w = true → ∀ p, c.power = some p → p.Complete) :
    ∃ F : File (Val A), runOps File.empty (saveInner c b m z w) = (.ok (), F) ∧ (view F []).has [N .cosmology] = true ∧
      CosAt ((view F []).sub [N .cosmology]) c b m z ∧
      (∀ p, w = true → c.power = some p → ∀ o, readPower o (view F []) = .ok { p with transfer := p.transfer.or o.transfer }) ∧
      (w = false ∨ c.power = none → ∀ o, readPower o (view F []) = .error .keyError) := by
  obtain ⟨C, c1, c2⟩ := cos_file (c := c) b m z hp
  have hf : Fresh (File.empty : File (Val A)) [N .cosmology] := fresh_empty' (by simp)
  have hG := group_graft hf (cosInner c b m z)
  rw [c1] at hG
  simp only at hG
  have hhas := graft_here (g := C) hf
  have hview := view_graft (g := C) hf
  have a1 : Apart [N .cosmology] [N .power] := apart_of_ne [] [] [] (by simp [N_inj])
  have a2 : Apart [N .cosmology] [N .transfer] := apart_of_ne [] [] [] (by simp [N_inj])
  have f1 := fresh_graft (g := C) a1 (fresh_empty' (V := Val A) (r := [N .power]) (by simp))
  have f2 := fresh_graft (g := C) a2 (fresh_empty' (V := Val A) (r := [N .transfer]) (by simp))
  by_cases hx : ∃ p, w = true ∧ c.power = some p
  · obtain ⟨p, rfl, hpw⟩ := hx
    obtain ⟨G, g1, g2, g3⟩ := pow_file f1 f2 (hw rfl p hpw)
    have hv := g3 _ a1.symm a2.symm
    refine ⟨G, ?_, ?_, ?_, ?_, ?_⟩
    · unfold saveInner
      rw [runOps_append, hG]
      simp only [hpw, if_true]
      rw [runOps_cons_ok (g := graft File.empty [N .cosmology] C) (by simp [step, File.has]), g1]
    · have e := congrArg (fun v => v.has []) hv
      have e' : (view G [N .cosmology]).has [] = (view (graft File.empty [N .cosmology] C) [N .cosmology]).has [] := e
      have : (view G []).has [N .cosmology] = (view G [N .cosmology]).has [] := rfl
      rw [this, e']
      exact hhas
    · rw [view_sub, List.nil_append, hv, hview]
      exact c2
    · intro q _ hq
      rw [hpw] at hq
      injection hq with hq
      subst hq
      exact g2
    · rintro (h | h)
      · cases h
      · rw [hpw] at h; cases h
  · refine ⟨graft File.empty [N .cosmology] C, ?_, hhas, ?_, ?_, ?_⟩
    · unfold saveInner
      rw [runOps_append, hG]
      cases hpw : c.power with
      | none => rfl
      | some p =>
        cases w with
        | false => rfl
        | true => exact absurd ⟨p, rfl, hpw⟩ hx
    · rw [view_sub, List.nil_append, hview]
      exact c2
    · intro p h1 h2
      exact absurd ⟨p, h1, h2⟩ hx
    · intro _ o
      unfold readPower
      have : (view (graft File.empty [N .cosmology] C) []).has [N .power] = false := fresh_has' f1
      rw [this]; rfl

theorem build_ok {v : View (Val A)} {c : Cosmo A} {b : Bool} {m : Str} {z : A} {ps : Dict Str (Param.Par A)}
    (h1 : v.has [N .cosmology] = true) (h2 : CosAt (v.sub [N .cosmology]) c b m z) (h3 : c.pars = some ps) :
    readBuild v = .ok (b, m, parsKept ps) := by
  unfold readBuild
  rw [h1]
  obtain ⟨e1, e2⟩ := h2.parsSome ps h3
  simp only [if_true, h2.flat, h2.model, e1, e2]

theorem build_none {v : View (Val A)} {c : Cosmo A} {b : Bool} {m : Str} {z : A}
    (h1 : v.has [N .cosmology] = true) (h2 : CosAt (v.sub [N .cosmology]) c b m z) (h3 : c.pars = none) :
    readBuild v = .error .keyError := by
  unfold readBuild
  rw [h1]
  simp only [if_true, h2.flat, h2.model, h2.parsNone h3]
  rfl

theorem fill_eq {v : View (Val A)} {c : Cosmo A} {b : Bool} {m : Str} {z : A} (h : CosAt (v.sub [N .cosmology]) c b m z)
    (o : Cosmo A) (b' : Bool) (m' : Str) (ps : Dict Str (Param.Par A)) :
    fill o v b' m' ps = { o with grid := some z, hubble := c.hubble.or o.hubble, distance := c.distance.or o.distance,
                                 growth := c.growth.or o.growth, flat := o.flat.or (some b'), model := o.model.or (some m'),
                                 pars := o.pars.or (some ps) } := by
  unfold fill
  simp only [h.grid, h.hubble, h.distance, h.growth, Option.some_or]

end Seyfert.CosmoFile
