import Verif.Spec.ForecastLoad
import Verif.Props.Keys
import Verif.Props.Parameter
import Verif.Lemmas.PyDict

/-! Lemmas on reading a configuration. -/

namespace Seyfert.FLoad

open Param (Par Args Coll construct)
open Keys (Probe)

variable {K : Type}

theorem nameTo_name (k k' : Keys.Kind) (a : Probe) : nameTo k' (a.name k) = .ok (a.name k') := by
  unfold nameTo
  rw [(Keys.probe_name_conversion k k' a).1]
  simp only [(Keys.probe_name_conversion k k' a).2]

theorem name_inj (k : Keys.Kind) (a b : Probe) : a.name k = b.name k ↔ a = b := by
  constructor
  · revert k a b; decide +kernel
  · rintro rfl; rfl

theorem lookup_probe {A : Type} (k : Keys.Kind) (ps : List (Probe × A)) (h : (ps.map (·.1)).Nodup) {q : Probe × A} (hq : q ∈ ps) :
    (ps.map (fun q => (q.1.name k, q.2))).lookup (q.1.name k) = some q.2 := by
  refine PyDict.lookup_of_mem (p := (q.1.name k, q.2)) _ ?_ (List.mem_map.mpr ⟨q, hq, rfl⟩)
  rw [List.map_map]
  have : ((fun p : Str × A => p.1) ∘ fun q : Probe × A => (q.1.name k, q.2)) = (fun a => Probe.name k a) ∘ (·.1) := rfl
  rw [this, ← List.map_map]
  exact h.map (fun a b hab => (name_inj k a b).mp hab)

/-! ### Lists of calls -/

theorem mapE_ok_iff {A B : Type} (f : A → Except Err B) (l : List A) (r : List B) :
    mapE f l = .ok r ↔ (∀ a ∈ l, ∃ b, f a = .ok b) ∧ r = l.filterMap (fun a => (f a).toOption) := by
  induction l generalizing r with
  | nil =>
    simp only [mapE]
    constructor
    · intro h; cases h; simp
    · rintro ⟨_, rfl⟩; rfl
  | cons a l ih =>
    simp only [mapE]
    cases ha : f a with
    | error e =>
      simp only
      constructor
      · intro h; cases h
      · rintro ⟨h, _⟩
        obtain ⟨b, hb⟩ := h a (by simp)
        rw [ha] at hb; cases hb
    | ok b =>
      simp only
      cases hl : mapE f l with
      | error e =>
        simp only
        constructor
        · intro h; cases h
        · rintro ⟨h, _⟩
          have := (ih _).mpr ⟨fun a ha => h a (List.mem_cons_of_mem _ ha), rfl⟩
          rw [hl] at this; cases this
      | ok bs =>
        obtain ⟨h1, h2⟩ := (ih bs).mp hl
        simp only [List.filterMap_cons, ha, Except.toOption]
        constructor
        · intro h
          cases h
          refine ⟨?_, by rw [h2]; rfl⟩
          intro x hx
          rcases List.mem_cons.mp hx with rfl | hx
          · exact ⟨b, ha⟩
          · exact h1 x hx
        · rintro ⟨_, rfl⟩
          rw [h2]; rfl

theorem named_ok (a : Args K) (h : ∃ p, construct a = .ok p) : ∃ b, named a = .ok b := by
  obtain ⟨p, hp⟩ := h
  exact ⟨(p.name, p), by unfold named; rw [hp]⟩

theorem named_ok_iff (a : Args K) : (∃ b, named a = .ok b) ↔ ∃ p, construct a = .ok p := by
  constructor
  · rintro ⟨b, hb⟩
    unfold named at hb
    cases hc : construct a with
    | error e => simp only [hc] at hb; cases hb
    | ok p => exact ⟨p, rfl⟩
  · exact named_ok a

theorem named_opt (a : Args K) : (named a).toOption = (construct a).toOption.map (fun p => (p.name, p)) := by
  unfold named
  cases construct a <;> rfl

theorem mapE_named (l : List (Args K)) (r : List (Str × Par K)) :
    mapE named l = .ok r ↔ (∀ a ∈ l, ∃ p, construct a = .ok p) ∧ r = listed l := by
  rw [mapE_ok_iff]
  simp only [named_ok_iff, named_opt]
  rfl

theorem biasItem_eq [One K] (p : Probe) (m : Bool) (diff : Option Str) (kv : Str × K) :
    biasItem (p.name .long) m diff kv = .ok (kv.1, biasPar p m diff kv) := by
  have hne : Param.Kind.nuisance.str ≠ Param.Kind.cosmo.str := by decide +kernel
  have : construct (⟨kv.1, kv.2, none, Param.Kind.nuisance.str, some (p.name .long), m, 1, [], noneS, stemS⟩ : Args K)
      = .ok (biasPar p m none kv) := by
    unfold construct
    simp only [if_neg hne, if_true]
    rfl
  unfold biasItem
  rw [this]
  cases diff <;> rfl

theorem mapE_bias [One K] (p : Probe) (m : Bool) (diff : Option Str) (b : Dict Str K) :
    mapE (biasItem (p.name .long) m diff) b = .ok (b.map (fun kv => (kv.1, biasPar p m diff kv))) := by
  rw [mapE_ok_iff]
  simp only [biasItem_eq]
  refine ⟨fun a _ => ⟨_, rfl⟩, ?_⟩
  simp [Except.toOption]

/-! ### The probes -/

/-- The configuration of a probe once its entry has been read. -/
def cfgOf (q : Probe × PDict K) : PCfg K :=
  let g := match q.2.grid with
    | .ok g => g
    | .error _ => ([], [])
  if q.1 = .lensing then ⟨g.1, g.2, none, some false, none, []⟩
  else ⟨g.1, g.2, some q.2.bias, q.2.marg, q.2.diff, []⟩

theorem long_lensing (p : Probe) : p.name .long = lensing ↔ p = .lensing := name_inj .long p .lensing

theorem loadProbe_iff {j : Json K} {ps : List (Probe × PDict K)} (hj : Lists j ps) {q : Probe × PDict K} (hq : q ∈ ps)
    (c : PCfg K) : loadProbe j.probes (q.1.name .long) = .ok c ↔ (∃ g, q.2.grid = .ok g) ∧ c = cfgOf q := by
  unfold loadProbe
  rw [nameTo_name, hj.1]
  simp only [lookup_probe .alias ps hj.2 hq]
  cases hg : q.2.grid with
  | error e =>
    simp only
    constructor
    · intro h; cases h
    · rintro ⟨⟨g, h⟩, _⟩; cases h
  | ok g =>
    obtain ⟨cs, ws⟩ := g
    simp only [cfgOf, hg, ne_eq, long_lensing]
    by_cases hl : q.1 = .lensing
    · simp only [hl, not_true, if_false, if_true]
      constructor
      · intro h; cases h; exact ⟨⟨_, rfl⟩, rfl⟩
      · rintro ⟨_, rfl⟩; rfl
    · simp only [hl, not_false_eq_true, if_true, if_false]
      constructor
      · intro h; cases h; exact ⟨⟨_, rfl⟩, rfl⟩
      · rintro ⟨_, rfl⟩; rfl

theorem loadProbesFrom_iff {j : Json K} {ps : List (Probe × PDict K)} (hj : Lists j ps)
    (l : List (Probe × PDict K)) (hl : ∀ q ∈ l, q ∈ ps) (cfgs r : Dict Str (PCfg K)) :
    loadProbesFrom j.probes (l.map (fun q => (q.1.name .alias, q.2))) cfgs = .ok r ↔
      (∀ q ∈ on l, ∃ g, q.2.grid = .ok g) ∧
        r = PyDict.update cfgs ((on l).map (fun q => (q.1.name .long, cfgOf q))) := by
  induction l generalizing cfgs with
  | nil =>
    simp only [List.map_nil, loadProbesFrom]
    constructor
    · intro h; cases h; exact ⟨by simp [on], rfl⟩
    · rintro ⟨_, rfl⟩; rfl
  | cons q l ih =>
    have ih := ih (fun x hx => hl x (List.mem_cons_of_mem _ hx))
    simp only [List.map_cons, loadProbesFrom]
    cases hp : q.2.present with
    | false =>
      have : on (q :: l) = on l := by simp [on, hp]
      rw [this]
      simpa using ih cfgs
    | true =>
      have hon : on (q :: l) = q :: on l := by simp [on, hp]
      rw [hon]
      simp only [if_true, nameTo_name]
      cases hc : loadProbe j.probes (q.1.name .long) with
      | error e =>
        simp only
        constructor
        · intro h; cases h
        · rintro ⟨h, _⟩
          have := (loadProbe_iff hj (hl q (by simp)) _).mpr ⟨h q (by simp), rfl⟩
          rw [hc] at this; cases this
      | ok c =>
        obtain ⟨hg, rfl⟩ := (loadProbe_iff hj (hl q (by simp)) c).mp hc
        simp only
        rw [ih]
        constructor
        · rintro ⟨h1, h2⟩
          refine ⟨?_, h2⟩
          intro x hx
          rcases List.mem_cons.mp hx with rfl | hx
          · exact hg
          · exact h1 x hx
        · rintro ⟨h1, h2⟩
          exact ⟨fun x hx => h1 x (List.mem_cons_of_mem _ hx), h2⟩

theorem on_nodup {ps : List (Probe × PDict K)} (h : (ps.map (·.1)).Nodup) : ((on ps).map (·.1)).Nodup :=
  h.sublist (List.filter_sublist.map _)

theorem long_nodup {A : Type} {l : List (Probe × A)} (k : Keys.Kind) {B : Type} (f : Probe × A → B)
    (h : (l.map (·.1)).Nodup) : ((l.map (fun q => (q.1.name k, f q))).map (·.1)).Nodup := by
  rw [List.map_map]
  have : ((fun p : Str × B => p.1) ∘ fun q : Probe × A => (q.1.name k, f q)) = (fun a => Probe.name k a) ∘ (·.1) := rfl
  rw [this, ← List.map_map]
  exact h.map (fun a b hab => (name_inj k a b).mp hab)

theorem loadProbes_iff (isFile : Str → Bool) {j : Json K} {ps : List (Probe × PDict K)} (hj : Lists j ps)
    (f f' : Forecast K) : loadProbes isFile j f = .ok f' ↔
      (∀ q ∈ on ps, ∃ g, q.2.grid = .ok g) ∧ (∀ s, j.shot = some s → isFile s = true) ∧
        f' = ⟨PyDict.update f.cfgs ((on ps).map (fun q => (q.1.name .long, cfgOf q))),
          Config.combosWR ((PyDict.update f.cfgs ((on ps).map (fun q => (q.1.name .long, cfgOf q)))).map (·.1)),
          j.shot.or f.shot⟩ := by
  unfold loadProbes
  have key := fun r => loadProbesFrom_iff hj ps (fun _ h => h) f.cfgs r
  rw [← hj.1] at key
  cases hc : loadProbesFrom j.probes j.probes f.cfgs with
  | error e =>
    simp only
    constructor
    · intro h; cases h
    · rintro ⟨h, _⟩
      have := (key _).mpr ⟨h, rfl⟩
      rw [hc] at this; cases this
  | ok cfgs =>
    obtain ⟨hg, hcfg⟩ := (key cfgs).mp hc
    simp only
    rw [← hcfg]
    cases hs : j.shot with
    | none =>
      simp only [Option.none_or]
      constructor
      · intro h; cases h; exact ⟨hg, by simp, rfl⟩
      · rintro ⟨_, _, rfl⟩; rfl
    | some s =>
      simp only [Option.some_or]
      by_cases hf : isFile s = true
      · simp only [hf, if_true]
        constructor
        · intro h; cases h
          exact ⟨hg, fun t ht => by cases ht; exact hf, rfl⟩
        · rintro ⟨_, _, rfl⟩; rfl
      · simp only [hf]
        constructor
        · intro h; cases h
        · rintro ⟨_, h, _⟩; exact absurd (h s rfl) hf

/-! ### The parameters -/

/-- What a probe holds after its nuisance parameters have been read on top of those it has. -/
def nuisOf [One K] (n : Dict Str (Par K)) (q : Probe × PDict K) : Dict Str (Par K) :=
  PyDict.update (PyDict.update n (biasPars q)) (PyDict.ofItems (listed (q.2.extra.getD [])))

theorem biasPart_eq [One K] (q : Probe × PDict K) (n : Dict Str (Par K)) :
    biasPart (q.1.name .long) { cfgOf q with nuis := n } = .ok (PyDict.update n (biasPars q)) := by
  unfold biasPart cfgOf biasPars
  by_cases hl : q.1 = .lensing
  · simp only [hl, if_true]; rfl
  · simp only [hl, if_false]
    cases q.2.marg with
    | none => rfl
    | some m => simp only [mapE_bias]

theorem loadNuis_iff [One K] (q : Probe × PDict K) (n r : Dict Str (Par K)) :
    loadNuis (q.1.name .long) { cfgOf q with nuis := n } q.2 = .ok r ↔
      (∀ a ∈ q.2.extra.getD [], ∃ p, construct a = .ok p) ∧ r = nuisOf n q := by
  unfold loadNuis nuisOf
  rw [biasPart_eq]
  simp only
  cases q.2.extra with
  | none =>
    simp only [Option.getD_none]
    constructor
    · intro h; cases h; exact ⟨by simp, rfl⟩
    · rintro ⟨_, rfl⟩; rfl
  | some l =>
    simp only [Option.getD_some]
    cases hm : mapE named l with
    | error e =>
      simp only
      constructor
      · intro h; cases h
      · rintro ⟨h, _⟩
        have := (mapE_named l _).mpr ⟨h, rfl⟩
        rw [hm] at this; cases this
    | ok items =>
      obtain ⟨h1, rfl⟩ := (mapE_named l items).mp hm
      simp only
      constructor
      · intro h; cases h; exact ⟨h1, rfl⟩
      · rintro ⟨_, rfl⟩; rfl

/-- The parameters of the collection after the probes. -/
def collOf [One K] (pars : Dict Str (Par K)) : List ((Probe × PDict K) × Dict Str (Par K)) → Dict Str (Par K)
  | [] => pars
  | x :: l => collOf (PyDict.update pars (nuisOf x.2 x.1)) l

theorem probePars_iff [One K] {j : Json K} {ps : List (Probe × PDict K)} (hj : Lists j ps)
    (l : List ((Probe × PDict K) × Dict Str (Par K))) (hl : ∀ x ∈ l, x.1 ∈ ps) (pars : Dict Str (Par K))
    (r : Dict Str (Par K) × Dict Str (PCfg K)) :
    probePars j.probes (l.map (fun x => (x.1.1.name .long, { cfgOf x.1 with nuis := x.2 }))) pars = .ok r ↔
      (∀ x ∈ l, ∀ a ∈ x.1.2.extra.getD [], ∃ p, construct a = .ok p) ∧
        r = (collOf pars l, l.map (fun x => (x.1.1.name .long, { cfgOf x.1 with nuis := nuisOf x.2 x.1 }))) := by
  induction l generalizing pars r with
  | nil =>
    simp only [List.map_nil, probePars, collOf]
    constructor
    · intro h; cases h; simp
    · rintro ⟨_, rfl⟩; rfl
  | cons x l ih =>
    obtain ⟨q, n⟩ := x
    have ih := ih (fun x hx => hl x (List.mem_cons_of_mem _ hx))
    have hq : q ∈ ps := hl (q, n) (by simp)
    simp only [List.map_cons, probePars, nameTo_name]
    have hlk : j.probes.lookup (q.1.name .alias) = some q.2 := by
      rw [hj.1]; exact lookup_probe .alias ps hj.2 hq
    simp only [hlk]
    cases hn : loadNuis (q.1.name .long) { cfgOf q with nuis := n } q.2 with
    | error e =>
      simp only
      constructor
      · intro h; cases h
      · rintro ⟨h, _⟩
        have := (loadNuis_iff q n _).mpr ⟨h (q, n) (by simp), rfl⟩
        rw [hn] at this; cases this
    | ok m =>
      obtain ⟨h1, rfl⟩ := (loadNuis_iff q n m).mp hn
      simp only [collOf]
      cases hr : probePars j.probes (l.map (fun x => (x.1.1.name .long, { cfgOf x.1 with nuis := x.2 })))
          (PyDict.update pars (nuisOf n q)) with
      | error e =>
        simp only
        constructor
        · intro h; cases h
        · rintro ⟨h, _⟩
          have := (ih (PyDict.update pars (nuisOf n q)) _).mpr ⟨fun x hx => h x (List.mem_cons_of_mem _ hx), rfl⟩
          rw [hr] at this; cases this
      | ok r' =>
        obtain ⟨h2, rfl⟩ := (ih _ _).mp hr
        simp only
        constructor
        · intro h
          cases h
          refine ⟨?_, rfl⟩
          intro x hx
          rcases List.mem_cons.mp hx with rfl | hx
          · exact h1
          · exact h2 x hx
        · rintro ⟨_, rfl⟩; rfl

/-! ### Dictionaries -/

theorem ofItems_keys_nodup {υ : Type} (o : List (Str × υ)) : ((PyDict.ofItems o).map (·.1)).Nodup :=
  PyDict.nodup_update [] o (by simp)

theorem lookup_ofItems {υ : Type} (o : List (Str × υ)) (k : Str) : (PyDict.ofItems o).lookup k = o.reverse.lookup k := by
  unfold PyDict.ofItems
  rw [PyDict.lookup_update]
  simp

theorem lookup_append_rev {υ : Type} (a b : List (Str × υ)) (k : Str) :
    (a ++ b).reverse.lookup k = (b.reverse.lookup k).or (a.reverse.lookup k) := by
  rw [List.reverse_append, List.lookup_append]

theorem nuisOf_nodup [One K] (n : Dict Str (Par K)) (hn : (n.map (·.1)).Nodup) (q : Probe × PDict K) :
    ((nuisOf n q).map (·.1)).Nodup :=
  PyDict.nodup_update _ _ (PyDict.nodup_update _ _ hn)

theorem lookup_nuisOf [One K] (n : Dict Str (Par K)) (q : Probe × PDict K) (k : Str) :
    (nuisOf n q).lookup k = ((probeDeclared q).reverse.lookup k).or (n.lookup k) := by
  unfold nuisOf probeDeclared
  rw [PyDict.lookup_update, PyDict.lookup_reverse _ (ofItems_keys_nodup _), lookup_ofItems, PyDict.lookup_update,
    lookup_append_rev, Option.or_assoc]

theorem lookup_collOf [One K] (pars : Dict Str (Par K)) (l : List (Probe × PDict K)) (k : Str) :
    (collOf pars (l.map (fun q => (q, [])))).lookup k
      = ((l.flatMap probeDeclared).reverse.lookup k).or (pars.lookup k) := by
  induction l generalizing pars with
  | nil => simp [collOf]
  | cons q l ih =>
    rw [List.map_cons, collOf, ih, PyDict.lookup_update, PyDict.lookup_reverse _ (nuisOf_nodup [] (by simp) q),
      lookup_nuisOf, List.flatMap_cons, lookup_append_rev]
    simp [Option.or_assoc]

theorem collOf_nodup [One K] (pars : Dict Str (Par K)) (h : (pars.map (·.1)).Nodup)
    (l : List ((Probe × PDict K) × Dict Str (Par K))) : ((collOf pars l).map (·.1)).Nodup := by
  induction l generalizing pars with
  | nil => exact h
  | cons x l ih => exact ih _ (PyDict.nodup_update _ _ h)

theorem nuisOf_exact [One K] (q : Probe × PDict K) (h : ((probeDeclared q).map (·.1)).Nodup) :
    nuisOf [] q = probeDeclared q := by
  unfold nuisOf
  unfold probeDeclared at h ⊢
  have h1 : ((biasPars q).map (·.1)).Nodup := by
    rw [List.map_append] at h; exact h.of_append_left
  have h2 : ((listed (q.2.extra.getD [])).map (·.1)).Nodup := by
    rw [List.map_append] at h; exact h.of_append_right
  rw [PyDict.update_nodup [] _ (by simpa using h1), List.nil_append, PyDict.ofItems_nodup _ h2,
    PyDict.update_nodup _ _ h]

theorem collOf_exact [One K] (pars : Dict Str (Par K)) (l : List (Probe × PDict K))
    (h : ((pars ++ l.flatMap probeDeclared).map (·.1)).Nodup) :
    collOf pars (l.map (fun q => (q, []))) = pars ++ l.flatMap probeDeclared := by
  induction l generalizing pars with
  | nil => simp [collOf]
  | cons q l ih =>
    rw [List.map_cons, collOf]
    rw [List.flatMap_cons, ← List.append_assoc] at h ⊢
    have h1 : ((pars ++ probeDeclared q).map (·.1)).Nodup := by
      rw [List.map_append] at h; exact h.of_append_left
    have h2 : ((probeDeclared q).map (·.1)).Nodup := by
      rw [List.map_append] at h1; exact h1.of_append_right
    rw [nuisOf_exact q h2, PyDict.update_nodup _ _ h1]
    exact ih _ h

theorem update_same {υ : Type} (d o : List (Str × υ)) (h : d.map (·.1) = o.map (·.1)) (hn : (o.map (·.1)).Nodup) :
    PyDict.update d o = o := by
  have key : ∀ (a d o : List (Str × υ)), d.map (·.1) = o.map (·.1) → ((a ++ o).map (·.1)).Nodup →
      PyDict.update (a ++ d) o = a ++ o := by
    intro a d o
    induction o generalizing a d with
    | nil => intro h _; rw [List.map_nil, List.map_eq_nil_iff] at h; rw [h]; rfl
    | cons x o ih =>
      intro h hn
      cases d with
      | nil => cases h
      | cons y d =>
        rw [List.map_cons, List.map_cons] at h
        injection h with h1 h2
        have hset : PyDict.set (a ++ y :: d) x.1 x.2 = a ++ x :: d := by
          have hx : x.1 ∉ a.map (·.1) := by
            rw [List.map_append, List.map_cons] at hn
            intro hm
            exact (List.nodup_append.mp hn).2.2 _ hm x.1 (by simp) rfl
          clear ih hn
          induction a with
          | nil =>
            obtain ⟨y1, y2⟩ := y
            rw [List.nil_append, PyDict.set]
            exact (if_pos h1).trans (by simp only at h1; rw [h1]; rfl)
          | cons b a iha =>
            obtain ⟨b1, b2⟩ := b
            rw [List.cons_append, PyDict.set]
            rw [List.map_cons, List.mem_cons, not_or] at hx
            rw [if_neg (fun e => hx.1 e.symm), iha hx.2]
            rfl
        have : PyDict.update (a ++ y :: d) (x :: o) = PyDict.update (PyDict.set (a ++ y :: d) x.1 x.2) o := rfl
        rw [this, hset]
        have := ih (a ++ [x]) d h2 (by simpa using hn)
        simpa using this
  exact key [] d o h (by simpa using hn)

end Seyfert.FLoad
