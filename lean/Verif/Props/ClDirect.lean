import Verif.Model.ClDirect
import Verif.Props.ClDerivative
import Verif.Props.Runner

/-!
C160: the spectra of displaced parameters are the same whether the power spectra are computed on the way or read from the files of the
run.
-/

namespace Seyfert.ClDirect

open Param (Coll Par)
open ClDer (Cosmo Cls Store Theory)

variable {S : Type}

/-- The power spectra files of a run: each is what the job of its parameter and step has written. -/
def Written (power : Power S) (c : Coll ℚ) (store : Store ℚ S) : Prop :=
  ∀ d s cosmo, store.lookup (d, s) = some cosmo → pmmJob power c d s = .ok cosmo

theorem filter_modify (l : List (Str × Par ℚ)) (d : Str) (v : ℚ) (h : ∀ q ∈ l, q.1 = d → q.2.kind ≠ .cosmo) :
    (PyDict.modify l d (fun p => { p with current := v })).filter (fun q => decide (q.2.kind = .cosmo)) =
      l.filter (fun q => decide (q.2.kind = .cosmo)) := by
  induction l with
  | nil => rfl
  | cons a l ih =>
    have ih := ih fun q hq => h q (.tail _ hq)
    unfold PyDict.modify at ih ⊢
    rw [List.map_cons]
    by_cases ha : a.1 = d
    · have hk := h a (.head _) ha
      rw [if_pos ha, List.filter_cons_of_neg (by simpa using hk), List.filter_cons_of_neg (by simpa using hk), ih]
    · rw [if_neg ha, List.filter_cons, List.filter_cons, ih]

/-- Displacing a nuisance parameter leaves the cosmological ones. -/
theorem nuisance_keeps {c : Coll ℚ} {dvar : Str} {p : Par ℚ} (hl : c.pars.lookup dvar = some p)
    (hnd : (c.pars.map (·.1)).Nodup) (hk : p.kind ≠ .cosmo) (hm : dvar ≠ Param.omm) (hd : dvar ≠ Param.omde)
    (hc : dvar ≠ Param.central) {s : Int} {c' : Coll ℚ} (hu : Param.update c dvar s = (c', none)) :
    cosmoPars c' = cosmoPars c ∧ c'.flat = c.flat := by
  have hall : ∀ q ∈ c.pars, q.1 = dvar → q.2.kind ≠ .cosmo := by
    intro q hq e
    have := PyDict.lookup_of_mem _ hnd hq
    rw [e, hl] at this
    obtain rfl := Option.some.inj this
    exact hk
  unfold Param.update at hu
  rw [if_neg hc, hl] at hu
  dsimp only at hu
  split at hu
  · cases hu
  · split at hu
    · cases hu
    · split at hu
      · cases hu
      · unfold Param.keepFlat at hu
        rw [if_neg (fun h => h.2.elim hm hd)] at hu
        cases hu
        exact ⟨filter_modify _ _ _ hall, rfl⟩

theorem update_flat {c : Coll ℚ} {dvar : Str} {s : Int} {c' : Coll ℚ} {e : Option Param.Err}
    (hu : Param.update c dvar s = (c', e)) : c'.flat = c.flat := by
  have := Param.frozen_update c dvar s
  rw [hu] at this
  have h : (Param.frozen c').flat = (Param.frozen c).flat := by rw [show Param.frozen c' = Param.frozen c from this]
  exact h

theorem kind_of_frozen {c c' : Coll ℚ} (h : Param.frozen c' = Param.frozen c) {d : Str} {p : Par ℚ}
    (hl : c.pars.lookup d = some p) : ∃ q, c'.pars.lookup d = some q ∧ q.kind = p.kind := by
  let f : Par ℚ → Par ℚ := fun q => { q with current := 0 }
  have h : (c'.pars.map (fun q => (q.1, f q.2))).lookup d = (c.pars.map (fun q => (q.1, f q.2))).lookup d :=
    congrArg (fun c : Coll ℚ => c.pars.lookup d) h
  rw [Param.lookup_map_val c'.pars f, Param.lookup_map_val c.pars f, hl] at h
  cases hq : c'.pars.lookup d with
  | none => rw [hq] at h; cases h
  | some q =>
    rw [hq] at h
    have h : f q = f p := Option.some.inj (show some (f q) = some (f p) from h)
    have h : (f q).kind = (f p).kind := by rw [h]
    exact ⟨q, rfl, h⟩

/-- C160 (partial). In a flat run, if the computation from the files of the run succeeds, the one without files gives the same spectra
for every step and leaves the same parameters. Missing: runs which are not flat, see `direct_refused`. -/
theorem direct_as_files_partial (th : Theory ℚ S) (power : Power S) (fid : Cosmo ℚ S) {dvar : Str} {p : Par ℚ} {c : Coll ℚ}
    (hc : c = Param.reset c) (hflat : c.flat = some true) (hnd : (c.pars.map (·.1)).Nodup)
    (hl : c.pars.lookup dvar = some p) (hcen : dvar ≠ Param.central)
    (hnu : p.kind ≠ .cosmo → dvar ≠ Param.omm ∧ dvar ≠ Param.omde)
    {store : Store ℚ S} (hw : Written power c store) (steps : List Int) {c' : Coll ℚ} {l : List (Int × Cls ℚ)}
    (h : ClDer.memLoop th store fid dvar c steps = (c', .ok l)) :
    directLoop th power fid dvar c steps = (c', .ok l) := by
  induction steps generalizing c' l with
  | nil => cases h; rfl
  | cons s rest ih =>
    unfold ClDer.memLoop at h
    unfold directLoop
    cases hu : Param.update c dvar s with
    | mk c₁ e =>
      rw [hu] at h
      cases e with
      | some e => cases h
      | none =>
        dsimp only at h ⊢
        have hf1 : c₁.flat = some true := (update_flat hu).trans hflat
        have hr : Param.reset c₁ = c := by
          have := Runner.reset_update c dvar s
          rw [hu] at this
          exact this.trans hc.symm
        rw [hr] at h ⊢
        have hmake : ∀ cosmo, ClDer.loadCosmology store c₁.pars dvar s = .ok cosmo →
            make power (cosmoPars c₁) (some true) = .ok cosmo := by
          intro cosmo hload
          unfold ClDer.loadCosmology at hload
          cases hid : ClDer.cosmoId c₁.pars dvar s with
          | error e => rw [hid] at hload; cases hload
          | ok i =>
            rw [hid] at hload
            dsimp only at hload
            cases hst : store.lookup i with
            | none => rw [hst] at hload; cases hload
            | some co =>
              rw [hst] at hload
              dsimp only at hload
              cases hrep : ClDer.report co.params c₁.pars with
              | some e => rw [hrep] at hload; cases hload
              | none =>
                rw [hrep] at hload
                cases hload
                have hkind : ∃ q, c₁.pars.lookup dvar = some q ∧ q.kind = p.kind := by
                  have hfr := Param.frozen_update c dvar s
                  rw [hu] at hfr
                  exact kind_of_frozen hfr hl
                obtain ⟨q, hq, hqk⟩ := hkind
                unfold ClDer.cosmoId at hid
                rw [if_neg hcen, hq] at hid
                dsimp only at hid
                by_cases hk : p.kind = .cosmo
                · rw [if_pos (hqk.trans hk)] at hid
                  cases hid
                  have := hw _ _ _ hst
                  unfold pmmJob at this
                  rw [hu] at this
                  dsimp only at this
                  rwa [hf1] at this
                · rw [if_neg (by rw [hqk]; exact hk)] at hid
                  cases hid
                  have := hw _ _ _ hst
                  unfold pmmJob Param.update at this
                  rw [if_pos rfl] at this
                  dsimp only at this
                  rw [← hc, hflat] at this
                  rwa [(nuisance_keeps hl hnd hk (hnu hk).1 (hnu hk).2 hcen hu).1]
        cases hload : ClDer.loadCosmology store c₁.pars dvar s with
        | error e => rw [hload] at h; cases h
        | ok cosmo =>
          rw [hload] at h
          rw [hmake cosmo hload]
          dsimp only at h ⊢
          cases ht : th cosmo fid c₁.pars with
          | error e => rw [ht] at h; cases h
          | ok cls =>
            rw [ht] at h
            dsimp only at h ⊢
            cases hm : ClDer.memLoop th store fid dvar c rest with
            | mk c₂ r =>
              rw [hm] at h
              cases r with
              | error e => cases h
              | ok l' =>
                cases h
                rw [ih hm]

/-- C160. Without files, in any run: each step has the spectra of a cosmology with the parameters of this step, whose power spectra
have been computed for a flat universe with them; the steps are in order and the parameters are left as they were. -/
theorem direct_steps (th : Theory ℚ S) (power : Power S) (fid : Cosmo ℚ S) {dvar : Str} {c : Coll ℚ} (hc : c = Param.reset c)
    (steps : List Int) {c' : Coll ℚ} {l : List (Int × Cls ℚ)} (h : directLoop th power fid dvar c steps = (c', .ok l)) :
    c' = c ∧ l.map (·.1) = steps ∧ ∀ q ∈ l, (Param.update c dvar q.1).2 = none ∧
      ∃ r, power (cosmoPars (Param.update c dvar q.1).1) true = .ok r ∧
        th ⟨cosmoPars (Param.update c dvar q.1).1, r⟩ fid (Param.update c dvar q.1).1.pars = .ok q.2 := by
  induction steps generalizing c' l with
  | nil => cases h; exact ⟨rfl, rfl, fun q hq => by cases hq⟩
  | cons s rest ih =>
    unfold directLoop at h
    cases hu : Param.update c dvar s with
    | mk c₁ e =>
      rw [hu] at h
      cases e with
      | some e => cases h
      | none =>
        have hr : Param.reset c₁ = c := by
          have := Runner.reset_update c dvar s
          rw [hu] at this
          exact this.trans hc.symm
        dsimp only at h
        rw [hr] at h
        unfold make at h
        cases hb : Background.create (some ((cosmoPars c₁).map fun q => (q.1, (q.2.fiducial, q.2.current)))) (some true) with
        | error e => rw [hb] at h; cases h
        | ok u =>
          rw [hb] at h
          dsimp only [Option.getD_some] at h
          cases hp : power (cosmoPars c₁) true with
          | error e => rw [hp] at h; cases h
          | ok r =>
            rw [hp] at h
            dsimp only at h
            cases ht : th ⟨cosmoPars c₁, r⟩ fid c₁.pars with
            | error e => rw [ht] at h; cases h
            | ok cls =>
              rw [ht] at h
              dsimp only at h
              cases hm : directLoop th power fid dvar c rest with
              | mk c₂ x =>
                rw [hm] at h
                cases x with
                | error e => cases h
                | ok l' =>
                  cases h
                  obtain ⟨h1, h2, h3⟩ := ih hm
                  refine ⟨h1, by rw [List.map_cons, h2], fun q hq => ?_⟩
                  rcases List.mem_cons.mp hq with rfl | hq
                  · dsimp only
                    rw [hu]
                    exact ⟨rfl, r, hp, ht⟩
                  · exact h3 q hq

/-- C160. Without files, a step for which the densities do not add up to one is refused, whatever the flatness of the run. -/
theorem direct_refused (th : Theory ℚ S) (power : Power S) (fid : Cosmo ℚ S) {dvar : Str} {c c₁ : Coll ℚ} {s : Int}
    (rest : List Int) (hu : Param.update c dvar s = (c₁, none)) {m d : Par ℚ}
    (hm : (cosmoPars c₁).lookup "Omm".toList = some m) (hd : (cosmoPars c₁).lookup "OmDE".toList = some d)
    (h : Background.round10 (1 - (m.current + d.current)) ≠ 0) :
    directLoop th power fid dvar c (s :: rest) = (c₁, .error (.cosmology .cosmology)) := by
  have hcr : Background.create (some ((cosmoPars c₁).map fun q => (q.1, (q.2.fiducial, q.2.current)))) (some true) =
      .error .cosmology := by
    have hlk := fun (l : List (Str × Par ℚ)) (k : Str) => Param.lookup_map_val l (fun q => (q.fiducial, q.current)) k
    unfold Background.create Background.check
    dsimp only
    rw [hlk _ "Omm".toList, hlk _ "OmDE".toList, hm, hd]
    split
    · rfl
    · split
      · rfl
      · exact if_pos h
  unfold directLoop
  rw [hu]
  dsimp only
  unfold make
  rw [hcr]

/-! ### Runs -/

/-- Parameters of a run: the Hubble parameter and the two densities, of which that of matter is free. -/
def exColl (flat : Bool) : Coll ℚ :=
  Param.loadStem ⟨[("h".toList, ⟨"h".toList, 67 / 100, 67 / 100, .cosmo, none, true, false, 1, [], [], Names.stem⟩),
    ("Omm".toList, ⟨"Omm".toList, 3 / 10, 3 / 10, .cosmo, none, true, false, 1, [], [], Names.stem⟩),
    ("OmDE".toList, ⟨"OmDE".toList, 7 / 10, 7 / 10, .cosmo, none, false, false, 1 / 100, [], [], Names.stem⟩)],
    none, none, none, none, some flat⟩ [1 / 100, 2 / 100]

/-- Power spectra: here the number of parameters. -/
def exPower : Power Nat := fun l _ => .ok l.length

/-- The spectra: one, with the density of dark energy of the cosmology. -/
def exTheory : Theory ℚ Nat := fun c _ _ =>
  .ok [(("a".toList, "a".toList), ⟨[1], [((c.params.lookup "OmDE".toList).map (·.current)).getD 0]⟩)]

/-- The files of the run for the density of matter. -/
def exStore (flat : Bool) : Store ℚ Nat :=
  [-2, -1, 1, 2].filterMap fun s => match pmmJob exPower (exColl flat) "Omm".toList s with
    | .ok c => some (("Omm".toList, s), c)
    | .error _ => none

theorem exWritten (flat : Bool) : Written exPower (exColl flat) (exStore flat) := by
  intro d s cosmo h
  have := PyDict.mem_of_lookup h
  unfold exStore at this
  obtain ⟨t, -, ht⟩ := List.mem_filterMap.mp this
  cases hj : pmmJob exPower (exColl flat) "Omm".toList t with
  | error e => rw [hj] at ht; cases ht
  | ok c => rw [hj] at ht; cases ht; exact hj

/-- The values which the spectra have at each step, or nothing. -/
def shown {E : Type} : Except E (List (Int × Cls ℚ)) → Option (List (Int × List ℚ))
  | .ok l => some (l.map fun q => (q.1, q.2.flatMap fun k => k.2.vals))
  | .error _ => none

/-- Flat: with and without files. -/
example : ∃ c' l, directLoop exTheory exPower ⟨[], 0⟩ "Omm".toList (exColl true) [-2, -1, 1, 2] = (c', .ok l) ∧ l.length = 4 := by
  have hs : shown (ClDer.memLoop exTheory (exStore true) ⟨[], 0⟩ "Omm".toList (exColl true) [-2, -1, 1, 2]).2 =
      some [(-2, [706 / 1000]), (-1, [703 / 1000]), (1, [697 / 1000]), (2, [694 / 1000])] := by decide +kernel
  cases hm : ClDer.memLoop exTheory (exStore true) ⟨[], 0⟩ "Omm".toList (exColl true) [-2, -1, 1, 2] with
  | mk c' r =>
    rw [hm] at hs
    cases r with
    | error e => cases hs
    | ok l =>
      refine ⟨c', l, direct_as_files_partial exTheory exPower _ rfl rfl (by decide +kernel) (p := ⟨"Omm".toList, 3 / 10, 3 / 10, .cosmo, none, true, false, 1, [], [], Names.stem⟩)
        rfl (by decide +kernel) (fun h => absurd rfl h) (exWritten true) _ hm, ?_⟩
      have := congrArg (Option.map List.length) hs
      simpa [shown] using this

/-- C160. Not flat: the files give the spectra of all steps, and without them the first step is refused. -/
theorem direct_not_as_files :
    shown (ClDer.memLoop exTheory (exStore false) ⟨[], 0⟩ "Omm".toList (exColl false) [-2, -1, 1, 2]).2 =
      some [(-2, [7 / 10]), (-1, [7 / 10]), (1, [7 / 10]), (2, [7 / 10])] ∧
    ∃ c', directLoop exTheory exPower ⟨[], 0⟩ "Omm".toList (exColl false) [-2, -1, 1, 2] = (c', .error (.cosmology .cosmology)) := by
  refine ⟨by decide +kernel, _, direct_refused exTheory exPower _ _ (c₁ := (Param.update (exColl false) "Omm".toList (-2)).1)
    (m := ⟨"Omm".toList, 3 / 10, 294 / 1000, .cosmo, none, true, false, 1, [], [], Names.stem⟩)
    (d := ⟨"OmDE".toList, 7 / 10, 7 / 10, .cosmo, none, false, false, 1 / 100, [], [], Names.stem⟩) ?_ ?_ ?_ ?_⟩
  · have : (Param.update (exColl false) "Omm".toList (-2)).2 = none := by decide +kernel
    exact Prod.ext rfl this
  · decide +kernel
  · decide +kernel
  · decide +kernel

end Seyfert.ClDirect
