import Verif.Model.Parameter
import Verif.Lemmas.PyDict
import Mathlib.Tactic.Ring
import Mathlib.Tactic.Linarith

/-!
C20, C21: parameter updates.
-/

set_option linter.unusedSectionVars false

namespace Seyfert.Param

variable {K : Type} [Field K] [LinearOrder K]

/-- The current value of a parameter. -/
def cur (c : Coll K) (k : Str) : Option K := (c.pars.lookup k).map (·.current)

/-- A collection with its current values wiped out: everything that is not a current value. -/
def frozen (c : Coll K) : Coll K :=
  { c with pars := c.pars.map (fun q => (q.1, { q.2 with current := 0 })) }

theorem lookup_map_val {A B C : Type} [BEq A] (d : List (A × B)) (f : B → C) (k : A) :
    (d.map (fun q => (q.1, f q.2))).lookup k = (d.lookup k).map f := by
  induction d with
  | nil => rfl
  | cons q d ih =>
    obtain ⟨a, b⟩ := q
    rw [List.map_cons, List.lookup_cons, List.lookup_cons, ih]
    cases k == a <;> rfl

theorem lookup_setCurrent (c : Coll K) (k k' : Str) (v : K) :
    (setCurrent c k v).pars.lookup k'
      = if k' = k then (c.pars.lookup k').map (fun p => { p with current := v }) else c.pars.lookup k' := by
  unfold setCurrent
  rw [PyDict.lookup_modify]

theorem frozen_setCurrent (c : Coll K) (k : Str) (v : K) : frozen (setCurrent c k v) = frozen c := by
  unfold frozen setCurrent PyDict.modify
  simp only [List.map_map]
  congr 1
  apply List.map_congr_left
  intro q _
  simp only [Function.comp]
  split <;> rfl

theorem frozen_reset (c : Coll K) : frozen (reset c) = frozen c := by
  unfold frozen reset
  simp only [List.map_map]
  rfl

theorem reset_frozen (c : Coll K) : reset (frozen c) = reset c := by
  unfold frozen reset
  simp only [List.map_map]
  rfl

theorem frozen_keepFlat (c : Coll K) (d : Str) : frozen (keepFlat c d).1 = frozen c := by
  unfold keepFlat
  split
  · split
    · rfl
    · rfl
    · split
      · rfl
      · split
        · rfl
        · split
          · exact frozen_setCurrent _ _ _
          · split
            · exact frozen_setCurrent _ _ _
            · rfl
  · rfl

theorem frozen_update (c : Coll K) (d : Str) (s : Int) : frozen (update c d s).1 = frozen c := by
  unfold update
  split
  · exact frozen_reset c
  · split
    · rfl
    · split
      · rfl
      · split
        · rfl
        · split
          · rfl
          · rw [frozen_keepFlat, frozen_setCurrent]

/-- C20. No call, whether it succeeds or raises, changes anything but current values. -/
theorem calls_frame (c : Coll K) (l : List Call) : frozen (calls c l) = frozen c := by
  unfold calls
  induction l generalizing c with
  | nil => rfl
  | cons x l ih =>
    rw [List.foldl_cons, ih]
    cases x with
    | update d s => exact frozen_update c d s
    | reset => exact frozen_reset c

/-- C20. A reset gives every parameter its fiducial value. -/
theorem reset_fiducials (c : Coll K) : ∀ q ∈ (reset c).pars, q.2.current = q.2.fiducial := by
  intro q hq
  obtain ⟨p, _, rfl⟩ := List.mem_map.mp hq
  rfl

/-- C20. After a reset nothing is left of the history: it is as if the collection had been reset right
away. -/
theorem reset_forgets (c : Coll K) (l : List Call) : reset (calls c l) = reset c := by
  rw [← reset_frozen, calls_frame, reset_frozen]

/-- C20. Asking for the central step is a reset. -/
theorem update_central (c : Coll K) (s : Int) : update c central s = (reset c, none) := by
  unfold update; rw [if_pos rfl]

/-- The other density. -/
def partner (d : Str) : Str := if d = omm then omde else omm

theorem keepFlat_other (c : Coll K) {d k : Str} (hk : k ≠ partner d) :
    (keepFlat c d).1.pars.lookup k = c.pars.lookup k := by
  unfold keepFlat
  split
  · next hc =>
    split
    · rfl
    · rfl
    · split
      · rfl
      · split
        · rfl
        · split
          · next h =>
            rw [lookup_setCurrent, if_neg]
            intro e; apply hk; rw [e]; unfold partner; rw [if_pos h.1]
          · split
            · next h =>
              rw [lookup_setCurrent, if_neg]
              intro e; apply hk; rw [e]; unfold partner; rw [if_neg]
              rw [h.1]; decide
            · rfl
  · rfl

/-- C20. A successful update gives the varied parameter its displaced fiducial value, whatever its
value was before; the only other parameter that can change is the other density of a flat model, when
a density is varied. -/
theorem update_effect {c c' : Coll K} {d : Str} {s : Int} (hd : d ≠ central)
    (h : update c d s = (c', none)) :
    ∃ p dict eps, c.pars.lookup d = some p ∧ p.free = true ∧ c.stemDict = some dict ∧
      dict.lookup s = some eps ∧ cur c' d = some (valueFor p eps) ∧
      ∀ k, k ≠ d → ¬ (c.flat = some true ∧ (d = omm ∨ d = omde) ∧ k = partner d) →
        c'.pars.lookup k = c.pars.lookup k := by
  unfold update at h
  rw [if_neg hd] at h
  cases hp : c.pars.lookup d with
  | none => rw [hp] at h; cases h
  | some p =>
    rw [hp] at h
    simp only at h
    by_cases hf : p.free = true
    · rw [if_neg (not_not.mpr hf)] at h
      cases hs : c.stemDict with
      | none => rw [hs] at h; cases h
      | some dict =>
        rw [hs] at h
        simp only at h
        cases he : dict.lookup s with
        | none => rw [he] at h; cases h
        | some eps =>
          rw [he] at h
          simp only at h
          have hc' : c' = (keepFlat (setCurrent c d (valueFor p eps)) d).1 := by rw [h]
          refine ⟨p, dict, eps, rfl, hf, rfl, he, ?_, ?_⟩
          · by_cases hpd : d = partner d
            · exfalso
              unfold partner at hpd
              split at hpd
              · next e => rw [e] at hpd; exact absurd hpd (by decide)
              · next e => exact e hpd
            · rw [hc', cur, keepFlat_other _ hpd, lookup_setCurrent, if_pos rfl, hp]
              rfl
          · intro k hk hn
            by_cases hkp : k = partner d
            · have : ¬ (c.flat = some true ∧ (d = omm ∨ d = omde)) := fun e => hn ⟨e.1, e.2, hkp⟩
              rw [hc']
              unfold keepFlat
              rw [if_neg (show ¬ ((setCurrent c d (valueFor p eps)).flat = some true ∧
                (d = omm ∨ d = omde)) from this), lookup_setCurrent, if_neg hk]
            · rw [hc', keepFlat_other _ hkp, lookup_setCurrent, if_neg hk]
    · rw [if_pos hf] at h; cases h

/-- C20. An update after a reset: every parameter except the varied one and, in a flat model where a
density is varied, the other density has its fiducial value. -/
theorem update_after_reset {c c' : Coll K} {d : Str} {s : Int} (hd : d ≠ central)
    (h : update (reset c) d s = (c', none)) {k : Str} {p : Par K} (hk : k ≠ d)
    (hn : ¬ (c.flat = some true ∧ (d = omm ∨ d = omde) ∧ k = partner d))
    (hp : c'.pars.lookup k = some p) : p.current = p.fiducial := by
  obtain ⟨_, _, _, _, _, _, _, _, hall⟩ := update_effect hd h
  rw [hall k hk hn] at hp
  exact reset_fiducials c _ (PyDict.mem_of_lookup hp)

/-- A flat model in good order: both densities are there, their fiducials sum to one, and they are not
both free. -/
def FlatOK (c : Coll K) : Prop :=
  c.flat = some true ∧ ∃ m d, c.pars.lookup omm = some m ∧ c.pars.lookup omde = some d ∧
    m.fiducial + d.fiducial = 1 ∧ ¬ (m.free = true ∧ d.free = true)

/-- The current densities sum to one. -/
def SumOne (c : Coll K) : Prop := ∃ x y, cur c omm = some x ∧ cur c omde = some y ∧ x + y = 1

theorem flatOK_of_frozen {c c' : Coll K} (h : frozen c' = frozen c) (hc : FlatOK c) : FlatOK c' := by
  obtain ⟨hf, m, d, hm, hd, hs, hn⟩ := hc
  have hl : ∀ k, (c'.pars.lookup k).map (fun p => ({ p with current := 0 } : Par K))
      = (c.pars.lookup k).map (fun p => ({ p with current := 0 } : Par K)) := by
    intro k
    rw [← lookup_map_val, ← lookup_map_val]
    exact congrArg (List.lookup k) (show (frozen c').pars = (frozen c).pars by rw [h])
  have hfl : c'.flat = c.flat := show (frozen c').flat = (frozen c).flat by rw [h]
  have h1 := hl omm
  have h2 := hl omde
  rw [hm] at h1
  rw [hd] at h2
  obtain ⟨m', hm', e1⟩ := Option.map_eq_some_iff.mp h1
  obtain ⟨d', hd', e2⟩ := Option.map_eq_some_iff.mp h2
  simp only [Par.mk.injEq] at e1 e2
  have a1 : m'.fiducial = m.fiducial := e1.2.1
  have a2 : d'.fiducial = d.fiducial := e2.2.1
  have a3 : m'.free = m.free := e1.2.2.2.2.2.1
  have a4 : d'.free = d.free := e2.2.2.2.2.2.1
  exact ⟨hfl.trans hf, m', d', hm', hd', by rw [a1, a2]; exact hs, by rw [a3, a4]; exact hn⟩

theorem lookup_reset (c : Coll K) (k : Str) : (reset c).pars.lookup k
    = (c.pars.lookup k).map (fun p => { p with current := p.fiducial }) :=
  lookup_map_val c.pars (fun p : Par K => ({ p with current := p.fiducial } : Par K)) k

theorem sumOne_reset {c : Coll K} (hc : FlatOK c) : SumOne (reset c) := by
  obtain ⟨_, m, d, hm, hd, hs, _⟩ := hc
  refine ⟨m.fiducial, d.fiducial, ?_, ?_, hs⟩
  · show ((reset c).pars.lookup omm).map _ = _
    rw [lookup_reset, hm]
    rfl
  · show ((reset c).pars.lookup omde).map _ = _
    rw [lookup_reset, hd]
    rfl

theorem omm_ne_omde : omm ≠ omde := by decide

theorem sumOne_update {c : Coll K} (hc : FlatOK c) (hs : SumOne c) (dv : Str) (s : Int) :
    SumOne (update c dv s).1 := by
  unfold update
  split
  · exact sumOne_reset hc
  · split
    · exact hs
    · next p hp =>
      split
      · exact hs
      · next hf =>
        split
        · exact hs
        · split
          · exact hs
          · next eps _ =>
            obtain ⟨hfl, m, d, hm, hd, hsum, hnot⟩ := hc
            by_cases h1 : dv = omm
            · subst h1
              rw [hm] at hp
              have hmp : m = p := Option.some.inj hp
              subst hmp
              have hmf : m.free = true := not_not.mp hf
              have hdf : ¬ d.free = true := fun e => hnot ⟨hmf, e⟩
              unfold keepFlat
              rw [if_pos ⟨hfl, Or.inl rfl⟩, lookup_setCurrent, if_pos rfl, hm, lookup_setCurrent,
                if_neg omm_ne_omde.symm, hd]
              simp only [Option.map_some]
              rw [if_neg (not_not.mpr hsum), if_neg (fun e => hdf e.2), if_pos ⟨trivial, hdf⟩]
              refine ⟨valueFor m eps, 1 - valueFor m eps, ?_, ?_, by ring⟩
              · unfold cur
                rw [lookup_setCurrent, if_neg omm_ne_omde, lookup_setCurrent, if_pos rfl, hm]
                rfl
              · unfold cur
                rw [lookup_setCurrent, if_pos rfl, lookup_setCurrent, if_neg omm_ne_omde.symm, hd]
                rfl
            · by_cases h2 : dv = omde
              · subst h2
                rw [hd] at hp
                have hdp : d = p := Option.some.inj hp
                subst hdp
                have hdf : d.free = true := not_not.mp hf
                have hmf : ¬ m.free = true := fun e => hnot ⟨e, hdf⟩
                unfold keepFlat
                rw [if_pos ⟨hfl, Or.inr rfl⟩, lookup_setCurrent, if_neg omm_ne_omde, hm,
                  lookup_setCurrent, if_pos rfl, hd]
                simp only [Option.map_some]
                rw [if_neg (not_not.mpr hsum), if_neg (fun e => hmf e.1), if_neg (fun e => h1 e.1),
                  if_pos ⟨trivial, hmf⟩]
                refine ⟨1 - valueFor d eps, valueFor d eps, ?_, ?_, by ring⟩
                · unfold cur
                  rw [lookup_setCurrent, if_pos rfl, lookup_setCurrent, if_neg omm_ne_omde, hm]
                  rfl
                · unfold cur
                  rw [lookup_setCurrent, if_neg omm_ne_omde.symm, lookup_setCurrent, if_pos rfl, hd]
                  rfl
              · unfold keepFlat
                rw [if_neg (fun e => e.2.elim h1 h2)]
                obtain ⟨x, y, hx, hy, hxy⟩ := hs
                refine ⟨x, y, ?_, ?_, hxy⟩
                · unfold cur at hx ⊢
                  rw [lookup_setCurrent, if_neg (fun e => h1 e.symm)]; exact hx
                · unfold cur at hy ⊢
                  rw [lookup_setCurrent, if_neg (fun e => h2 e.symm)]; exact hy

/-- C20. In a flat model in good order the current densities sum to one after any sequence of updates
and resets, including those that raise. -/
theorem flat_stays_flat {c : Coll K} (hc : FlatOK c) (hs : SumOne c) (l : List Call) :
    FlatOK (calls c l) ∧ SumOne (calls c l) := by
  unfold calls
  induction l generalizing c with
  | nil => exact ⟨hc, hs⟩
  | cons x l ih =>
    rw [List.foldl_cons]
    cases x with
    | update d s => exact ih (flatOK_of_frozen (frozen_update c d s) hc) (sumOne_update hc hs d s)
    | reset => exact ih (flatOK_of_frozen (frozen_reset c) hc) (sumOne_reset hc)

/-! ### Refused updates -/

/-- Why a density of a flat model cannot be varied. -/
def CannotVary (c : Coll K) : Prop :=
  c.flat = some true ∧ (c.pars.lookup omm = none ∨ c.pars.lookup omde = none ∨
    ∃ m d, c.pars.lookup omm = some m ∧ c.pars.lookup omde = some d ∧
      (m.fiducial + d.fiducial ≠ 1 ∨ (m.free = true ∧ d.free = true)))

/-- C21 (partial). A refused update changes nothing, unless it is a density of a flat model that is
varied and flatness cannot be preserved.  Missing: that case, where the varied density keeps the
rejected value, see `refused_update_changes`. -/
theorem refused_unchanged_partial {c c' : Coll K} {d : Str} {s : Int} {e : Err}
    (h : update c d s = (c', some e)) : c' = c ∨ (CannotVary c ∧ (d = omm ∨ d = omde)) := by
  unfold update at h
  split at h
  · cases h
  · split at h
    · cases h; exact Or.inl rfl
    · next p hp =>
      split at h
      · cases h; exact Or.inl rfl
      · split at h
        · cases h; exact Or.inl rfl
        · split at h
          · cases h; exact Or.inl rfl
          · next eps _ =>
            right
            have hback : ∀ k q, (setCurrent c d (valueFor p eps)).pars.lookup k = some q →
                ∃ q', c.pars.lookup k = some q' ∧ q'.fiducial = q.fiducial ∧ q'.free = q.free := by
              intro k q hq
              rw [lookup_setCurrent] at hq
              split at hq
              · obtain ⟨q', h1, rfl⟩ := Option.map_eq_some_iff.mp hq
                exact ⟨q', h1, rfl, rfl⟩
              · exact ⟨q, hq, rfl, rfl⟩
            have hnone : ∀ k, (setCurrent c d (valueFor p eps)).pars.lookup k = none →
                c.pars.lookup k = none := by
              intro k hk
              rw [lookup_setCurrent] at hk
              split at hk
              · simpa using hk
              · exact hk
            unfold keepFlat at h
            split at h
            · next hf =>
              refine ⟨⟨hf.1, ?_⟩, hf.2⟩
              split at h
              · next h1 => exact Or.inl (hnone _ h1)
              · next h1 _ => exact Or.inr (Or.inl (hnone _ h1))
              · next m de h1 h2 =>
                obtain ⟨m', g1, g2, g3⟩ := hback _ _ h1
                obtain ⟨d', k1, k2, k3⟩ := hback _ _ h2
                refine Or.inr (Or.inr ⟨m', d', g1, k1, ?_⟩)
                rw [g2, g3, k2, k3]
                split at h
                · next hs => exact Or.inl hs
                · split at h
                  · next hb => exact Or.inr hb
                  · split at h
                    · cases h
                    · split at h <;> cases h
            · cases h

/-- C21. In a flat model in good order, and in any model that is not flat, every refused update changes
nothing. -/
theorem refused_unchanged_ok {c c' : Coll K} {d : Str} {s : Int} {e : Err}
    (hc : FlatOK c ∨ c.flat ≠ some true) (h : update c d s = (c', some e)) : c' = c := by
  rcases refused_unchanged_partial h with h | ⟨⟨hf, hbad⟩, _⟩
  · exact h
  · exfalso
    rcases hc with ⟨_, m, de, hm, hde, hs, hn⟩ | hc
    · rcases hbad with h | h | ⟨m', d', h1, h2, h3⟩
      · rw [hm] at h; cases h
      · rw [hde] at h; cases h
      · rw [hm] at h1; rw [hde] at h2
        cases h1; cases h2
        rcases h3 with h3 | h3
        · exact h3 hs
        · exact hn h3
    · exact hc hf

/-- C21. Which updates are refused: exactly unknown parameters, parameters that are not free, unknown
step numbers, and densities of a flat model that cannot be varied. -/
theorem update_refused_iff (c : Coll K) {d : Str} (s : Int) (hd : d ≠ central) :
    (∃ e, (update c d s).2 = some e) ↔
      (¬ ∃ p dict eps, c.pars.lookup d = some p ∧ p.free = true ∧ c.stemDict = some dict ∧
        dict.lookup s = some eps) ∨ (CannotVary c ∧ (d = omm ∨ d = omde)) := by
  constructor
  · rintro ⟨e, he⟩
    by_cases hx : ∃ p dict eps, c.pars.lookup d = some p ∧ p.free = true ∧ c.stemDict = some dict ∧
        dict.lookup s = some eps
    · right
      have hup : update c d s = ((update c d s).1, some e) := Prod.ext rfl he
      rcases refused_unchanged_partial hup with h | h
      · obtain ⟨p, dict, eps, h1, h2, h3, h4⟩ := hx
        unfold update at he
        rw [if_neg hd, h1] at he
        simp only at he
        rw [if_neg (not_not.mpr h2), h3] at he
        simp only at he
        rw [h4] at he
        simp only at he
        have hk : (update c d s).1 = (keepFlat (setCurrent c d (valueFor p eps)) d).1 := by
          unfold update
          rw [if_neg hd, h1]
          simp only
          rw [if_neg (not_not.mpr h2), h3]
          simp only
          rw [h4]
        have hself : setCurrent c d (valueFor p eps) = c ∨ ¬ (setCurrent c d (valueFor p eps) = c) :=
          em _
        rcases hself with hself | hself
        · rw [hself] at he
          unfold keepFlat at he
          split at he
          · next hf =>
            refine ⟨⟨hf.1, ?_⟩, hf.2⟩
            split at he
            · next g1 => exact Or.inl g1
            · next g1 _ => exact Or.inr (Or.inl g1)
            · next m de g1 g2 =>
              refine Or.inr (Or.inr ⟨m, de, g1, g2, ?_⟩)
              split at he
              · next hs => exact Or.inl hs
              · split at he
                · next hb => exact Or.inr hb
                · split at he
                  · cases he
                  · split at he <;> cases he
          · cases he
        · exfalso
          apply hself
          have hkf : ∀ (x : Coll K) (e : Err), (keepFlat x d).2 = some e → (keepFlat x d).1 = x := by
            intro x e hx
            unfold keepFlat at hx ⊢
            by_cases g : x.flat = some true ∧ (d = omm ∨ d = omde)
            · simp only [g, and_self, if_true] at hx ⊢
              cases a1 : x.pars.lookup omm with
              | none => simp only
              | some m =>
                cases a2 : x.pars.lookup omde with
                | none => simp only
                | some de =>
                  simp only [a1, a2] at hx ⊢
                  split
                  · rfl
                  · next b1 =>
                    rw [if_neg b1] at hx
                    split
                    · rfl
                    · next b2 =>
                      rw [if_neg b2] at hx
                      split
                      · next b3 => rw [if_pos b3] at hx; cases hx
                      · next b3 =>
                        rw [if_neg b3] at hx
                        split
                        · next b4 => rw [if_pos b4] at hx; cases hx
                        · rfl
            · rw [if_neg g]
          rw [← hkf _ e he, ← hk, h]
      · exact h
    · exact Or.inl hx
  · intro h
    by_contra hno
    have hok : (update c d s).2 = none := by
      cases hu : (update c d s).2 with
      | none => rfl
      | some e => exact absurd ⟨e, hu⟩ hno
    have hup : update c d s = ((update c d s).1, none) := Prod.ext rfl hok
    obtain ⟨p, dict, eps, h1, h2, h3, h4, _⟩ := update_effect hd hup
    rcases h with h | ⟨⟨hf, hbad⟩, hdm⟩
    · exact h ⟨p, dict, eps, h1, h2, h3, h4⟩
    · unfold update at hok
      rw [if_neg hd, h1] at hok
      simp only at hok
      rw [if_neg (not_not.mpr h2), h3] at hok
      simp only at hok
      rw [h4] at hok
      simp only at hok
      unfold keepFlat at hok
      rw [if_pos (show (setCurrent c d (valueFor p eps)).flat = some true ∧ _ from ⟨hf, hdm⟩)] at hok
      rw [lookup_setCurrent, lookup_setCurrent] at hok
      rcases hbad with hb | hb | ⟨m, de, hm, hde, hb⟩
      · simp only [hb, Option.map_none, ite_self] at hok
        cases hok
      · simp only [hb, Option.map_none, ite_self] at hok
        cases hx : (if omm = d then Option.map (fun p_1 : Par K => { p_1 with current := valueFor p eps })
            (List.lookup omm c.pars) else List.lookup omm c.pars) with
        | none => rw [hx] at hok; cases hok
        | some x => rw [hx] at hok; cases hok
      · have e1 : (if omm = d then Option.map (fun p_1 : Par K => { p_1 with current := valueFor p eps })
            (List.lookup omm c.pars) else List.lookup omm c.pars)
            = some (if omm = d then { m with current := valueFor p eps } else m) := by
          rw [hm]; split <;> rfl
        have e2 : (if omde = d then Option.map (fun p_1 : Par K => { p_1 with current := valueFor p eps })
            (List.lookup omde c.pars) else List.lookup omde c.pars)
            = some (if omde = d then { de with current := valueFor p eps } else de) := by
          rw [hde]; split <;> rfl
        rw [e1, e2] at hok
        simp only at hok
        have f1 : (if omm = d then { m with current := valueFor p eps } else m).fiducial = m.fiducial := by
          split <;> rfl
        have f2 : (if omde = d then { de with current := valueFor p eps } else de).fiducial
            = de.fiducial := by split <;> rfl
        have f3 : (if omm = d then { m with current := valueFor p eps } else m).free = m.free := by
          split <;> rfl
        have f4 : (if omde = d then { de with current := valueFor p eps } else de).free = de.free := by
          split <;> rfl
        simp only [f1, f2, f3, f4] at hok
        rcases hb with hb | hb
        · rw [if_pos hb] at hok; cases hok
        · by_cases hs : m.fiducial + de.fiducial ≠ 1
          · rw [if_pos hs] at hok; cases hok
          · rw [if_neg hs, if_pos hb] at hok; cases hok

/-! ### Examples and the counterexample -/

def exPar (n : Str) (x : ℚ) (free : Bool) : Par ℚ :=
  ⟨n, x, x, .cosmo, none, free, false, 1, [], "None".toList, "SteM".toList⟩

/-- A flat model; `f` tells whether the dark energy density is free too. -/
def exColl (f : Bool) : Coll ℚ :=
  loadStem ⟨[(omm, exPar omm (1 / 4) true), (omde, exPar omde (3 / 4) f),
    ("h".toList, exPar "h".toList (2 / 3) true)], none, none, none, none, some true⟩ [1 / 10, 1 / 5]

example : FlatOK (exColl false) ∧ SumOne (exColl false) :=
  ⟨⟨rfl, exPar omm (1 / 4) true, exPar omde (3 / 4) false, by rfl, by rfl, by simp [exPar]; norm_num,
    by decide⟩, ⟨1 / 4, 3 / 4, by rfl, by rfl, by norm_num⟩⟩

example : (update (exColl false) omm 1).2 = none ∧
    cur (update (exColl false) omm 1).1 omde = some (1 - (1 / 4 + 1 / 10 * 1 * (1 / 4))) := by
  constructor <;> decide +kernel

/-- C21 is false: varying a density of a flat model in which both densities are free is refused, but
leaves the rejected value behind. -/
theorem refused_update_changes : ∃ (c : Coll ℚ) (d : Str) (s : Int) (e : Err),
    (update c d s).2 = some e ∧ cur (update c d s).1 d ≠ cur c d ∧ SumOne c ∧
      ¬ SumOne (update c d s).1 := by
  refine ⟨exColl true, omm, 1, .bothFree, by decide +kernel, by decide +kernel,
    ⟨1 / 4, 3 / 4, by rfl, by rfl, by norm_num⟩, ?_⟩
  rintro ⟨x, y, hx, hy, hxy⟩
  have h1 : cur (update (exColl true) omm 1).1 omm = some (11 / 40) := by decide +kernel
  have h2 : cur (update (exColl true) omm 1).1 omde = some (3 / 4) := by decide +kernel
  rw [h1] at hx; rw [h2] at hy
  cases hx; cases hy
  norm_num at hxy

/-- C23. A parameter is accepted exactly if its kind is one of the two known ones and, for a nuisance parameter,
its probe is given; it then has the values given, with the fiducial value for a current value that is missing. -/
theorem construct_iff {K : Type} (a : Args K) (p : Par K) : construct a = .ok p ↔
    (a.kind = "CosmologicalParameter".toList ∧ p.kind = .cosmo ∨
      a.kind = "NuisanceParameter".toList ∧ p.kind = .nuisance ∧ a.probe ≠ none) ∧
    p = { name := a.name, fiducial := a.fiducial, current := a.current.getD a.fiducial, kind := p.kind,
          probe := a.probe, free := a.free, numpyFlag := false, stem := a.stem, description := a.description,
          units := a.units, method := a.method } := by
  have hne : Kind.nuisance.str ≠ Kind.cosmo.str := by decide +kernel
  unfold construct
  change _ ↔ (a.kind = Kind.cosmo.str ∧ _ ∨ a.kind = Kind.nuisance.str ∧ _) ∧ _
  by_cases h1 : a.kind = Kind.cosmo.str
  · simp only [if_pos h1]
    constructor
    · intro h
      cases h
      exact ⟨.inl ⟨h1, rfl⟩, rfl⟩
    · rintro ⟨⟨_, hk⟩ | ⟨h2, _⟩, hp⟩
      · rw [hk] at hp
        rw [hp]
      · exact absurd (h2.symm.trans h1) hne
  · simp only [if_neg h1]
    by_cases h2 : a.kind = Kind.nuisance.str
    · simp only [if_pos h2]
      cases hq : a.probe with
      | none =>
        constructor
        · intro h; cases h
        · rintro ⟨⟨h, _⟩ | ⟨_, _, h⟩, _⟩
          · exact absurd h h1
          · exact absurd rfl h
      | some q =>
        simp only
        constructor
        · intro h
          cases h
          exact ⟨.inr ⟨h2, rfl, by simp⟩, rfl⟩
        · rintro ⟨⟨h, _⟩ | ⟨_, hk, _⟩, hp⟩
          · exact absurd h h1
          · rw [hk] at hp
            rw [hp]
    · simp only [if_neg h2]
      constructor
      · intro h; cases h
      · rintro ⟨⟨h, _⟩ | ⟨h, _⟩, _⟩
        · exact absurd h h1
        · exact absurd h h2

example : (∃ p, construct (⟨"b0".toList, 1, none, "NuisanceParameter".toList, some "Void".toList, true, 1, [], [], []⟩ :
    Args ℚ) = .ok p) ∧
    construct (⟨"b0".toList, 1, none, "NuisanceParameter".toList, none, true, 1, [], [], []⟩ : Args ℚ) =
      .error .valueError := ⟨⟨_, rfl⟩, rfl⟩

end Seyfert.Param
