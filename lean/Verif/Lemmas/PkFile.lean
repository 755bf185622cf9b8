import Verif.Spec.PkFile
import Verif.Lemmas.PyDict
import Mathlib.Data.List.Nodup

/-! Lemmas for C155. -/

namespace Seyfert.Pk

variable {M : Type}

theorem mem_set {κ υ : Type} [DecidableEq κ] {d : List (κ × υ)} {k : κ} {v : υ} {p : κ × υ} (h : p ∈ PyDict.set d k v) :
    p ∈ d ∨ p = (k, v) := by
  induction d with
  | nil => right; simpa [PyDict.set] using h
  | cons q l ih =>
    obtain ⟨a, b⟩ := q
    unfold PyDict.set at h
    split at h
    · next e =>
      rcases List.mem_cons.mp h with h | h
      · right; rw [h, e]
      · left; exact List.mem_cons_of_mem _ h
    · rcases List.mem_cons.mp h with h | h
      · left; rw [h]; exact List.mem_cons_self
      · rcases ih h with h | h
        · left; exact List.mem_cons_of_mem _ h
        · right; exact h

theorem readAll_from {l : List (Str × File M)} : ∀ {d d' : Dict Str M}, readAll l d = some d' → ∀ {n x},
    d'.lookup n = some x → d.lookup n = some x ∨ ∃ f, (f, File.full n x) ∈ l := by
  induction l with
  | nil => intro d d' h n x hx; cases h; exact Or.inl hx
  | cons p l ih =>
    obtain ⟨f, c⟩ := p
    intro d d' h n x hx
    cases c with
    | begun => cases h
    | full n' m' =>
      change readAll l (PyDict.set d n' m') = some d' at h
      rcases ih h hx with h1 | ⟨g, hg⟩
      · rw [PyDict.lookup_set] at h1
        split at h1
        · next e => cases h1; subst e; exact Or.inr ⟨f, List.mem_cons_self⟩
        · exact Or.inl h1
      · exact Or.inr ⟨g, List.mem_cons_of_mem _ hg⟩

theorem readAll_keep {l : List (Str × File M)} {n : Str} {x : M} : ∀ {d d' : Dict Str M}, readAll l d = some d' →
    d.lookup n = some x → (∀ f y, (f, File.full n y) ∈ l → y = x) → d'.lookup n = some x := by
  induction l with
  | nil => intro d d' h hx _; cases h; exact hx
  | cons p l ih =>
    obtain ⟨f, c⟩ := p
    intro d d' h hx hy
    cases c with
    | begun => cases h
    | full n' m' =>
      change readAll l (PyDict.set d n' m') = some d' at h
      refine ih h ?_ fun g y hg => hy g y (List.mem_cons_of_mem _ hg)
      rw [PyDict.lookup_set]
      split
      · next e => subst e; rw [hy f m' List.mem_cons_self]
      · exact hx

theorem readAll_get {l : List (Str × File M)} {n f : Str} {x : M} : ∀ {d d' : Dict Str M}, readAll l d = some d' →
    (f, File.full n x) ∈ l → (∀ f y, (f, File.full n y) ∈ l → y = x) → d'.lookup n = some x := by
  induction l with
  | nil => intro d d' _ h; cases h
  | cons p l ih =>
    obtain ⟨f', c⟩ := p
    intro d d' h hm hy
    cases c with
    | begun => cases h
    | full n' m' =>
      change readAll l (PyDict.set d n' m') = some d' at h
      rcases List.mem_cons.mp hm with e | hm
      · cases e
        exact readAll_keep h (by rw [PyDict.lookup_set, if_pos rfl]) fun g y hg => hy g y (List.mem_cons_of_mem _ hg)
      · exact ih h hm fun g y hg => hy g y (List.mem_cons_of_mem _ hg)

theorem readAll_some {l : List (Str × File M)} : ∀ (d : Dict Str M), (∀ p ∈ l, p.2 ≠ File.begun) →
    ∃ d', readAll l d = some d' := by
  induction l with
  | nil => intro d _; exact ⟨d, rfl⟩
  | cons p l ih =>
    obtain ⟨f, c⟩ := p
    intro d h
    cases c with
    | begun => exact absurd rfl (h _ List.mem_cons_self)
    | full n m => exact ih (PyDict.set d n m) fun q hq => h q (List.mem_cons_of_mem _ hq)

theorem readAll_full {l : List (Str × File M)} : ∀ {d d' : Dict Str M}, readAll l d = some d' → ∀ p ∈ l, p.2 ≠ File.begun := by
  induction l with
  | nil => intro d d' _ p hp; cases hp
  | cons q l ih =>
    obtain ⟨f, c⟩ := q
    intro d d' h p hp
    cases c with
    | begun => cases h
    | full n m =>
      rcases List.mem_cons.mp hp with e | hp
      · subst e; rintro ⟨⟩
      · exact ih (d := PyDict.set d n m) h p hp

/-- Every complete file is of a matrix of the run or the external one. -/
def Good (l : List (Str × Str × M)) (m : M) (b : List (Str × File M)) : Prop :=
  ∀ f n x, (f, File.full n x) ∈ b → (n = pk ∧ x = m ∧ (f = fileD ∨ f = fileR)) ∨ (f, n, x) ∈ l

theorem good_of {l : List (Str × Str × M)} {m : M} {b : List (Str × File M)} (h : Good l m b) {d : Dict Str M}
    (hd : readAll b [] = some d) : Of l m d := by
  intro n x hx
  rcases readAll_from hd hx with h' | ⟨f, hf⟩
  · cases h'
  · rcases h f n x hf with e | e
    · exact Or.inl ⟨e.1, e.2.1⟩
    · exact Or.inr ⟨f, e⟩

theorem good_perm {l : List (Str × Str × M)} {m : M} {b b' : List (Str × File M)} (h : Good l m b) (hp : b'.Perm b) :
    Good l m b' := fun f n x hx => h f n x (hp.mem_iff.mp hx)

theorem good_set {l : List (Str × Str × M)} {m : M} {b : Dict Str (File M)} {f : Str} {c : File M} (h : Good l m b)
    (hc : ∀ n x, c = .full n x → (n = pk ∧ x = m ∧ (f = fileD ∨ f = fileR)) ∨ (f, n, x) ∈ l) : Good l m (PyDict.set b f c) := by
  intro g n x hx
  rcases mem_set hx with h' | h'
  · exact h g n x h'
  · cases h'; exact hc n x rfl

/-- What holds after every history for a scenario. -/
def Inv (l : List (Str × Str × M)) (m : M) (s : State M) : Prop :=
  Good l m s.base ∧ (s.base.map (·.1)).Nodup ∧ ∀ d, s.results = some (.full d) → Of l m d

/-- The steps of calls for a scenario. -/
def StepFor (E : Env M) (sc : Str) : Act M → Prop
  | .clearBase => True
  | .own f n m => (f, n, m) ∈ E.own sc
  | .clearResults => True
  | .ext f sc' => sc' = sc ∧ (f = fileD ∨ f = fileR)
  | .create _ _ o => Lists o

theorem acts_for {E : Env M} {sc : Str} {c : Call M} (h : For sc c) (ho : Lists c.order) : ∀ a ∈ acts E c, StepFor E sc a := by
  cases c with
  | direct sc' o =>
    cases h
    intro a ha
    rcases List.mem_append.mp ha with h | h
    · obtain ⟨x, hx, rfl⟩ := List.mem_map.mp h
      exact hx
    · rcases List.mem_cons.mp h with rfl | h
      · exact ⟨rfl, Or.inl rfl⟩
      · cases List.mem_singleton.mp h; exact ho
  | tasks ow sc' o =>
    cases h
    intro a ha
    rcases List.mem_append.mp ha with h | h
    · split at h
      · cases List.mem_singleton.mp h; trivial
      · cases h
    · rcases List.mem_append.mp h with h | h
      · obtain ⟨x, hx, rfl⟩ := List.mem_map.mp h
        exact hx
      · rcases List.mem_append.mp h with h | h
        · split at h
          · cases List.mem_singleton.mp h; trivial
          · cases h
        · rcases List.mem_cons.mp h with rfl | h
          · exact ⟨rfl, Or.inr rfl⟩
          · cases List.mem_singleton.mp h; exact ho
  | evaluate ow o =>
    intro a ha
    cases List.mem_singleton.mp ha; exact ho

theorem create_eq {ow : Bool} {o : Order M} {s s' : State M} (h : create ow o s = some s') :
    ∃ d, readAll (o s.base) [] = some d ∧ s' = { s with results := some (.full d) } := by
  unfold create at h
  split at h
  · cases h
  · next d hd =>
    split at h
    · cases h
    · cases h; exact ⟨d, hd, rfl⟩

theorem inv_exec {E : Env M} {sc : Str} {m : M} (hE : E.ext sc = some m) {a : Act M} (ha : StepFor E sc a) {s s' : State M}
    (h : Inv (E.own sc) m s) (he : exec E s a = some s') : Inv (E.own sc) m s' := by
  obtain ⟨h1, hnd, h2⟩ := h
  cases a with
  | clearBase =>
    cases he
    refine ⟨?_, List.nodup_nil, h2⟩
    intro f n x hx
    cases hx
  | own f n x =>
    cases he
    split
    · exact ⟨h1, hnd, h2⟩
    · exact ⟨good_set h1 (by rintro n' x' ⟨⟩; exact Or.inr ha), PyDict.nodup_set _ _ _ hnd, h2⟩
  | clearResults => cases he; exact ⟨h1, hnd, by rintro d ⟨⟩⟩
  | ext f sc' =>
    obtain ⟨rfl, hf⟩ := ha
    simp only [exec, hE] at he
    split at he
    · cases he
    · cases he
      exact ⟨good_set h1 (by rintro n' x' ⟨⟩; exact Or.inl ⟨rfl, rfl, hf⟩), PyDict.nodup_set _ _ _ hnd, h2⟩
  | create ow child o =>
    simp only [exec] at he
    split at he
    · next s1 hc =>
      cases he
      obtain ⟨d, hd, rfl⟩ := create_eq hc
      exact ⟨h1, hnd, by rintro d' ⟨⟩; exact good_of (good_perm h1 (ha s.base)) hd⟩
    · split at he
      · cases he; exact ⟨h1, hnd, h2⟩
      · cases he

theorem inv_mid {E : Env M} {sc : Str} {m : M} {a : Act M} {s s' : State M} (h : Inv (E.own sc) m s) (hm : Mid E s a s') :
    Inv (E.own sc) m s' := by
  obtain ⟨h1, hnd, h2⟩ := h
  cases hm with
  | clearBase p =>
    exact ⟨fun f n x hx => h1 f n x (List.mem_filter.mp hx).1, hnd.sublist (List.Sublist.map _ List.filter_sublist), h2⟩
  | own => exact ⟨good_set h1 (by rintro n' x' ⟨⟩), PyDict.nodup_set _ _ _ hnd, h2⟩
  | clearResults => exact ⟨h1, hnd, by rintro d ⟨⟩⟩
  | ext => exact ⟨good_set h1 (by rintro n' x' ⟨⟩), PyDict.nodup_set _ _ _ hnd, h2⟩
  | create => exact ⟨h1, hnd, by rintro d ⟨⟩⟩

theorem inv_stop {E : Env M} {sc : Str} {m : M} (hE : E.ext sc = some m) {as : List (Act M)} {s s' : State M}
    (hs : Stop E s as s') (ha : ∀ a ∈ as, StepFor E sc a) (h : Inv (E.own sc) m s) : Inv (E.own sc) m s' := by
  induction hs with
  | here => exact h
  | mid hm => exact inv_mid h hm
  | next he _ ih =>
    exact ih (fun a h' => ha a (List.mem_cons_of_mem _ h')) (inv_exec hE (ha _ List.mem_cons_self) h he)

theorem inv_later {E : Env M} {sc : Str} {m : M} (hE : E.ext sc = some m) {s s' : State M}
    (hs : Later E (fun c => For sc c ∧ Lists c.order) s s') (h : Inv (E.own sc) m s) : Inv (E.own sc) m s' := by
  induction hs with
  | refl => exact h
  | step c _ hc hst ih => exact inv_stop hE hst (acts_for hc.1 hc.2) ih

/-! ### The matrices of the run -/

/-- The directory after the matrices of the run. -/
def addOwn (b : Dict Str (File M)) : List (Str × Str × M) → Dict Str (File M)
  | [] => b
  | x :: l => addOwn (if (b.lookup x.1).isSome then b else PyDict.set b x.1 (.full x.2.1 x.2.2)) l

theorem final_own (E : Env M) (l : List (Str × Str × M)) (as : List (Act M)) : ∀ s : State M,
    final E s (l.map (fun x => .own x.1 x.2.1 x.2.2) ++ as) = final E { s with base := addOwn s.base l } as := by
  induction l with
  | nil => intro s; rfl
  | cons x l ih =>
    intro s
    rw [List.map_cons, List.cons_append]
    change final E (if (s.base.lookup x.1).isSome then s else _) (_ ++ as) = _
    rw [ih]
    change _ = final E { s with base := addOwn (if (s.base.lookup x.1).isSome then s.base else _) l } as
    by_cases h : (s.base.lookup x.1).isSome = true
    · rw [if_pos h, if_pos h]
    · rw [if_neg h, if_neg h]

theorem addOwn_lookup (l : List (Str × Str × M)) : ∀ (b : Dict Str (File M)) (f : Str), (b.lookup f).isSome →
    (addOwn b l).lookup f = b.lookup f := by
  induction l with
  | nil => intro b f _; rfl
  | cons x l ih =>
    intro b f h
    unfold addOwn
    split
    · exact ih b f h
    · next hx =>
      have hne : f ≠ x.1 := by rintro rfl; exact hx h
      have : (PyDict.set b x.1 (File.full x.2.1 x.2.2)).lookup f = b.lookup f := by
        rw [PyDict.lookup_set, if_neg hne]
      rw [ih _ f (by rw [this]; exact h), this]

theorem addOwn_apart (l : List (Str × Str × M)) : ∀ (b : Dict Str (File M)) (f : Str), (∀ x ∈ l, x.1 ≠ f) →
    (addOwn b l).lookup f = b.lookup f := by
  induction l with
  | nil => intro b f _; rfl
  | cons x l ih =>
    intro b f h
    unfold addOwn
    rw [ih _ f fun y hy => h y (List.mem_cons_of_mem _ hy)]
    split
    · rfl
    · rw [PyDict.lookup_set, if_neg fun e => h x List.mem_cons_self e.symm]

theorem addOwn_mem (l : List (Str × Str × M)) (hn : (l.map fun x => x.1).Nodup) : ∀ (b : Dict Str (File M)) (x),
    x ∈ l → b.lookup x.1 = none → (addOwn b l).lookup x.1 = some (.full x.2.1 x.2.2) := by
  induction l with
  | nil => intro b x hx; cases hx
  | cons y l ih =>
    intro b x hx hb
    obtain ⟨h1, h2⟩ := List.nodup_cons.mp hn
    unfold addOwn
    rcases List.mem_cons.mp hx with rfl | hx
    · rw [if_neg (by rw [hb]; exact Bool.false_ne_true)]
      rw [addOwn_lookup l _ _ (by rw [PyDict.lookup_set, if_pos rfl]; rfl), PyDict.lookup_set, if_pos rfl]
    · have hne : x.1 ≠ y.1 := fun e => h1 (List.mem_map.mpr ⟨x, hx, e⟩)
      refine ih h2 _ x hx ?_
      split
      · exact hb
      · rw [PyDict.lookup_set, if_neg hne, hb]

theorem addOwn_begun (l : List (Str × Str × M)) : ∀ (b : Dict Str (File M)), (∀ p ∈ b, p.2 ≠ File.begun) →
    ∀ p ∈ addOwn b l, p.2 ≠ File.begun := by
  induction l with
  | nil => intro b h; exact h
  | cons x l ih =>
    intro b h
    unfold addOwn
    refine ih _ ?_
    split
    · exact h
    · intro p hp
      rcases mem_set hp with h' | h'
      · exact h p h'
      · subst h'; rintro ⟨⟩

theorem addOwn_good (E : List (Str × Str × M)) (m : M) (l : List (Str × Str × M)) : ∀ (b : Dict Str (File M)),
    (∀ x ∈ l, x ∈ E) → Good E m b → Good E m (addOwn b l) := by
  induction l with
  | nil => intro b _ h; exact h
  | cons x l ih =>
    intro b hx h
    unfold addOwn
    refine ih _ (fun y hy => hx y (List.mem_cons_of_mem _ hy)) ?_
    split
    · exact h
    · exact good_set h (by rintro n y ⟨⟩; exact Or.inr (hx x List.mem_cons_self))

/-- Only one matrix can be under a name. -/
theorem good_unique {l : List (Str × Str × M)} (hO : Own l) {m : M} {b : List (Str × File M)} (h : Good l m b) {f g n : Str}
    {x y : M} (hx : (f, File.full n x) ∈ b) (hy : (g, File.full n y) ∈ b) : x = y := by
  rcases h f n x hx with ⟨rfl, rfl, _⟩ | hx'
  · rcases h g _ y hy with ⟨_, rfl, _⟩ | hy'
    · rfl
    · exact absurd rfl (hO.apart _ hy').2.2
  · rcases h g n y hy with ⟨rfl, rfl, _⟩ | hy'
    · exact absurd rfl (hO.apart _ hx').2.2
    · have := List.inj_on_of_nodup_map hO.names hx' hy' rfl
      cases this; rfl

/-- A complete directory is read completely, in every order. -/
theorem read_complete {l : List (Str × Str × M)} (hO : Own l) {m : M} {b b' : List (Str × File M)} (hp : b'.Perm b)
    (h : Good l m b) (hb : ∀ p ∈ b, p.2 ≠ File.begun) (hx : ∀ x ∈ l, (x.1, File.full x.2.1 x.2.2) ∈ b)
    (hm : ∃ f, (f, File.full pk m) ∈ b) : ∃ d, readAll b' [] = some d ∧ All l m d := by
  have h' := good_perm h hp
  obtain ⟨d, hd⟩ := readAll_some (l := b') [] fun p hq => hb p (hp.mem_iff.mp hq)
  obtain ⟨f, hf⟩ := hm
  have hf' := hp.mem_iff.mpr hf
  refine ⟨d, hd, good_of h' hd, readAll_get hd hf' fun g y hg => good_unique hO h' hg hf', fun x hxl => ?_⟩
  have hx' := hp.mem_iff.mpr (hx x hxl)
  exact readAll_get hd hx' fun g y hg => good_unique hO h' hg hx'

/-! ### A file that is in the way -/

/-- Matrices of the run do not touch files that are there, nor the results. -/
theorem stop_blocked {E : Env M} {f sc : Str} (rest : List (Act M)) (l : List (Str × Str × M)) : ∀ {s s' : State M},
    (s.base.lookup f).isSome → Stop E s (l.map (fun x => Act.own x.1 x.2.1 x.2.2) ++ Act.ext f sc :: rest) s' →
    s'.results = s.results ∧ s'.base.lookup f = s.base.lookup f := by
  induction l with
  | nil =>
    intro s s' hf hs
    cases hs with
    | here => exact ⟨rfl, rfl⟩
    | mid hm => cases hm with
      | ext _ h => rw [h] at hf; cases hf
    | next he hs =>
      simp only [exec] at he
      split at he
      · cases he
      · rw [if_pos hf] at he; cases he
  | cons x l ih =>
    intro s s' hf hs
    cases hs with
    | here => exact ⟨rfl, rfl⟩
    | mid hm => cases hm with
      | own h =>
        have hne : f ≠ x.1 := by rintro rfl; rw [h] at hf; cases hf
        exact ⟨rfl, by show (PyDict.set s.base x.1 File.begun).lookup f = _; rw [PyDict.lookup_set, if_neg hne]⟩
    | next he hs =>
      cases he
      split at hs
      · exact ih hf hs
      · next h =>
        have hne : f ≠ x.1 := by rintro rfl; exact h hf
        have e : (PyDict.set s.base x.1 (File.full x.2.1 x.2.2)).lookup f = s.base.lookup f := by
          rw [PyDict.lookup_set, if_neg hne]
        obtain ⟨h1, h2⟩ := ih (s := { s with base := PyDict.set s.base x.1 (File.full x.2.1 x.2.2) })
          (by show ((PyDict.set s.base x.1 (File.full x.2.1 x.2.2)).lookup f).isSome; rw [e]; exact hf) hs
        exact ⟨h1, h2.trans e⟩

end Seyfert.Pk
