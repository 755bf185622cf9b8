import Verif.Props.Scenarios

/-!
C144: replacement of the matrices with the three-dimensional spectrum by those of four bins, and what is shared afterwards.
-/

namespace Seyfert.Scen

open Fisher

theorem hybrid_iff (name : Str) : hybrid name = true ↔ Hybrid name := Compare.contains_iff _ _

theorem ref_set (s : State) (n m : Nat) (name nm : Str) (r : Ref) (hn : (s.lookup n).isSome) :
    State.ref (PyDict.modify s n fun d => PyDict.set d name r) m nm = if m = n ∧ nm = name then some r else s.ref m nm := by
  unfold State.ref
  rw [PyDict.lookup_modify]
  by_cases h : m = n
  · subst h
    rw [if_pos rfl]
    obtain ⟨d, hd⟩ := Option.isSome_iff_exists.mp hn
    rw [hd]
    show (PyDict.set d name r).lookup nm = _
    rw [PyDict.lookup_set]
    by_cases e : nm = name
    · rw [if_pos e, if_pos ⟨rfl, e⟩]
    · rw [if_neg e, if_neg (fun h => e h.2)]
      rfl
  · rw [if_neg h, if_neg (fun x => h x.1)]

theorem ref_some {s : State} {n : Nat} {d : Dict Str Ref} (h : s.lookup n = some d) (nm : Str) :
    (s.ref n nm).isSome ↔ nm ∈ d.map (·.1) := by
  unfold State.ref
  rw [h]
  exact PyDict.lookup_isSome_iff d nm

theorem inner_spec (n : Nat) (names : List Str) (s : State) (hn : (s.lookup n).isSome) (hm : ∀ x ∈ names, (s.ref n x).isSome) :
    (inner n s names).1.map (·.1) = s.map (·.1) ∧ (∀ nm, (inner n s names).1.ref 4 nm = s.ref 4 nm) ∧
    (∀ m nm, (inner n s names).1.ref m nm = s.ref m nm ∨
      m = n ∧ Hybrid nm ∧ (s.ref m nm).isSome ∧ (s.ref 4 nm).isSome ∧ (inner n s names).1.ref m nm = s.ref 4 nm) ∧
    ((inner n s names).2 = none ↔ ∀ x ∈ names, Hybrid x → (s.ref 4 x).isSome) ∧
    ((inner n s names).2 = none → ∀ x ∈ names, Hybrid x → (inner n s names).1.ref n x = s.ref 4 x) := by
  induction names generalizing s with
  | nil => exact ⟨rfl, fun _ => rfl, fun _ _ => Or.inl rfl, ⟨fun _ => nofun, fun _ => rfl⟩, fun _ => nofun⟩
  | cons a names ih =>
    have hm' : ∀ x ∈ names, (s.ref n x).isSome := fun x hx => hm x (List.mem_cons_of_mem _ hx)
    by_cases ha : hybrid a = true
    · cases h4 : s.ref 4 a with
      | none =>
        have e : inner n s (a :: names) = (s, some .keyError) := by
          unfold inner
          rw [if_pos ha, h4]
        rw [e]
        refine ⟨rfl, fun _ => rfl, fun _ _ => Or.inl rfl, ⟨nofun, fun h => ?_⟩, nofun⟩
        have := h a List.mem_cons_self ((hybrid_iff a).mp ha)
        rw [h4] at this
        cases this
      | some r =>
        have e : inner n s (a :: names) = inner n (PyDict.modify s n fun d => PyDict.set d a r) names := by
          conv_lhs => unfold inner
          rw [if_pos ha, h4]
        rw [e]
        have hset := fun m nm => ref_set s n m a nm r hn
        have h4' : ∀ nm, State.ref (PyDict.modify s n fun d => PyDict.set d a r) 4 nm = s.ref 4 nm := by
          intro nm
          rw [hset]
          by_cases x : 4 = n ∧ nm = a
          · rw [if_pos x, x.2, h4]
          · rw [if_neg x]
        have hsome : ∀ m nm, (State.ref (PyDict.modify s n fun d => PyDict.set d a r) m nm).isSome → (s.ref m nm).isSome := by
          intro m nm h
          rw [hset] at h
          by_cases x : m = n ∧ nm = a
          · rw [x.1, x.2]; exact hm a List.mem_cons_self
          · rw [if_neg x] at h; exact h
        obtain ⟨i1, i2, i3, i4, i5⟩ := ih (PyDict.modify s n fun d => PyDict.set d a r)
          (by rw [PyDict.lookup_modify, if_pos rfl, Option.isSome_map]; exact hn)
          (fun x hx => by
            rw [hset]
            by_cases y : n = n ∧ x = a
            · rw [if_pos y]; rfl
            · rw [if_neg y]; exact hm' x hx)
        refine ⟨i1.trans (PyDict.keys_modify _ _ _), fun nm => (i2 nm).trans (h4' nm), fun m nm => ?_, ?_, fun h x hx hh => ?_⟩
        · rcases i3 m nm with i | ⟨i, j, k, l, o⟩
          · rw [i, hset]
            by_cases y : m = n ∧ nm = a
            · refine Or.inr ⟨y.1, by rw [y.2]; exact (hybrid_iff a).mp ha, by rw [y.1, y.2]; exact hm a List.mem_cons_self, by rw [y.2, h4]; rfl, ?_⟩
              rw [if_pos y, y.2, h4]
            · rw [if_neg y]
              exact Or.inl rfl
          · rw [h4'] at l o
            exact Or.inr ⟨i, j, hsome _ _ k, l, o⟩
        · rw [i4]
          constructor
          · intro h x hx hh
            rcases List.mem_cons.mp hx with rfl | hx
            · rw [h4]; rfl
            · have := h x hx hh
              rw [h4'] at this
              exact this
          · intro h x hx hh
            rw [h4']
            exact h x (List.mem_cons_of_mem _ hx) hh
        · rcases List.mem_cons.mp hx with rfl | hx
          · rcases i3 n x with i | ⟨-, -, -, -, i⟩
            · rw [i, hset, if_pos ⟨rfl, rfl⟩, h4]
            · rw [i, h4']
          · rw [i5 h x hx hh, h4']
    · have e : inner n s (a :: names) = inner n s names := by
        conv_lhs => unfold inner
        rw [if_neg ha]
      rw [e]
      obtain ⟨i1, i2, i3, i4, i5⟩ := ih s hn hm'
      have hna : ¬ Hybrid a := fun h => ha ((hybrid_iff a).mpr h)
      refine ⟨i1, i2, i3, i4.trans ⟨fun h x hx hh => ?_, fun h x hx => h x (List.mem_cons_of_mem _ hx)⟩, fun h x hx hh => ?_⟩
      · rcases List.mem_cons.mp hx with rfl | hx
        · exact absurd hh hna
        · exact h x hx hh
      · rcases List.mem_cons.mp hx with rfl | hx
        · exact absurd hh hna
        · exact i5 h x hx hh

theorem outer_spec (ns : List Nat) (s : State) (hns : ∀ n ∈ ns, n ∈ s.map (·.1)) :
    (outer s ns).1.map (·.1) = s.map (·.1) ∧ (∀ nm, (outer s ns).1.ref 4 nm = s.ref 4 nm) ∧
    (∀ m nm, (outer s ns).1.ref m nm = s.ref m nm ∨
      Hybrid nm ∧ (s.ref m nm).isSome ∧ (s.ref 4 nm).isSome ∧ (outer s ns).1.ref m nm = s.ref 4 nm) ∧
    ((outer s ns).2 = none ↔ ns = [] ∨ 4 ∈ s.map (·.1) ∧
      ∀ n ∈ ns, ∀ nm, Hybrid nm → (s.ref n nm).isSome → (s.ref 4 nm).isSome) ∧
    ((outer s ns).2 = none → ∀ n ∈ ns, ∀ nm, Hybrid nm → (s.ref n nm).isSome → (outer s ns).1.ref n nm = s.ref 4 nm) := by
  induction ns generalizing s with
  | nil => exact ⟨rfl, fun _ => rfl, fun _ _ => Or.inl rfl, ⟨fun _ => Or.inl rfl, fun _ => rfl⟩, fun _ => nofun⟩
  | cons n ns ih =>
    have hn := (PyDict.lookup_isSome_iff s n).mpr (hns n List.mem_cons_self)
    obtain ⟨d, hd⟩ := Option.isSome_iff_exists.mp hn
    cases h4 : s.lookup 4 with
    | none =>
      have e : outer s (n :: ns) = (s, some .keyError) := by
        unfold outer
        rw [h4]
      rw [e]
      refine ⟨rfl, fun _ => rfl, fun _ _ => Or.inl rfl, ⟨nofun, ?_⟩, nofun⟩
      rintro (h | ⟨h, -⟩)
      · cases h
      · rw [← PyDict.lookup_isSome_iff, h4] at h
        cases h
    | some d4 =>
      have hin : 4 ∈ s.map (·.1) := (PyDict.lookup_isSome_iff s 4).mp (by rw [h4]; rfl)
      obtain ⟨i1, i2, i3, i4, i5⟩ := inner_spec n (d.map (·.1)) s hn (fun x hx => (ref_some hd x).mpr hx)
      match hi : inner n s (d.map (·.1)) with
      | (s', some err) =>
        rw [hi] at i1 i2 i3 i4 i5
        have e : outer s (n :: ns) = (s', some err) := by
          unfold outer
          rw [h4, hd]
          dsimp only
          rw [hi]
        rw [e]
        refine ⟨i1, i2, fun m nm => (i3 m nm).imp id (fun x => x.2), ⟨nofun, ?_⟩, nofun⟩
        rintro (h | ⟨-, h⟩)
        · cases h
        · exact i4.mpr (fun x hx hh => h n List.mem_cons_self x hh ((ref_some hd x).mpr hx))
      | (s', none) =>
        rw [hi] at i1 i2 i3 i4 i5
        dsimp only at i1 i2 i3 i4 i5
        have e : outer s (n :: ns) = outer s' ns := by
          conv_lhs => unfold outer
          rw [h4, hd]
          dsimp only
          rw [hi]
        rw [e]
        have hsome : ∀ m nm, (s'.ref m nm).isSome ↔ (s.ref m nm).isSome := by
          intro m nm
          rcases i3 m nm with i | ⟨-, -, a, b, c⟩
          · rw [i]
          · rw [c]; exact ⟨fun _ => a, fun _ => b⟩
        obtain ⟨j1, j2, j3, j4, j5⟩ := ih s' (fun m hm => by rw [i1]; exact hns m (List.mem_cons_of_mem _ hm))
        refine ⟨j1.trans i1, fun nm => (j2 nm).trans (i2 nm), fun m nm => ?_, ?_, fun h m hm nm hh hs => ?_⟩
        · rcases j3 m nm with j | ⟨a, b, c, o⟩
          · rw [j]
            exact (i3 m nm).imp id (fun x => x.2)
          · rw [i2] at c o
            exact Or.inr ⟨a, (hsome m nm).mp b, c, o⟩
        · rw [j4]
          constructor
          · intro h
            refine Or.inr ⟨hin, fun m hm nm hh hs => ?_⟩
            rcases List.mem_cons.mp hm with rfl | hm
            · exact i4.mp rfl nm ((ref_some hd nm).mp hs) hh
            · rcases h with rfl | ⟨-, h⟩
              · cases hm
              · rw [← i2]
                exact h m hm nm hh ((hsome m nm).mpr hs)
          · rintro (h | ⟨-, h⟩)
            · cases h
            · refine Or.inr ⟨by rw [i1]; exact hin, fun m hm nm hh hs => ?_⟩
              rw [i2]
              exact h m (List.mem_cons_of_mem _ hm) nm hh ((hsome m nm).mp hs)
        · by_cases hm' : m ∈ ns
          · rw [j5 h m hm' nm hh ((hsome m nm).mpr hs), i2]
          · rcases List.mem_cons.mp hm with rfl | hm
            · rcases j3 m nm with j | ⟨-, -, -, o⟩
              · rw [j, i5 rfl nm ((ref_some hd nm).mp hs) hh]
              · rw [o, i2]
            · exact absurd hm hm'

/-- The replacement succeeds exactly when there are no analyses, or one of four bins which has every matrix to be
replaced. -/
theorem replaced_iff (s : State) : (replaceHybrid s).2 = none ↔
    s = [] ∨ 4 ∈ s.map (·.1) ∧ ∀ n nm, Hybrid nm → (s.ref n nm).isSome → (s.ref 4 nm).isSome := by
  obtain ⟨-, -, -, h, -⟩ := outer_spec (s.map (·.1)) s (fun _ h => h)
  unfold replaceHybrid
  rw [h, List.map_eq_nil_iff]
  refine or_congr Iff.rfl (and_congr Iff.rfl ⟨fun h n nm hh hs => h n ?_ nm hh hs, fun h n _ nm hh hs => h n nm hh hs⟩)
  rw [← PyDict.lookup_isSome_iff]
  unfold State.ref at hs
  cases e : s.lookup n with
  | none => rw [e] at hs; cases hs
  | some d => rfl

/-- After the replacement every analysis has the matrices it had; those with the three-dimensional spectrum are the objects
of the analysis of four bins, and the others are its own. -/
theorem replaced (s s' : State) (h : replaceHybrid s = (s', none)) : s'.map (·.1) = s.map (·.1) ∧
    (∀ n nm, Hybrid nm → (s.ref n nm).isSome → s'.ref n nm = s.ref 4 nm ∧ (s.ref 4 nm).isSome) ∧
    ∀ n nm, ¬ Hybrid nm ∨ s.ref n nm = none ∨ n = 4 → s'.ref n nm = s.ref n nm := by
  have hs' : s' = (outer s (s.map (·.1))).1 := by unfold replaceHybrid at h; rw [h]
  have ho : (outer s (s.map (·.1))).2 = none := by unfold replaceHybrid at h; rw [h]
  obtain ⟨a, b, c, -, f⟩ := outer_spec (s.map (·.1)) s (fun _ h => h)
  rw [← hs'] at a b c f
  refine ⟨a, fun n nm hh hs => ?_, fun n nm hn => ?_⟩
  · have hr := (replaced_iff s).mp (by rw [h])
    have hmem : n ∈ s.map (·.1) := by
      rw [← PyDict.lookup_isSome_iff]
      unfold State.ref at hs
      cases e : s.lookup n with
      | none => rw [e] at hs; cases hs
      | some d => rfl
    refine ⟨f ho n hmem nm hh hs, ?_⟩
    rcases hr with rfl | ⟨-, hr⟩
    · cases hmem
    · exact hr n nm hh hs
  · rcases c n nm with c | ⟨c1, c2, -, c4⟩
    · exact c
    · rcases hn with hn | hn | rfl
      · exact absurd c1 hn
      · rw [hn] at c2; cases c2
      · exact b nm

/-- When it fails, each matrix is the one it was or already the one of four bins, and the analysis of four bins is as it
was. -/
theorem replaced_half (s s' : State) (e : Err) (h : replaceHybrid s = (s', some e)) : s'.map (·.1) = s.map (·.1) ∧
    (∀ nm, s'.ref 4 nm = s.ref 4 nm) ∧
    ∀ n nm, s'.ref n nm = s.ref n nm ∨ Hybrid nm ∧ (s.ref n nm).isSome ∧ s'.ref n nm = s.ref 4 nm := by
  have hs' : s' = (outer s (s.map (·.1))).1 := by unfold replaceHybrid at h; rw [h]
  obtain ⟨a, b, c, -, -⟩ := outer_spec (s.map (·.1)) s (fun _ h => h)
  rw [← hs'] at a b c
  exact ⟨a, b, fun n nm => (c n nm).imp id (fun x => ⟨x.1, x.2.1, x.2.2.2⟩)⟩

/-! ### What is shared -/

variable {N K : Type} [LinearOrder N] [Field K] [DecidableEq K]

/-- The matrix which an analysis has under a name. -/
def seen (h : Heap N K) (s : State) (n : Nat) (nm : Str) : Option (FM N K) := (s.ref n nm).bind fun r => h[r]?

/-- After the replacement, a method which changes the matrices of one analysis in place changes those with the
three-dimensional spectrum in all of them: the analyses are not independent. -/
theorem changes_shared (s s' : State) (hr : replaceHybrid s = (s', none)) (f : FM N K → Res N K Unit) (h h' : Heap N K)
    (n : Nat) (d : Dict Str Ref) (hd : s'.lookup n = some d) (hnd : (d.map (·.2)).Nodup) {out : List Unit}
    (hf : forRefs f h (d.map (·.2)) = (h', .ok out)) (nm : Str) (hh : Hybrid nm) (hnm : nm ∈ d.map (·.1)) :
    ∃ F F', seen h s' n nm = some F ∧ f F = (F', .ok ()) ∧
      ∀ m, (s'.ref m nm).isSome → seen h s' m nm = some F ∧ seen h' s' m nm = some F' := by
  obtain ⟨hk, h1, h2⟩ := replaced s s' hr
  have hsame : ∀ m, (s'.ref m nm).isSome → s'.ref m nm = s.ref 4 nm := by
    intro m hm
    by_cases hs : (s.ref m nm).isSome
    · exact (h1 m nm hh hs).1
    · rw [h2 m nm (Or.inr (Or.inl (by simpa using hs)))] at hm
      exact absurd hm hs
  obtain ⟨r, hr'⟩ := Option.isSome_iff_exists.mp ((ref_some hd nm).mpr hnm)
  have hmem : r ∈ d.map (·.2) := by
    unfold State.ref at hr'
    rw [hd] at hr'
    exact List.mem_map.mpr ⟨(nm, r), PyDict.mem_of_lookup hr', rfl⟩
  obtain ⟨i, hi, hri⟩ := List.mem_iff_getElem.mp hmem
  obtain ⟨-, hall⟩ := forRefs_ok f _ hnd h h' hf
  obtain ⟨F, F', u, e1, e2, e3, -⟩ := hall i hi
  rw [hri] at e1 e3
  refine ⟨F, F', by unfold seen; rw [hr']; exact e1, e2, fun m hm => ?_⟩
  have : s'.ref m nm = some r := by
    rw [hsame m hm, ← hsame n (by rw [hr']; rfl), hr']
  unfold seen
  rw [this]
  exact ⟨e1, e3⟩

/-- A method that changes nothing when called a second time. -/
def Again (f : FM N K → Res N K Unit) (F : FM N K) : Prop := ∀ F' u, f F = (F', .ok u) → f F' = (F', .ok u)

/-- Every object at the references has been given to the method once, and no other object is changed. -/
def Done (f : FM N K → Res N K Unit) (h h' : Heap N K) (rs : List Ref) : Prop :=
  (∀ r ∈ rs, ∃ F F', h[r]? = some F ∧ f F = (F', .ok ()) ∧ h'[r]? = some F') ∧ ∀ r, r ∉ rs → h'[r]? = h[r]?

theorem Done.trans {f : FM N K → Res N K Unit} {h h1 h' : Heap N K} {rs rs' : List Ref} (ha : ∀ F ∈ h, Again f F)
    (a : Done f h h1 rs) (b : Done f h1 h' rs') : Done f h h' (rs ++ rs') := by
  refine ⟨fun r hr => ?_, fun r hr => ?_⟩
  · by_cases h1r : r ∈ rs
    · obtain ⟨F, F', e1, e2, e3⟩ := a.1 r h1r
      refine ⟨F, F', e1, e2, ?_⟩
      by_cases h2r : r ∈ rs'
      · obtain ⟨G, G', g1, g2, g3⟩ := b.1 r h2r
        rw [e3] at g1
        cases g1
        rw [ha F (List.mem_of_getElem? e1) F' () e2] at g2
        cases g2
        exact g3
      · rw [b.2 r h2r, e3]
    · obtain ⟨G, G', g1, g2, g3⟩ := b.1 r ((List.mem_append.mp hr).resolve_left h1r)
      rw [a.2 r h1r] at g1
      exact ⟨G, G', g1, g2, g3⟩
  · rw [b.2 r (fun x => hr (List.mem_append_right _ x)), a.2 r (fun x => hr (List.mem_append_left _ x))]

theorem Done.again {f : FM N K → Res N K Unit} {h h1 : Heap N K} {rs : List Ref} (ha : ∀ F ∈ h, Again f F)
    (a : Done f h h1 rs) : ∀ F ∈ h1, Again f F := by
  intro F hF
  obtain ⟨r, hr⟩ := List.mem_iff_getElem?.mp hF
  by_cases hm : r ∈ rs
  · obtain ⟨G, G', g1, g2, g3⟩ := a.1 r hm
    rw [hr] at g3
    cases g3
    intro F' u e
    rw [ha G (List.mem_of_getElem? g1) F () g2] at e
    cases e
    exact ha G (List.mem_of_getElem? g1) F () g2
  · rw [a.2 r hm] at hr
    exact ha F (List.mem_of_getElem? hr)

theorem forRefs_done (f : FM N K → Res N K Unit) (rs : List Ref) (h h' : Heap N K) (ha : ∀ F ∈ h, Again f F) {out : List Unit}
    (hf : forRefs f h rs = (h', .ok out)) : Done f h h' rs := by
  induction rs generalizing h out with
  | nil => unfold forRefs at hf; cases hf; exact ⟨nofun, fun _ _ => rfl⟩
  | cons r rs ih =>
    unfold forRefs at hf
    split at hf
    · cases hf
    · rename_i F hF
      split at hf
      · cases hf
      · rename_i F' u hu
        have hlt : r < h.length := (List.getElem?_eq_some_iff.mp hF).1
        have one : Done f h (h.set r F') [r] := by
          refine ⟨fun x hx => ?_, fun x hx => List.getElem?_set_ne (fun e => hx (by rw [e]; exact List.mem_singleton.mpr rfl))⟩
          rw [List.mem_singleton] at hx
          subst hx
          exact ⟨F, F', hF, hu, by rw [List.getElem?_set_self hlt]⟩
        split at hf
        · cases hf
        · rename_i h2 as h2'
          cases hf
          exact one.trans ha (ih (h.set r F') (one.again ha) h2')

theorem forAll_done (f : FM N K → Res N K Unit) (s : State) (h h' : Heap N K) (ha : ∀ F ∈ h, Again f F)
    (hf : forAll f h s = (h', .ok ())) : Done f h h' (s.flatMap fun x => x.2.map (·.2)) := by
  induction s generalizing h with
  | nil => unfold forAll at hf; cases hf; exact ⟨nofun, fun _ _ => rfl⟩
  | cons p s ih =>
    obtain ⟨n, d⟩ := p
    unfold forAll at hf
    split at hf
    · cases hf
    · rename_i h1 out h1'
      have one := forRefs_done f _ h h1 ha h1'
      exact one.trans ha (ih h1 (one.again ha) hf)

/-- The parameters kept by the restriction. -/
def kept (F : FM N K) : Finset N := (F.cosmo ∪ F.nuis) \ (if F.margFlag then ∅ else F.nuis)

theorem select_form {en : Finset N → List N} {F R : FM N K} (h : F.select en = (R, .ok ())) :
    (∀ a ∈ F.cosmo ∪ F.nuis, a ∈ F.matrix.rows) ∧ (∀ a ∈ kept F, a ∈ F.matrix.cols) ∧
    R.matrix = ⟨sortLabels (en (kept F)), sortLabels (en (kept F)), F.matrix.val⟩ ∧ R.cosmo = F.cosmo ∧
    R.nuis = (if F.margFlag then F.nuis else ∅) ∧ R.margFlag = F.margFlag := by
  unfold FM.select at h
  dsimp only at h
  by_cases h1 : ∀ a ∈ F.cosmo ∪ F.nuis, a ∈ F.matrix.rows
  · rw [if_pos h1] at h
    by_cases h2 : (∀ a ∈ kept F, a ∈ F.matrix.rows) ∧ ∀ a ∈ kept F, a ∈ F.matrix.cols
    · have e : F.matrix.locSet en (kept F) = .ok ⟨en (kept F), en (kept F), F.matrix.val⟩ := by
        unfold DF.locSet
        rw [if_pos h2]
      unfold kept at e
      rw [e] at h
      refine ⟨h1, h2.2, ?_⟩
      cases hf : F.margFlag with
      | true =>
        rw [hf] at h
        dsimp only [if_true] at h
        injection h with h _
        rw [← h]
        unfold kept
        rw [hf]
        exact ⟨rfl, rfl, rfl, hf⟩
      | false =>
        rw [hf] at h
        injection h with h _
        rw [← h]
        unfold kept
        rw [hf]
        exact ⟨rfl, rfl, rfl, rfl⟩
    · have e : F.matrix.locSet en (kept F) = .error .keyError := by
        unfold DF.locSet
        rw [if_neg h2]
      unfold kept at e
      rw [e] at h
      cases h
  · rw [if_neg h1] at h
    cases h

theorem select_again {en : Finset N → List N} (hen : Iteration en) {F R : FM N K}
    (hd : F.margFlag = true ∨ Disjoint F.cosmo F.nuis) (h : F.select en = (R, .ok ())) (R' : FM N K)
    (hm : R'.matrix = R.matrix) (hc : R'.cosmo = R.cosmo) (hn : R'.nuis = R.nuis) (hf : R'.margFlag = R.margFlag) :
    R'.select en = (R', .ok ()) := by
  have hsort : ∀ (l : List N) a, a ∈ sortLabels l ↔ a ∈ l := fun l a => by unfold sortLabels; exact List.mem_mergeSort
  obtain ⟨-, -, f1, f2, f3, f4⟩ := select_form h
  have hK : kept R' = kept F ∧ R'.cosmo ∪ R'.nuis = kept F ∧ (R'.margFlag = false → R'.nuis = ∅) := by
    unfold kept
    rw [hc, hn, hf, f2, f3, f4]
    cases hfl : F.margFlag with
    | true => simp
    | false =>
      simp only [Bool.false_eq_true, if_false, Finset.union_empty, Finset.sdiff_empty, Finset.union_sdiff_right]
      have := Finset.sdiff_eq_self_of_disjoint (hd.resolve_left (by rw [hfl]; decide))
      exact ⟨this.symm, this.symm, fun _ => trivial⟩
  obtain ⟨k1, k2, k3⟩ := hK
  have hrows : ∀ a, a ∈ R'.matrix.rows ↔ a ∈ kept F := by
    intro a
    rw [hm, f1]
    exact (hsort _ _).trans ((hen _).2 a)
  have hcols : ∀ a, a ∈ R'.matrix.cols ↔ a ∈ kept F := by
    intro a
    rw [hm, f1]
    exact (hsort _ _).trans ((hen _).2 a)
  have e : R'.matrix.locSet en (kept R') = .ok ⟨en (kept F), en (kept F), F.matrix.val⟩ := by
    unfold DF.locSet
    rw [k1, if_pos ⟨fun a ha => (hrows a).mpr ha, fun a ha => (hcols a).mpr ha⟩, hm, f1]
  have emat : DF.sortIndex ⟨en (kept F), en (kept F), F.matrix.val⟩ = R'.matrix := by rw [hm, f1]; rfl
  unfold FM.select
  dsimp only
  rw [if_pos (fun a ha => (hrows a).mpr (by rw [← k2]; exact ha))]
  unfold kept at e emat
  rw [e]
  dsimp only
  rw [emat]
  cases hfl : R'.margFlag with
  | true => rfl
  | false =>
    have := k3 hfl
    rw [if_neg (by decide)]
    have e2 : ({ R' with nuis := ∅, margFlag := false } : FM N K) = R' := by rw [← this, ← hfl]
    dsimp only
    rw [e2]

/-- Preparing a matrix a second time changes nothing. -/
theorem prepare_again {en : Finset N → List N} (hen : Iteration en) (sq : K → K) {F : FM N K}
    (hd : F.margFlag = true ∨ Disjoint F.cosmo F.nuis) : Again (prepareOne en sq) F := by
  intro F' u h
  unfold prepareOne at h
  split at h
  · cases h
  · rename_i R v hs
    unfold invertOne at h
    split at h
    · cases h
    · rename_i R2 w hi
      unfold FM.evalInverse at hi
      split at hi
      · cases hi
      · rename_i m hm
        cases hi
        have hc := h
        unfold FM.evalCorrelation at hc
        dsimp only at hc
        split at hc
        · cases hc
        · rename_i hlen
          split at hc
          · cases hc
          · rename_i c0 hc0
            split at hc
            · cases hc
            · rename_i c' hc'
              cases hc
              unfold prepareOne
              have hsa := select_again hen hd hs
                { matrix := R.matrix, name := R.name, cosmo := R.cosmo, nuis := R.nuis, margFlag := R.margFlag, inverse := some m, correlation := some c'.sortIndex } rfl rfl rfl rfl
              rw [hsa]
              dsimp only
              unfold invertOne FM.evalInverse
              dsimp only
              rw [hm]
              dsimp only
              unfold FM.evalCorrelation
              dsimp only
              rw [if_neg hlen, hc0]
              dsimp only
              rw [hc']

/-- After the replacement, preparing the matrices of all analyses prepares each of them, the shared ones as well, as if
each analysis had its own. -/
theorem inverted_all {en : Finset N → List N} (hen : Iteration en) (sq : K → K) (s s' : State)
    (hr : replaceHybrid s = (s', none)) (h h' : Heap N K)
    (hd : ∀ F ∈ h, F.margFlag = true ∨ Disjoint F.cosmo F.nuis) (hi : invertAll en sq h s' = (h', .ok ()))
    (n : Nat) (nm : Str) (hs : (s.ref n nm).isSome) :
    ∃ F F', seen h s' n nm = some F ∧ prepareOne en sq F = (F', .ok ()) ∧ seen h' s' n nm = some F' := by
  have done := forAll_done _ s' h h' (fun F hF => prepare_again hen sq (hd F hF)) hi
  obtain ⟨-, h1, h2⟩ := replaced s s' hr
  have hs' : (s'.ref n nm).isSome := by
    by_cases hh : Hybrid nm
    · rw [(h1 n nm hh hs).1]; exact (h1 n nm hh hs).2
    · rw [h2 n nm (Or.inl hh)]; exact hs
  obtain ⟨r, hr'⟩ := Option.isSome_iff_exists.mp hs'
  have hmem : r ∈ s'.flatMap fun x => x.2.map (·.2) := by
    unfold State.ref at hr'
    obtain ⟨d, hd, hl⟩ := Option.bind_eq_some_iff.mp hr'
    exact List.mem_flatMap.mpr ⟨(n, d), PyDict.mem_of_lookup hd, List.mem_map.mpr ⟨(nm, r), PyDict.mem_of_lookup hl, rfl⟩⟩
  obtain ⟨F, F', e1, e2, e3⟩ := done.1 r hmem
  refine ⟨F, F', ?_, e2, ?_⟩
  · unfold seen; rw [hr']; exact e1
  · unfold seen; rw [hr']; exact e3

/-! ### Examples -/

/-- Two analyses, of 4 and 12 bins. -/
def exState : State :=
  [(4, [("WL".toList, 0), ("WL + GCsp(Pk)".toList, 1)]), (12, [("WL".toList, 2), ("WL + GCsp(Pk)".toList, 3)])]

example : replaceHybrid exState =
    ([(4, [("WL".toList, 0), ("WL + GCsp(Pk)".toList, 1)]), (12, [("WL".toList, 2), ("WL + GCsp(Pk)".toList, 1)])], none) := by
  decide +kernel

/-- Without the analysis of four bins, or with a matrix it has not, it fails. -/
example : (replaceHybrid [(12, [("WL".toList, 2)])]).2 = some .keyError ∧
    replaceHybrid [(12, [("A[GCsp(Pk)]".toList, 5), ("B[GCsp(Pk)]".toList, 6)]), (4, [("A[GCsp(Pk)]".toList, 1)])] =
      ([(12, [("A[GCsp(Pk)]".toList, 1), ("B[GCsp(Pk)]".toList, 6)]), (4, [("A[GCsp(Pk)]".toList, 1)])], some .keyError) := by
  decide +kernel

def exFM : FM ℕ ℚ :=
  { matrix := ⟨[0, 1], [0, 1], fun a b => if a = b then 1 else 0⟩, name := [], cosmo := {0, 1}, nuis := ∅ }

def exHeap : Heap ℕ ℚ := [exFM, exFM, exFM, exFM]

/-- Fixing a parameter of the matrices of 12 bins changes the one of four bins. -/
theorem four_bins_changed : ∃ (s s' : State) (h h' : Heap ℕ ℚ) (d : Dict Str Ref), replaceHybrid s = (s', none) ∧
    s'.lookup 12 = some d ∧ forRefs (fun F => F.fix {1}) h (d.map (·.2)) = (h', .ok [(), ()]) ∧
    (seen h s' 4 "WL + GCsp(Pk)".toList).map (·.cosmo) = some {0, 1} ∧
    (seen h' s' 4 "WL + GCsp(Pk)".toList).map (·.cosmo) = some {0} := by
  refine ⟨exState, (replaceHybrid exState).1, exHeap,
    (forRefs (fun F => F.fix {1}) exHeap [2, 1]).1, [("WL".toList, 2), ("WL + GCsp(Pk)".toList, 1)], by decide +kernel,
    by decide +kernel, Prod.ext rfl rfl, by decide +kernel, by decide +kernel⟩

end Seyfert.Scen
