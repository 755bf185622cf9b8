import Verif.Lemmas.PkFile

/-! C155: the external Fisher matrix of a run. -/

namespace Seyfert.Pk

variable {M : Type}

/-- C155. After every history of calls for a scenario, finished or stopped anywhere, what is read from the directory, in any order,
are matrices of the run and the external matrix of its scenario under their names, and so it is for all final results. -/
theorem external_read {E : Env M} {sc : Str} {m : M} (hE : E.ext sc = some m) {s : State M}
    (h : Later E (fun c => For sc c ∧ Lists c.order) ⟨[], none⟩ s) :
    (∀ b d, b.Perm s.base → readAll b [] = some d → Of (E.own sc) m d) ∧
      ∀ d, s.results = some (.full d) → Of (E.own sc) m d := by
  have hi := inv_later hE h ⟨by intro f n x hx; (cases hx), List.nodup_nil, by rintro d ⟨⟩⟩
  exact ⟨fun b d hb hd => good_of (good_perm hi.1 hb) hd, hi.2.2⟩

/-- C155. So the order in which the directory is listed does not matter, although two files may hold the external matrix. -/
theorem order_irrelevant {E : Env M} {sc : Str} {m : M} (hE : E.ext sc = some m) (hO : Own (E.own sc)) {s : State M}
    (h : Later E (fun c => For sc c ∧ Lists c.order) ⟨[], none⟩ s) {b b' : List (Str × File M)} (hb : b.Perm s.base)
    (hb' : b'.Perm s.base) {d : Dict Str M} (hd : readAll b [] = some d) :
    ∃ d', readAll b' [] = some d' ∧ ∀ n, d.lookup n = d'.lookup n := by
  have hi := (inv_later hE h ⟨by intro f n x hx; (cases hx), List.nodup_nil, by rintro d ⟨⟩⟩).1
  have hp : b'.Perm b := hb'.trans hb.symm
  obtain ⟨d', hd'⟩ := readAll_some (l := b') [] fun p hq => readAll_full hd p (hp.mem_iff.mp hq)
  have key : ∀ {c c' : List (Str × File M)} {e e' : Dict Str M}, c.Perm s.base → c'.Perm s.base → readAll c [] = some e →
      readAll c' [] = some e' → ∀ n x, e.lookup n = some x → e'.lookup n = some x := by
    intro c c' e e' hc hc' he he' n x hx
    rcases readAll_from he hx with h0 | ⟨f, hf⟩
    · cases h0
    · have hf' := (hc.trans hc'.symm).mem_iff.mp hf
      exact readAll_get he' hf' fun g y hg => good_unique hO (good_perm hi hc') hg hf'
  refine ⟨d', hd', fun n => ?_⟩
  cases e1 : d.lookup n with
  | some x => exact (key hb hb' hd hd' n x e1).symm
  | none =>
    cases e2 : d'.lookup n with
    | none => rfl
    | some y => rw [key hb' hb hd' hd n y e2] at e1; cases e1

/-- C155. Once the external matrix has been written or begun by the direct program, no further start of it gives final
results, be they missing or not: it raises at that file and leaves the file and the results as they are. -/
theorem direct_refused {E : Env M} {s : State M} (sc : Str) (o : Order M) (h : (s.base.lookup fileD).isSome) :
    (final E s (acts E (.direct sc o))).2 = false ∧
      ∀ s', Stop E s (acts E (.direct sc o)) s' → s'.results = s.results ∧ s'.base.lookup fileD = s.base.lookup fileD := by
  refine ⟨?_, fun s' hs => stop_blocked [.create false false o] (E.own sc) h hs⟩
  unfold acts
  rw [final_own]
  have h' : ((addOwn s.base (E.own sc)).lookup fileD).isSome := by rw [addOwn_lookup _ _ _ h]; exact h
  simp only [final, exec]
  cases E.ext sc with
  | none => rfl
  | some m => simp only [if_pos h']

/-- C155. The same for the forecast by tasks without `overwrite_results`. -/
theorem tasks_refused {E : Env M} {s : State M} (sc : Str) (o : Order M) (h : (s.base.lookup fileR).isSome) :
    (final E s (acts E (.tasks false sc o))).2 = false ∧
      ∀ s', Stop E s (acts E (.tasks false sc o)) s' → s'.results = s.results ∧ s'.base.lookup fileR = s.base.lookup fileR := by
  refine ⟨?_, fun s' hs => stop_blocked [.create false true o] (E.own sc) h hs⟩
  show (final E s ([] ++ ((E.own sc).map (fun x => Act.own x.1 x.2.1 x.2.2) ++ ([] ++ [Act.ext fileR sc, .create false true o])))).2 = false
  rw [List.nil_append, List.nil_append, final_own]
  have h' : ((addOwn s.base (E.own sc)).lookup fileR).isSome := by rw [addOwn_lookup _ _ _ h]; exact h
  simp only [final, exec]
  cases E.ext sc with
  | none => rfl
  | some m => simp only [if_pos h']

/-- C155. With `overwrite_results` the forecast by tasks gives the final results of all its matrices and the external one, whatever
was there before. -/
theorem overwrite_recovers {E : Env M} {sc : Str} {m : M} (hE : E.ext sc = some m) (hO : Own (E.own sc)) {o : Order M}
    (ho : Lists o) (s : State M) : ∃ s' d, final E s (acts E (.tasks true sc o)) = (s', true) ∧ s'.results = some (.full d) ∧
      All (E.own sc) m d := by
  show ∃ s' d, final E s ([Act.clearBase] ++ ((E.own sc).map (fun x => Act.own x.1 x.2.1 x.2.2) ++
    ([Act.clearResults] ++ [Act.ext fileR sc, .create true true o]))) = (s', true) ∧ _
  change ∃ s' d, final E { s with base := [] } ((E.own sc).map (fun x => Act.own x.1 x.2.1 x.2.2) ++
    ([Act.clearResults] ++ [Act.ext fileR sc, .create true true o])) = (s', true) ∧ _
  rw [final_own]
  set b := addOwn ([] : Dict Str (File M)) (E.own sc) with hb
  have hR : b.lookup fileR = none := by
    rw [hb, addOwn_apart _ _ _ fun x hx => (hO.apart x hx).2.1]; rfl
  have hR' : ¬ (b.lookup fileR).isSome = true := by rw [hR]; exact Bool.false_ne_true
  have hg : Good (E.own sc) m (PyDict.set b fileR (.full pk m)) :=
    good_set (addOwn_good _ m _ [] (fun _ h => h) (by intro f n x hx; cases hx))
      (by rintro n x ⟨⟩; exact Or.inl ⟨rfl, rfl, Or.inr rfl⟩)
  have hx : ∀ x ∈ E.own sc, (x.1, File.full x.2.1 x.2.2) ∈ PyDict.set b fileR (.full pk m) := by
    intro x hx
    apply PyDict.mem_of_lookup
    rw [PyDict.lookup_set, if_neg (hO.apart x hx).2.1]
    exact addOwn_mem _ hO.files [] x hx rfl
  have hbeg : ∀ p ∈ PyDict.set b fileR (.full pk m), p.2 ≠ File.begun := by
    intro p hp
    rcases mem_set hp with h | h
    · exact addOwn_begun _ [] (by intro q hq; cases hq) p h
    · subst h; rintro ⟨⟩
  obtain ⟨d, hd, hall⟩ := read_complete hO (ho (PyDict.set b fileR (.full pk m))) hg hbeg hx
    ⟨fileR, PyDict.mem_of_lookup (by rw [PyDict.lookup_set, if_pos rfl])⟩
  refine ⟨⟨PyDict.set b fileR (.full pk m), some (.full d)⟩, d, ?_, rfl, hall⟩
  simp only [List.cons_append, List.nil_append, final, exec, hE, if_neg hR', create, hd]
  rfl

/-- C155. Results that are missing because the program was stopped are given by `evaluate_final_results`, if all files are
complete. -/
theorem evaluate_completes {E : Env M} {sc : Str} {m : M} (hE : E.ext sc = some m) (hO : Own (E.own sc)) {s : State M}
    (h : Later E (fun c => For sc c ∧ Lists c.order) ⟨[], none⟩ s) (hr : s.results = none)
    (hb : ∀ p ∈ s.base, p.2 ≠ File.begun) (hx : ∀ x ∈ E.own sc, (s.base.lookup x.1).isSome)
    (hm : (s.base.lookup fileD).isSome ∨ (s.base.lookup fileR).isSome) (ow : Bool) {o : Order M} (ho : Lists o) :
    ∃ d, final E s (acts E (.evaluate ow o)) = (⟨s.base, some (.full d)⟩, true) ∧ All (E.own sc) m d := by
  have hi := inv_later hE h ⟨by intro f n x hx; (cases hx), List.nodup_nil, by rintro d ⟨⟩⟩
  have hfull : ∀ f, (s.base.lookup f).isSome → ∃ n x, s.base.lookup f = some (.full n x) := by
    intro f hf
    obtain ⟨c, hc⟩ := Option.isSome_iff_exists.mp hf
    cases c with
    | full n x => exact ⟨n, x, hc⟩
    | begun => exact absurd rfl (hb _ (PyDict.mem_of_lookup hc))
  have hown : ∀ x ∈ E.own sc, (x.1, File.full x.2.1 x.2.2) ∈ s.base := by
    intro x hxl
    obtain ⟨n, y, hy⟩ := hfull x.1 (hx x hxl)
    have hmem := PyDict.mem_of_lookup hy
    rcases hi.1 x.1 n y hmem with ⟨_, _, h1⟩ | h1
    · rcases h1 with e | e
      · exact absurd e (hO.apart x hxl).1
      · exact absurd e (hO.apart x hxl).2.1
    · have := List.inj_on_of_nodup_map hO.files h1 hxl rfl
      rw [← this]; exact hmem
  have hpk : ∃ f, (f, File.full pk m) ∈ s.base := by
    have : ∃ f, (f = fileD ∨ f = fileR) ∧ (s.base.lookup f).isSome := by
      rcases hm with h | h
      · exact ⟨fileD, Or.inl rfl, h⟩
      · exact ⟨fileR, Or.inr rfl, h⟩
    obtain ⟨f, hf, hs⟩ := this
    obtain ⟨n, y, hy⟩ := hfull f hs
    have hmem := PyDict.mem_of_lookup hy
    rcases hi.1 f n y hmem with ⟨rfl, rfl, _⟩ | h1
    · exact ⟨f, hmem⟩
    · rcases hf with e | e
      · exact absurd e (hO.apart _ h1).1
      · exact absurd e (hO.apart _ h1).2.1
  obtain ⟨d, hd, hall⟩ := read_complete hO (ho s.base) hi.1 hb hown hpk
  refine ⟨d, ?_, hall⟩
  simp only [acts, final, exec, create, hd, hr, Option.isSome_none, Bool.false_eq_true, false_and, if_false]

/-- C155. For a scenario without an external matrix there are no final results: everything is computed, then the program raises.
The results that were there are kept, except by the forecast by tasks with `overwrite_results`, which has deleted them by then. -/
theorem no_external {E : Env M} {sc : Str} (hE : E.ext sc = none) (s : State M) (o : Order M) :
    final E s (acts E (.direct sc o)) = (⟨addOwn s.base (E.own sc), s.results⟩, false) ∧
      final E s (acts E (.tasks false sc o)) = (⟨addOwn s.base (E.own sc), s.results⟩, false) ∧
      final E s (acts E (.tasks true sc o)) = (⟨addOwn [] (E.own sc), none⟩, false) := by
  refine ⟨?_, ?_, ?_⟩
  · unfold acts
    rw [final_own]
    simp only [final, exec, hE]
  · show final E s ([] ++ ((E.own sc).map (fun x => Act.own x.1 x.2.1 x.2.2) ++ ([] ++ [Act.ext fileR sc, .create false true o]))) = _
    rw [List.nil_append, List.nil_append, final_own]
    simp only [final, exec, hE]
  · change final E { s with base := [] } ((E.own sc).map (fun x => Act.own x.1 x.2.1 x.2.2) ++
      ([Act.clearResults] ++ [Act.ext fileR sc, .create true true o])) = _
    rw [final_own]
    simp only [List.cons_append, List.nil_append, final, exec, hE]

/-- C155. The forecast by tasks comes to its end without final results of its own if there are some already: the program for them is
called without looking at its failure. -/
theorem tasks_silent {E : Env M} {sc : Str} {m : M} (hE : E.ext sc = some m) (hO : Own (E.own sc)) (o : Order M) {s : State M}
    (hr : s.results.isSome) (hR : s.base.lookup fileR = none) :
    ∃ s', final E s (acts E (.tasks false sc o)) = (s', true) ∧ s'.results = s.results := by
  show ∃ s', final E s ([] ++ ((E.own sc).map (fun x => Act.own x.1 x.2.1 x.2.2) ++
    ([] ++ [Act.ext fileR sc, .create false true o]))) = (s', true) ∧ _
  rw [List.nil_append, List.nil_append, final_own]
  have h : (addOwn s.base (E.own sc)).lookup fileR = none := by
    rw [addOwn_apart _ _ _ fun x hx => (hO.apart x hx).2.1, hR]
  have h' : ¬ ((addOwn s.base (E.own sc)).lookup fileR).isSome = true := by rw [h]; exact Bool.false_ne_true
  have hc : create false o ⟨PyDict.set (addOwn s.base (E.own sc)) fileR (.full pk m), s.results⟩ = none := by
    unfold create
    split
    · rfl
    · rw [if_pos ⟨hr, rfl⟩]
  exact ⟨⟨PyDict.set (addOwn s.base (E.own sc)) fileR (.full pk m), s.results⟩, by
    simp only [final, exec, hE, if_neg h', hc, if_true], rfl⟩

/-- Two scenarios with an external matrix each, and a matrix of the run. -/
def twoScenarios : Env Nat where
  ext sc := if sc = "optimistic".toList then some 1 else if sc = "pessimistic".toList then some 2 else none
  own _ := [("fisher_wlwl.hdf5".toList, "[WL]".toList, 7)]

/-- C155. For different scenarios the clause fails: after the direct program for one and the forecast by tasks for another, both
finished, the results are still of the first scenario, and which external matrix the next results are of depends on the order of
the directory. -/
theorem scenarios_mixed : ∃ s₁ s₂ : State Nat,
    final twoScenarios ⟨[], none⟩ (acts twoScenarios (.direct "optimistic".toList id)) = (s₁, true) ∧
    final twoScenarios s₁ (acts twoScenarios (.tasks false "pessimistic".toList id)) = (s₂, true) ∧
    s₂.results = s₁.results ∧
    ∃ d d', (final twoScenarios s₂ (acts twoScenarios (.evaluate true id))).1.results = some (.full d) ∧
      (final twoScenarios s₂ (acts twoScenarios (.evaluate true List.reverse))).1.results = some (.full d') ∧
      d.lookup pk = some 2 ∧ d'.lookup pk = some 1 := by
  refine ⟨⟨[("fisher_wlwl.hdf5".toList, .full "[WL]".toList 7), (fileD, .full pk 1)],
      some (.full [("[WL]".toList, 7), (pk, 1)])⟩,
    ⟨[("fisher_wlwl.hdf5".toList, .full "[WL]".toList 7), (fileD, .full pk 1), (fileR, .full pk 2)],
      some (.full [("[WL]".toList, 7), (pk, 1)])⟩, rfl, rfl, rfl,
    [("[WL]".toList, 7), (pk, 2)], [(pk, 1), ("[WL]".toList, 7)], rfl, rfl, rfl, rfl⟩

theorem own_two (sc : Str) : Own (twoScenarios.own sc) :=
  ⟨List.nodup_singleton _, List.nodup_singleton _, by
    intro x hx
    cases List.mem_singleton.mp hx
    exact ⟨by decide, by decide, by decide⟩⟩

theorem lists_id : Lists (id : Order M) := fun l => List.Perm.refl l

/-- A history as in `external_read`, `order_irrelevant`: the direct program, then the forecast by tasks, both for one scenario; the
external matrix is there twice. -/
example : ∃ s : State Nat, Later twoScenarios (fun c => For "optimistic".toList c ∧ Lists c.order) ⟨[], none⟩ s ∧
    s.base.length = 3 ∧ s.results.isSome := by
  refine ⟨⟨[("fisher_wlwl.hdf5".toList, .full "[WL]".toList 7), (fileD, .full pk 1), (fileR, .full pk 1)],
      some (.full [("[WL]".toList, 7), (pk, 1)])⟩, ?_, rfl, rfl⟩
  refine Later.step (.tasks false "optimistic".toList id)
    (Later.step (.direct "optimistic".toList id) (Later.refl _) ⟨rfl, lists_id⟩
      (s'' := ⟨[("fisher_wlwl.hdf5".toList, .full "[WL]".toList 7), (fileD, .full pk 1)],
        some (.full [("[WL]".toList, 7), (pk, 1)])⟩) ?_) ⟨rfl, lists_id⟩ ?_
  · exact .next rfl (.next rfl (.next rfl (.here _ _)))
  · exact .next rfl (.next rfl (.next rfl (.here _ _)))

/-- A state as in `evaluate_completes`: the direct program was stopped after the external matrix. -/
example : ∃ s : State Nat, Later twoScenarios (fun c => For "optimistic".toList c ∧ Lists c.order) ⟨[], none⟩ s ∧
    s.results = none ∧ s.base.map (·.1) = ["fisher_wlwl.hdf5".toList, fileD] := by
  refine ⟨⟨[("fisher_wlwl.hdf5".toList, .full "[WL]".toList 7), (fileD, .full pk 1)], none⟩, ?_, rfl, rfl⟩
  exact Later.step (.direct "optimistic".toList id) (Later.refl _) ⟨rfl, lists_id⟩ (.next rfl (.next rfl (.here _ _)))

/-- The forecast by tasks for a scenario which has no external matrix: the results are lost. -/
example : final twoScenarios ⟨[], some (.full [(pk, 1)])⟩ (acts twoScenarios (.tasks true "intermediate".toList id)) =
    (⟨[("fisher_wlwl.hdf5".toList, .full "[WL]".toList 7)], none⟩, false) := rfl

end Seyfert.Pk
