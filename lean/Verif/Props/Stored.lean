import Verif.Lemmas.StoredDict

/-! Properties of the files of densities, weight functions, spectra, covariances and derivatives. -/

namespace Seyfert.Stored
open H5 (Path File begins)

variable {V A : Type}

/-! ### Densities and weight functions -/

/-- Every complete density saved under a path where nothing is comes back from the file as it was, but for the tables it
was not made from; nothing else in the file changes. -/
theorem dens_back {f : File (Val A)} {r : Path} (hf : Fresh f r) {d : Dens A} (h : d.Complete) : ∃ g,
    runOps f (saveDens r d) = (.ok (), g) ∧ readDens (view g r) = .ok d.kept ∧
      ∀ s, Apart r s → view g s = view f s := by
  obtain ⟨g, h1, h2, _⟩ := dens_file h
  refine ⟨graft f r g, ?_, ?_, fun s hs => view_graft_apart hs⟩
  · unfold saveDens
    rw [densOps_shift, save_graft hf, h1]
  · rw [view_graft hf]; exact h2

/-- A density lacking what the writer requires is never saved, whatever the file and the path. -/
theorem dens_incomplete {f : File (Val A)} {r : Path} {d : Dens A}
    (h : d.fromInput = none ∨ d.domain = none ∨ d.edges = none ∨ d.fSky = none ∨
      (d.fromInput = some true ∧ d.nIz = none) ∨ (d.fromInput = some false ∧ d.dN = none)) :
    (runOps f (saveDens r d)).1 ≠ .ok () := by
  have hfail : ∀ (ops : List (Op (Val A))) (e : Err) (f : File (Val A)), .fail e ∈ ops → (runOps f ops).1 ≠ .ok () := by
    intro ops e
    induction ops with
    | nil => intro f h; cases h
    | cons o ops ih =>
      intro f h
      simp only [runOps]
      rcases List.mem_cons.1 h with rfl | h
      · simp [step]
      · cases step f o with
        | error e => simp
        | ok g => exact ih g h
  apply hfail _ .typeError
  apply List.mem_cons_of_mem
  unfold densOps
  rcases h with h | h | h | h | ⟨h, h'⟩ | ⟨h, h'⟩
  · simp [h]
  · simp [h, putO]
  · simp [h, putO]
  · simp [h, putO]
  · simp [h, h', putO]
  · simp [h, h', putO]

/-- Every dictionary of complete densities saved to a new file comes back, ordered by name. -/
theorem densities_back {ds : Dict Str (Dens A)} (h1 : (ds.map (·.1)).Nodup) (h2 : ∀ i ∈ ds, i.2.Complete) : ∃ g,
    runOps File.empty (saveDensities ds) = (.ok (), g) ∧
      loadDensities g = .ok ((byName ds).map (fun i => (i.1, i.2.kept))) := by
  obtain ⟨g, r1, r2, _⟩ := items_run (b := []) (P := fun d v => readDens v = .ok (Dens.kept d)) .enter (fun _ _ _ => rfl) (densOps []) ds
    (items_empty (V := Val A)) (by simpa using h1) (by
      intro i hi
      obtain ⟨F, a1, a2, _⟩ := dens_file (h2 i hi)
      refine ⟨F, a1, a2, ?_⟩
      have := clean_run (ops := densOps [] i.2) (clean_empty (V := Val A))
      rwa [a1] at this)
  refine ⟨g, ?_, ?_⟩
  · rw [← r1]
    unfold saveDensities
    congr 1
    apply List.flatMap_congr
    intro i _
    unfold saveDens
    rw [densOps_shift]
    rfl
  · exact items_read (b := []) readDens Dens.kept r2

/-- Every complete weight function saved under a path where nothing is comes back with its density; its values only when
its redshifts are there too. -/
theorem weight_back {f : File (Val A)} {r : Path} (hf : Fresh f r) {w : Weight A} (h : w.Complete) : ∃ g,
    runOps f (saveWeight r w) = (.ok (), g) ∧ readWeight (view g r) = .ok w.kept ∧
      ∀ s, Apart r s → view g s = view f s := by
  obtain ⟨g, h1, h2, _⟩ := weight_file h
  refine ⟨graft f r g, ?_, ?_, fun s hs => view_graft_apart hs⟩
  · rw [saveWeight_shift, save_graft hf, h1]
  · rw [view_graft hf]; exact h2

/-- Saving twice under one path fails: nothing is overwritten. -/
theorem dens_twice {f g : File (Val A)} {r : Path} (hf : Fresh f r) {d d' : Dens A} (h : d.Complete) (h' : d'.fromInput.isSome)
    (hg : runOps f (saveDens r d) = (.ok (), g)) :
    ∃ g', runOps g (saveDens r d') = (.error .exists_, g') ∧ g'.data = g.data ∧ g'.groups = g.groups := by
  obtain ⟨G, h1, h2, _, h4⟩ := dens_file h
  have hG : g = graft f r G := by
    unfold saveDens at hg
    rw [densOps_shift, save_graft hf, h1] at hg
    exact (Prod.mk.inj hg).2.symm
  have hr : g.has r = true := by
    have := graft_has (g := G) hf []
    rw [List.append_nil] at this
    rw [hG, this]; rfl
  have hn : g.has (r ++ [N .hasNiz]) = true := by
    rw [hG, graft_has hf]
    exact has_iff.2 (Or.inr (Or.inr h4))
  obtain ⟨b, hb⟩ := Option.isSome_iff_exists.1 h'
  unfold saveDens densOps
  rw [runOps_cons_ok (g := g) (by simp only [step, hr, if_true])]
  simp only [List.cons_append, hb]
  rw [runOps_cons_ok (g := g.setAttr r (N .probe) (.str d'.probe)) rfl]
  have hn' : (g.setAttr r (N .probe) (.str d'.probe)).has (r ++ [N .hasNiz]) = true := hn
  refine ⟨g.setAttr r (N .probe) (.str d'.probe), ?_, rfl, rfl⟩
  simp only [runOps, step, hn', if_true]

/-! ### Spectra -/

/-- Every sound collection of spectra saved to a new file comes back: its redshifts, its spectra with kernels and weight
functions, ordered by name, and the weight functions of the probes that have spectra. Those of the others are lost. -/
theorem coll_back {o : Coll A} (h : o.Sound) : ∃ f o',
    run File.empty (saveColl [] o) = (.ok (), f) ∧ loadColl f [] = .ok o' ∧ o'.grid = o.grid ∧
      o'.cls = (byName o.cls).map (fun i => (i.1, i.2.kept)) ∧
      (∀ p, o.used p → o'.weights.lookup p = (o.weights.lookup p).map Weight.kept) ∧
      ∀ p, ¬ o.used p → o'.weights.lookup p = none := by
  have hlk : ∀ p w, o.weights.lookup p = some w → w.Complete := fun p w hw =>
    (h.weights _ (PyDict.mem_of_lookup hw)).1
  obtain ⟨f1, W1, a1, a2, a3, _, a5⟩ := save_cls (f₀ := collTop o) hlk o.cls (collTop_inv o) (by simpa using h.names)
    (fun i hi => (h.keys i hi).1) h.cls (by simp) h.same
  obtain ⟨f2, W2, b1, b2, b3, b4, b5⟩ := save_weights (D := o.weights) o.weights a2
    (fun i hi => ⟨(h.weights i hi).1, PyDict.lookup_of_mem o.weights h.wnames hi⟩) a3
  have hW : ∀ p w, o.weights.lookup p = some w → (p, w) ∈ W2 := fun p w hw => b5 _ (PyDict.mem_of_lookup hw)
  have hrun : run File.empty (saveColl [] o) = (.ok (), f2) := by
    unfold saveColl
    rw [List.append_assoc, run_append, collTop_run]
    simp only
    rw [run_append]
    have : run (collTop o) (o.cls.flatMap (fun p => saveCl ([] ++ [N .cls]) p.2)) = (.ok (), f1) := a1
    rw [this]
    exact b1
  rw [List.nil_append] at b2
  have hkids : kids f2 [N .cls] = (byName o.cls).map (·.1) := by
    rw [kids_members, nameLe_sort b2.clsMembers, sort_names]
    rfl
  obtain ⟨ws, c1, c2, c3⟩ := load_cls (D := o.weights) b2 hW (byName o.cls) { grid := o.grid } (by
      intro i hi
      have hi := (perm_byName o.cls).mem_iff.1 hi
      obtain ⟨k, w1, w2, hk, e1, e2⟩ : ∃ k w1 w2, i.2.kernel = some k ∧ k.w1 = some w1 ∧ k.w2 = some w2 := by
        obtain ⟨_, _, k, hk, _, _, h1, h2⟩ := h.cls i hi
        obtain ⟨w1, h1⟩ := Option.isSome_iff_exists.1 h1
        obtain ⟨w2, h2⟩ := Option.isSome_iff_exists.1 h2
        exact ⟨k, w1, w2, hk, h1, h2⟩
      have hs := h.same i hi k hk
      have hkey := h.keys i hi
      exact ⟨hi, hkey.1, hkey.2.1, hkey.2.2, k, w1, w2, hk, e1, e2, hs.1 ▸ e1, hs.2 ▸ e2⟩)
    (by
      simp only [List.map_nil, List.nil_append]
      exact ((perm_byName o.cls).map _).nodup_iff.2 h.names)
    (by simp)
  have hgrid : (if (view f2 []).has [N .zGrid] then (view f2 []).opt [N .zGrid] else (view f2 []).opt [N .zArray])
      = .ok o.grid := by
    have hv : ∀ n, n ≠ N .cls → n ≠ N .weights → (view f2 []).has [n] = (view (collTop o) []).has [n] ∧
        (view f2 []).opt [n] = (view (collTop o) []).opt [n] := by
      intro n h1 h2
      have e := b2.rest n h1 h2
      have eh : (view f2 []).has [n] = (view (collTop o) []).has [n] := by
        have := congrFun (congrArg View.has e) []
        simpa [view] using this
      have ed : (view f2 []).data [n] = (view (collTop o) []).data [n] := by
        have := congrFun (congrArg View.data e) []
        simpa [view] using this
      exact ⟨eh, by unfold View.opt View.num; rw [eh, ed]⟩
    have h1 := hv (N .zGrid) (by simp [N_inj]) (by simp [N_inj])
    have h2 := hv (N .zArray) (by simp [N_inj]) (by simp [N_inj])
    rw [h1.1, h1.2, h2.2]
    have hh : ∀ n, n ≠ N .cls → (view (collTop o) []).has [n] = ((optItem (N .zGrid) o.grid).lookup n).isSome := by
      intro n hn
      rw [Bool.eq_iff_iff, view_has, PyDict.lookup_isSome_iff]
      simp [collTop, top, hn]
    have hd : (view (collTop o) []).data [N .zGrid] = (optItem (N .zGrid) o.grid).lookup (N .zGrid) := by
      simp only [view, collTop, List.nil_append]
      exact top_lookup _ _
    unfold View.opt View.num
    rw [hh _ (by simp [N_inj]), hh _ (by simp [N_inj]), hd]
    cases o.grid <;> simp [optItem]
  have hload : loadColl f2 [] = .ok { grid := o.grid, cls := (byName o.cls).map (fun i => (i.1, i.2.kept)), weights := ws } := by
    unfold loadColl
    have hr : f2.has [] = true := has_iff.2 (Or.inl rfl)
    have hc : (view f2 []).has [N .cls] = true := view_has.2 (Or.inr (Or.inl b2.clsGroup))
    have hw : (if (view f2 []).has [N .weights] then readAll ((view f2 []).sub [N .weights]) ((view f2 []).kids [N .weights])
        else .ok ()) = .ok () := by
      split
      · apply readAll_ok
        intro n hn
        have hn : n ∈ kids f2 [N .weights] := hn
        rw [kids_members, List.mem_insertionSort, b2.wMembers.mem_iff] at hn
        obtain ⟨i, hi, rfl⟩ := List.mem_map.1 hn
        refine ⟨i.2.kept, ?_⟩
        rw [view_sub, view_sub]
        exact b2.wView i hi
      · rfl
    simp only [hr, if_true, hgrid, hw, hc]
    have : (view f2 []).kids [N .cls] = kids f2 [N .cls] := rfl
    rw [this, hkids]
    simpa using c1
  refine ⟨f2, _, hrun, hload, rfl, rfl, ?_, ?_⟩
  · rintro p ⟨i, hi, hp⟩
    have : (ws.lookup p).isSome := (c3 p).2 (Or.inr ⟨i, (perm_byName o.cls).mem_iff.2 hi, hp⟩)
    obtain ⟨w, hw⟩ := Option.isSome_iff_exists.1 this
    simp only [hw, c2 p w hw]
  · intro p hp
    have : ¬ (ws.lookup p).isSome := by
      rw [c3 p]
      rintro (h | ⟨i, hi, hpi⟩)
      · simp at h
      · exact hp ⟨i, (perm_byName o.cls).mem_iff.1 hi, hpi⟩
    exact Option.not_isSome_iff_eq_none.1 this

/-- A spectrum without kernel is never saved: the call raises whatever the file. -/
theorem cl_no_kernel {f : File (Val A)} {r : Path} {c : Cl A} (h : c.kernel = none) :
    (run f (saveCl r c)).1 ≠ .ok () := by
  have e : ∃ cs : List (Cmd (Val A)), saveCl r c = cs ++ [.op (.fail .attributeError)] := by
    unfold saveCl
    rw [h]
    exact ⟨_, rfl⟩
  obtain ⟨cs, e⟩ := e
  rw [e, run_append]
  rcases run f cs with ⟨e | u, g⟩
  · intro hc; cases hc
  · simp [run, runCmd, runOps, step]

/-- Under a root where nothing of its name is, the exception comes after its arrays were written: they stay in the
file. -/
theorem cl_no_kernel_left {f : File (Val A)} {r : Path} (hr : f.has r = true) {c : Cl A} (hf : Fresh f (r ++ [key c.p1 c.p2]))
    (h : c.kernel = none) {x l : A} (hx : c.c = some x) (hl : c.ells = some l) : ∃ g,
    run f (saveCl r c) = (.error .attributeError, g) ∧ loadCl g r c.p1 c.p2 = .ok c := by
  have e : saveCl r c = (Op.enter r :: ((puts [] (clItems c x l)).map (shift (r ++ [key c.p1 c.p2])))).map Cmd.op ++
      [.op (.fail .attributeError)] := by
    unfold saveCl clItems
    rw [h, hx, hl]
    cases c.widths <;> simp [puts, optItem, putO, putIf]
  have ht : runOps File.empty (puts [] (clItems c x l)) = (.ok (), clTop c x l) := by
    rw [puts_ok]
    · rfl
    · simp [begins]
    · simp [begins]
    · simp [File.empty]
    · simp [File.empty]
    · unfold clItems
      cases c.widths <;> simp [optItem, N_inj]
  have e2 : runOps f (Op.enter r :: ((puts [] (clItems c x l)).map (shift (r ++ [key c.p1 c.p2]))))
      = (.ok (), graft f (r ++ [key c.p1 c.p2]) (clTop c x l)) := by
    rw [runOps_cons_ok (g := f) (by simp only [step, hr, if_true])]
    have ec : puts [] (clItems c x l) = Op.put [N .cLij] (.num x) :: (puts [] (clItems c x l)).tail := rfl
    rw [ec, save_graft' hf, ← ec, ht]
  refine ⟨graft f (r ++ [key c.p1 c.p2]) (clTop c x l), ?_, ?_⟩
  · rw [e, run_append, run_ops, e2]
    simp [run, runCmd, runOps, step]
  · have hv := view_graft (g := clTop c x l) hf
    have hr' : (graft f (r ++ [key c.p1 c.p2]) (clTop c x l)).has r = true := by
      rcases has_iff.1 hr with h | h | h
      · exact has_iff.2 (Or.inl h)
      · exact has_iff.2 (Or.inr (Or.inl (by
          simp only [graft, List.mem_append, mem_touch]
          exact Or.inl (Or.inl h))))
      · exact has_iff.2 (Or.inr (Or.inr (by
          simp only [graft, List.map_append, List.mem_append]
          exact Or.inl h)))
    have hd : (clTop c x l).data = top (clItems c x l) := rfl
    have hg : (clTop c x l).groups = [] := rfl
    have n1 := flat_num hd (n := N .cLij) (a := x) (by simp [clItems])
    have n2 := flat_num hd (n := N .ells) (a := l) (by simp [clItems, List.lookup_cons, N_beq])
    have n3 := flat_opt hd hg (n := N .widths) (o := c.widths) (by
      unfold clItems
      cases c.widths <;> simp [optItem, List.lookup_cons, N_beq])
    have n4 : (view (clTop c x l) []).has [N .kernel] = false := by
      rw [flat_has hd hg]
      unfold clItems
      cases c.widths <;> simp [optItem, List.lookup_cons, N_beq]
    have n5 : (view (clTop c x l) []).has [] = true := view_has.2 (Or.inl rfl)
    unfold loadCl
    simp only [hr', if_true, hv, n1, n2, n3, n4, n5, Bool.false_eq_true, if_false]
    obtain ⟨p1, p2, a, b, d, k⟩ := c
    simp only at h hx hl
    subst h hx hl
    rfl

/-- Spectra without kernel cannot be loaded as a collection: the first of them by name raises. -/
theorem load_no_kernel {f : File (Val A)} {r : Path} {n p1 p2 : Str} {ns : List Str} {o : Coll A} {c : Cl A}
    (hn : splitChar '_' n = [p1, p2]) (hc : loadCl f r p1 p2 = .ok c) (hk : c.kernel = none)
    (hw : o.weights.lookup p1 = none) : loadCls f r (n :: ns) o = .error .attributeError := by
  rw [loadCls]
  simp only [hn, hc, hk, hw]
  simp

/-- Weight functions already in the file stay: a further spectrum of the same probes, under any root, neither writes
its own nor touches those. -/
theorem weights_first {f g : File (Val A)} {r : Path} {c : Cl A} (h1 : f.has [N .weights, c.p1] = true)
    (h2 : f.has [N .weights, c.p2] = true) {k : Kern A} (hk : c.kernel = some k) (w1 w2 : Option (Weight A))
    (hg : run f (saveCl r c) = (.ok (), g)) :
    run f (saveCl r { c with kernel := some { k with w1 := w1, w2 := w2 } }) = (.ok (), g) := by
  have hmono : ∀ (ops : List (Op (Val A))) (f g : File (Val A)) p, f.has p = true → runOps f ops = (.ok (), g) → g.has p = true := by
    intro ops
    induction ops with
    | nil => intro f g p h e; cases e; exact h
    | cons o ops ih =>
      intro f g p h e
      simp only [runOps] at e
      cases hs : step f o with
      | error x => rw [hs] at e; cases e
      | ok f' =>
        rw [hs] at e
        refine ih f' g p ?_ e
        have hm : ∀ q, mkGroup f q = .ok f' → f'.has p = true := by
          intro q hq
          unfold mkGroup at hq
          split at hq
          · cases hq
          · cases hq
            rcases has_iff.1 h with h | h | h
            · exact has_iff.2 (Or.inl h)
            · exact has_iff.2 (Or.inr (Or.inl (mem_touch.2 (Or.inl h))))
            · exact has_iff.2 (Or.inr (Or.inr h))
        cases o with
        | enter q =>
          simp only [step] at hs
          split at hs
          · cases hs; exact h
          · exact hm q hs
        | group q =>
          simp only [step] at hs
          split at hs
          · cases hs
          · exact hm q hs
        | put q v =>
          simp only [step] at hs
          split at hs
          · cases hs
          · split at hs
            · cases hs
            · cases hs
              rcases has_iff.1 h with h | h | h
              · exact has_iff.2 (Or.inl h)
              · exact has_iff.2 (Or.inr (Or.inl (mem_touch.2 (Or.inl h))))
              · exact has_iff.2 (Or.inr (Or.inr (by
                  rw [List.map_append]
                  exact List.mem_append_left _ h)))
        | att q n v => cases hs; exact h
        | fail e => cases hs
  have hform : ∀ (k : Kern A), saveCl r { c with kernel := some k } =
      (([.enter r, putO (r ++ [key c.p1 c.p2, N .cLij]) c.c, putO (r ++ [key c.p1 c.p2, N .ells]) c.ells] ++
        putIf (r ++ [key c.p1 c.p2, N .widths]) c.widths ++ saveKern (r ++ [key c.p1 c.p2, N .kernel]) k).map .op) ++
        weightCmds c.p1 c.p2 k.w1 k.w2 := by
    intro k
    simp [saveCl]
  have hw : ∀ (f' : File (Val A)) a b, f'.has [N .weights, c.p1] = true → f'.has [N .weights, c.p2] = true →
      run f' (weightCmds c.p1 c.p2 a b) = (.ok (), f') := by
    intro f' a b h1 h2
    unfold weightCmds
    cases a with
    | none => rfl
    | some w => simp [run, runCmd, h1, h2]
  have hc : c = { c with kernel := some k } := by rw [← hk]
  rw [hc, hform, run_append, run_ops] at hg
  rw [hform, run_append, run_ops]
  have hsame : saveKern (r ++ [key c.p1 c.p2, N .kernel]) { k with w1 := w1, w2 := w2 }
      = saveKern (r ++ [key c.p1 c.p2, N .kernel]) k := rfl
  rw [hsame]
  rcases hr : runOps f ([.enter r, putO (r ++ [key c.p1 c.p2, N .cLij]) c.c, putO (r ++ [key c.p1 c.p2, N .ells]) c.ells] ++
        putIf (r ++ [key c.p1 c.p2, N .widths]) c.widths ++ saveKern (r ++ [key c.p1 c.p2, N .kernel]) k) with ⟨e | u, g'⟩
  · rw [hr] at hg; cases hg
  · rw [hr] at hg
    have m1 := hmono _ _ _ _ h1 hr
    have m2 := hmono _ _ _ _ h2 hr
    simp only [hw g' _ _ m1 m2] at hg ⊢
    exact hg

/-- When two collections are equal to the program: every spectrum of the first has one of its name in the second with the
same arrays. Probes, kernels and weight functions are not compared, nor is what only the second has. -/
theorem eq_iff [DecidableEq A] (o o' : Coll A) : collEq o o' = .ok true ↔
    ∀ i ∈ o.cls, ∃ c', o'.cls.lookup i.1 = some c' ∧ i.2.c = c'.c ∧ i.2.ells = c'.ells ∧ i.2.widths = c'.widths := by
  unfold collEq
  generalize o.cls = l
  suffices h : (∃ r, l.mapM (fun i => (o'.cls.lookup i.1).map (clEq i.2)) = some r ∧ r.all id = true) ↔
      ∀ i ∈ l, ∃ c', o'.cls.lookup i.1 = some c' ∧ i.2.c = c'.c ∧ i.2.ells = c'.ells ∧ i.2.widths = c'.widths by
    rw [← h]
    cases l.mapM (fun i => (o'.cls.lookup i.1).map (clEq i.2)) with
    | none => simp
    | some r => simp
  induction l with
  | nil => exact ⟨by simp, fun _ => ⟨[], rfl, rfl⟩⟩
  | cons i l ih =>
    rw [List.mapM_cons]
    constructor
    · rintro ⟨r, hr, ha⟩
      cases hc : o'.cls.lookup i.1 with
      | none => rw [hc] at hr; cases hr
      | some c' =>
        rw [hc] at hr
        cases hm : l.mapM (fun i => (o'.cls.lookup i.1).map (clEq i.2)) with
        | none => rw [hm] at hr; cases hr
        | some r' =>
          rw [hm] at hr
          cases hr
          simp only [List.all_cons, id, Bool.and_eq_true] at ha
          intro j hj
          rcases List.mem_cons.1 hj with rfl | hj
          · exact ⟨c', hc, of_decide_eq_true ha.1⟩
          · exact ih.1 ⟨r', hm, ha.2⟩ j hj
    · intro h
      obtain ⟨c', hc, he⟩ := h i List.mem_cons_self
      obtain ⟨r', hm, ha⟩ := ih.2 (fun j hj => h j (List.mem_cons_of_mem _ hj))
      refine ⟨clEq i.2 c' :: r', ?_, ?_⟩
      · rw [hc, hm]; rfl
      · simp only [List.all_cons, id, ha, Bool.and_true]
        exact decide_eq_true he

/-- A collection read back from the file it was saved to is equal to the one saved, both ways round. -/
theorem coll_back_eq [DecidableEq A] {o : Coll A} (h : o.Sound) : ∃ f o', run File.empty (saveColl [] o) = (.ok (), f) ∧
    loadColl f [] = .ok o' ∧ collEq o o' = .ok true ∧ collEq o' o = .ok true := by
  obtain ⟨f, o', h1, h2, _, h3, _⟩ := coll_back h
  have hn' : ((byName o.cls).map (·.1)).Nodup := ((perm_byName o.cls).map _).nodup_iff.2 h.names
  refine ⟨f, o', h1, h2, (eq_iff _ _).2 ?_, (eq_iff _ _).2 ?_⟩
  · intro i hi
    refine ⟨i.2.kept, ?_, rfl, rfl, rfl⟩
    rw [h3]
    have := PyDict.lookup_of_mem (p := (i.1, i.2.kept)) ((byName o.cls).map (fun i => (i.1, i.2.kept))) (by
      rw [List.map_map]; exact hn') (List.mem_map.2 ⟨i, (perm_byName o.cls).mem_iff.2 hi, rfl⟩)
    exact this
  · intro i hi
    rw [h3] at hi
    obtain ⟨j, hj, rfl⟩ := List.mem_map.1 hi
    exact ⟨j.2, PyDict.lookup_of_mem o.cls h.names ((perm_byName o.cls).mem_iff.1 hj), rfl, rfl, rfl⟩

/-- The comparison is not symmetric: a collection without spectra equals every other, and the other way round it raises. -/
theorem eq_asymmetric [DecidableEq A] (o : Coll A) (h : o.cls ≠ []) :
    collEq { o with cls := [] } o = .ok true ∧ collEq o { o with cls := [] } = .error .keyError := by
  constructor
  · exact (eq_iff _ _).2 (by simp)
  · unfold collEq
    cases hc : o.cls with
    | nil => exact absurd hc h
    | cons i l => rw [List.mapM_cons]; rfl

/-- Loading into an existing weight function always raises when the root begins with a slash: the root is taken for the
mode. -/
theorem weight_into (fs : Option (File V)) (root : Str) (stamp : V) (creation : List (Str × V))
    (h : root.head? = some '/') : loadWeightInto fs root stamp creation = (.error .badMode, fs) := by
  have : H5.parseMode root = none := by
    cases root with
    | nil => cases h
    | cons c s =>
      cases h
      unfold H5.parseMode
      have hne : ∀ t : Str, t.head? ≠ some '/' → '/' :: s ≠ t := by
        rintro t ht rfl
        exact ht rfl
      rw [if_neg (hne "r".toList (by decide)), if_neg (hne "r+".toList (by decide)), if_neg (hne "w".toList (by decide)),
        if_neg (hne "w-".toList (by decide)), if_neg (hne "x".toList (by decide)), if_neg (hne "a".toList (by decide))]
  unfold loadWeightInto H5.openFile
  rw [this]

/-! ### Covariances -/

theorem saveDeltaColl_shift (r : Path) (o : DeltaColl A) :
    saveDeltaColl r o = .enter r :: ((o.items.flatMap (fun p => saveDelta [N .deltaCls, p.1] p.2) ++
      o.single.flatMap (fun p => saveDelta [N .singleBlocks, p.1] p.2)).map (shift r)) := by
  have : ∀ a n (d : DeltaCl A), saveDelta (r ++ [a, n]) d = (saveDelta [a, n] d).map (shift r) := by
    intro a n d
    simp [saveDelta, shift_putO, shift_putIf, shift_attIf]
  unfold saveDeltaColl
  simp only [this, List.map_append, List.map_flatMap]

/-- The file a collection of covariances makes. -/
theorem delta_coll_file {o : DeltaColl A} (h1 : (o.items.map (·.1)).Nodup) (h2 : (o.single.map (·.1)).Nodup)
    (h3 : ∀ i ∈ o.items ++ o.single, i.2.Complete) : ∃ F : File (Val A),
    runOps File.empty (o.items.flatMap (fun p => saveDelta [N .deltaCls, p.1] p.2) ++
      o.single.flatMap (fun p => saveDelta [N .singleBlocks, p.1] p.2)) = (.ok (), F) ∧
    loadDeltaColl F [] = (if o.items = [] ∨ o.single = [] then .error .keyError
      else .ok ⟨byName o.items, byName o.single⟩) := by
  have hap : ∀ a b : Fld, a ≠ b → ∀ n (s : Path), Apart ([N a] ++ [n]) (N b :: s) := fun a b h n s =>
    apart_of_ne [] [n] s (by simpa [N_inj] using h)
  obtain ⟨F1, a1, a2, a3, a4, a5⟩ := items_run (b := [N .deltaCls]) (P := fun d v => readDelta v = .ok (id d)) .enter (fun _ _ _ => rfl)
    deltaOps o.items
    (items_empty (V := Val A)) (by simpa using h1) (fun i hi => delta_file (h3 i (List.mem_append_left _ hi)))
  have hs : Items F1 [N .singleBlocks] ([] : Dict Str (DeltaCl A)) (fun d v => readDelta v = .ok (id d)) := by
    have hm := members_of_view (a3 [N .singleBlocks] (fun n => hap _ _ (by decide) n [])).1
    constructor
    · simpa [members, File.empty] using hm
    · simp
    · simp
    · intro n _
      exact (a3 _ (fun m => hap _ _ (by decide) m [n])).2 (items_empty (V := Val A) (X := DeltaCl A) (b := [N .singleBlocks])
        (P := fun _ _ => True)|>.fresh n (by simp))
  obtain ⟨F2, b1, b2, b3, b4, b5⟩ := items_run (b := [N .singleBlocks]) .enter (fun _ _ _ => rfl) deltaOps o.single hs (by simpa using h2)
    (fun i hi => delta_file (h3 i (List.mem_append_right _ hi)))
  have hF : Items F2 [N .deltaCls] o.items (fun d v => readDelta v = .ok (id d)) := by
    simp only [List.nil_append] at a2
    have hd := fun n (s : Path) => hap .singleBlocks .deltaCls (by decide) n s
    constructor
    · exact (members_of_view (b3 [N .deltaCls] (fun n => hd n [])).1).trans a2.mem
    · intro i hi
      have := a2.at_ i hi
      rw [(b3 ([N .deltaCls] ++ [i.1]) (fun n => hd n [i.1])).1]
      exact this
    · exact fun i hi => b4 _ (a2.has i hi)
    · exact fun n hn => (b3 _ (fun m => hd m [n])).2 (a2.fresh n hn)
  refine ⟨F2, ?_, ?_⟩
  · rw [runOps_append]
    have e : ∀ a (l : Dict Str (DeltaCl A)), l.flatMap (fun p => saveDelta [a, p.1] p.2)
        = l.flatMap (fun i => Op.enter ([a] ++ [i.1]) :: (deltaOps i.2).map (shift ([a] ++ [i.1]))) := by
      intro a l
      apply List.flatMap_congr
      intro i _
      rw [saveDelta_shift]
      rfl
    rw [e, e, a1]
    exact b1
  · have hgone : ∀ a : Fld, (∀ q ∈ F2.groups, q.head? ≠ some (N a)) → (∀ q ∈ F2.data, q.1.head? ≠ some (N a)) →
        (view F2 []).has [N a] = false := by
      intro a g1 g2
      rw [Bool.eq_false_iff]
      intro hc
      rcases view_has.1 hc with h | h | h
      · simp at h
      · exact g1 _ h (by simp)
      · obtain ⟨i, hi, he⟩ := List.mem_map.1 h
        exact g2 i hi (by rw [he]; simp)
    have hnone : ∀ (a b : Fld) (hab : b ≠ a), (view F2 []).has [N a] = (view F2 [N a]).has [] := by
      intro a b _
      simp [view]
    have hr : F2.has [] = true := has_iff.2 (Or.inl rfl)
    have ek : ∀ a : Fld, (view F2 []).kids [N a] = kids F2 [N a] := fun _ => rfl
    have es : ∀ (a : Fld), (fun n => readDelta ((view F2 []).sub [N a, n])) = (fun n => readDelta (view F2 ([N a] ++ [n]))) := by
      intro a
      funext n
      rw [view_sub]
      rfl
    have rd := items_read readDelta id hF
    have rs := items_read readDelta id (by simpa using b2)
    simp only [id, Prod.mk.eta, List.map_id'] at rd rs
    unfold loadDeltaColl
    simp only [hr, if_true, ek, es, rd, rs]
    by_cases hi : o.items = []
    · have : (view F2 []).has [N .deltaCls] = false := by
        have e := (b3 [N .deltaCls] (fun n => hap _ _ (by decide) n [])).1
        have e1 := congrFun (congrArg View.has e) []
        have hE : F1 = File.empty := by
          rw [hi] at a1
          exact (Prod.mk.inj a1).2.symm
        rw [hE] at e1
        simp only [view, List.append_nil] at e1
        simp only [view, List.nil_append]
        rw [e1]
        simp [File.has, File.empty]
      simp [this, hi]
    · have : (view F2 []).has [N .deltaCls] = true := view_has.2 (Or.inr (Or.inl (b4 _ (a5 hi (by simp)))))
      simp only [this, if_true, hi, false_or]
      by_cases hsg : o.single = []
      · have : (view F2 []).has [N .singleBlocks] = false := by
          have e := (a3 [N .singleBlocks] (fun n => hap _ _ (by decide) n [])).1
          have e1 := congrFun (congrArg View.has e) []
          have hE : F2 = F1 := by
            rw [hsg] at b1
            exact (Prod.mk.inj b1).2.symm
          simp only [view, List.append_nil] at e1
          simp only [view, List.nil_append]
          rw [hE, e1]
          simp [File.has, File.empty]
        simp [this, hsg]
      · have : (view F2 []).has [N .singleBlocks] = true := view_has.2 (Or.inr (Or.inl (b5 hsg (by simp))))
        simp [this, hsg]

/-- Covariances saved under a root where nothing is come back under their names, ordered by name, when there are both
joint and single ones. Without either the file cannot be read. -/
theorem delta_back {f : File (Val A)} {r : Path} (hf : Fresh f r) {o : DeltaColl A} (h1 : (o.items.map (·.1)).Nodup)
    (h2 : (o.single.map (·.1)).Nodup) (h3 : ∀ i ∈ o.items ++ o.single, i.2.Complete) : ∃ g,
    runOps f (saveDeltaColl r o) = (.ok (), g) ∧
      loadDeltaColl g r = (if o.items = [] ∨ o.single = [] then .error .keyError
        else .ok ⟨byName o.items, byName o.single⟩) ∧
      ∀ s, Apart r s → view g s = view f s := by
  obtain ⟨F, a1, a2⟩ := delta_coll_file h1 h2 h3
  refine ⟨graft f r F, ?_, ?_, fun s hs => view_graft_apart hs⟩
  · rw [saveDeltaColl_shift, save_graft hf, a1]
  · rw [← a2]
    have hr : (graft f r F).has r = true := by
      have := graft_has (g := F) hf []
      rw [List.append_nil] at this
      rw [this]; rfl
    have he : F.has [] = true := has_iff.2 (Or.inl rfl)
    unfold loadDeltaColl
    simp only [hr, he, if_true, view_graft hf]

/-- The same in a new file under `/`, as the program does it. -/
theorem delta_back_new {o : DeltaColl A} (h1 : (o.items.map (·.1)).Nodup)
    (h2 : (o.single.map (·.1)).Nodup) (h3 : ∀ i ∈ o.items ++ o.single, i.2.Complete) : ∃ g,
    runOps File.empty (saveDeltaColl [] o) = (.ok (), g) ∧
      loadDeltaColl g [] = (if o.items = [] ∨ o.single = [] then .error .keyError
        else .ok ⟨byName o.items, byName o.single⟩) := by
  obtain ⟨F, a1, a2⟩ := delta_coll_file h1 h2 h3
  refine ⟨F, ?_, a2⟩
  rw [saveDeltaColl_shift, runOps_cons_ok (g := File.empty) rfl]
  have : (shift [] : Op (Val A) → _) = id := by
    funext x
    cases x <;> rfl
  rw [this, List.map_id, a1]

/-! ### Derivatives -/

theorem fresh_has {f : File V} {r : Path} (hf : Fresh f r) : f.has r = false := by
  rw [Bool.eq_false_iff]
  intro hc
  rcases has_iff.1 hc with h | h | h
  · exact hf.ne h
  · exact hf.groups [] (by simpa using h)
  · exact hf.data [] (by simpa using h)

/-- Derivatives of spectra written to a file come back with their multipoles, under the probes their keys name. -/
theorem derivs_back {d : Dict Str (A × A)} (h1 : (d.map (·.1)).Nodup)
    (h2 : ∀ i ∈ d, ∃ p1 p2, i.1 = key p1 p2 ∧ '_' ∉ p1 ∧ '_' ∉ p2) : ∃ f,
    runOps File.empty (saveDerivs d) = (.ok (), f) ∧ ∃ l, loadDerivs f (kids f []) = .ok l ∧
      l.map (fun i => (i.1, i.2.dc, i.2.ells)) = byName d ∧ ∀ i ∈ l, i.1 = key i.2.p1 i.2.p2 := by
  let ops : A × A → List (Op (Val A)) := fun x => [.put [N .dcLij] (.num x.1), .put [N .ells] (.num x.2)]
  let P : A × A → View (Val A) → Prop := fun x v => v.num [N .dcLij] = .ok x.1 ∧ v.num [N .ells] = .ok x.2
  obtain ⟨g, r1, r2, _⟩ := items_run (b := []) (P := P) .group (by
      intro f r hf
      have : f.has r = false := fresh_has hf
      simp only [step, this]
      rfl) ops d (items_empty (V := Val A)) (by simpa using h1) (by
    intro i _
    have hrun : runOps File.empty (ops i.2) = 
        (.ok (), ⟨[], top [(N .dcLij, .num i.2.1), (N .ells, .num i.2.2)], []⟩) := by
      have : ops i.2 = puts [] [(N .dcLij, .num i.2.1), (N .ells, .num i.2.2)] := rfl
      rw [this, puts_ok]
      · rfl
      · simp [begins]
      · simp [begins]
      · simp [File.empty]
      · simp [File.empty]
      · simp [N_inj]
    refine ⟨_, hrun, ⟨flat_num rfl (by simp), flat_num rfl (by simp [List.lookup_cons, N_beq])⟩, ?_⟩
    have := clean_run (ops := ops i.2) (clean_empty (V := Val A))
    rwa [hrun] at this)
  have hrd := items_kids r2
  refine ⟨g, r1, ?_⟩
  simp only [List.nil_append] at hrd r2
  have hb : ∀ i ∈ byName d, ∃ p1 p2, i.1 = key p1 p2 ∧ splitChar '_' i.1 = [p1, p2] := by
    intro i hi
    obtain ⟨p1, p2, e, n1, n2⟩ := h2 i ((perm_byName d).mem_iff.1 hi)
    refine ⟨p1, p2, e, ?_⟩
    rw [e]
    unfold key
    rw [splitChar_append _ _ _ n1, splitChar_no_sep _ _ n2]
  have hat : ∀ i ∈ byName d, P i.2 (view g [i.1]) := fun i hi => r2.at_ i ((perm_byName d).mem_iff.1 hi)
  rw [hrd]
  generalize byName d = L at hb hat
  induction L with
  | nil => exact ⟨[], rfl, rfl, by simp⟩
  | cons i L ih =>
    obtain ⟨p1, p2, e, hs⟩ := hb i List.mem_cons_self
    obtain ⟨q1, q2⟩ := hat i List.mem_cons_self
    obtain ⟨l, l1, l2, l3⟩ := ih (fun j hj => hb j (List.mem_cons_of_mem _ hj)) (fun j hj => hat j (List.mem_cons_of_mem _ hj))
    refine ⟨(i.1, ⟨p1, p2, i.2.1, i.2.2⟩) :: l, ?_, by simp [l2], ?_⟩
    · rw [List.map_cons, loadDerivs]
      simp only [hs, q1, q2, l1]
    · intro j hj
      rcases List.mem_cons.1 hj with rfl | hj
      · exact e
      · exact l3 j hj

/-! ### Cases -/

section Cases

def exDens : Dens Nat :=
  { probe := "Void".toList, fromInput := some false, domain := some 1, edges := some 2, fSky := some 3,
    nIz := some 7, dN := some 4, response := [("z0".toList, 5), ("cb".toList, 6)] }

def exDens' : Dens Nat :=
  { probe := "Lensing".toList, fromInput := some true, domain := some 1, edges := some 2,
    fSky := some 3, nIz := some 7, dN := some 4, grid := some 8 }

theorem fresh_empty {r : Path} (h : r ≠ []) : Fresh (File.empty : File V) r := by
  constructor <;> simp [File.empty, h]

theorem exDens_complete : exDens.Complete ∧ exDens'.Complete := by
  constructor <;> simp [Dens.Complete, exDens, exDens']

example : ∃ g, runOps File.empty (saveDens ["d".toList] exDens) = (.ok (), g) ∧
    readDens (view g ["d".toList]) = .ok { exDens with nIz := none, response := [("cb".toList, 6), ("z0".toList, 5)] } := by
  obtain ⟨g, h1, h2, _⟩ := dens_back (f := File.empty) (r := ["d".toList]) (fresh_empty (by simp)) exDens_complete.1
  exact ⟨g, h1, h2.trans (by decide +kernel)⟩

example : (runOps File.empty (saveDens ["d".toList] { exDens with dN := none })).1 ≠ .ok () :=
  dens_incomplete (Or.inr (Or.inr (Or.inr (Or.inr (Or.inr ⟨rfl, rfl⟩)))))

example : ∃ g g', runOps File.empty (saveDens ["d".toList] exDens) = (.ok (), g) ∧
    runOps g (saveDens ["d".toList] exDens') = (.error .exists_, g') := by
  obtain ⟨g, h1, _⟩ := dens_back (f := File.empty) (r := ["d".toList]) (fresh_empty (by simp)) exDens_complete.1
  obtain ⟨g', h2, _⟩ := dens_twice (d' := exDens') (fresh_empty (by simp)) exDens_complete.1 rfl h1
  exact ⟨g, g', h1, h2⟩

example : ∃ g, runOps File.empty (saveDensities [("Void".toList, exDens), ("Lensing".toList, exDens')]) = (.ok (), g) ∧
    loadDensities g = .ok [("Lensing".toList, exDens'.kept), ("Void".toList, exDens.kept)] := by
  obtain ⟨g, h1, h2⟩ := densities_back (ds := [("Void".toList, exDens), ("Lensing".toList, exDens')]) (by decide)
    (by simp [exDens_complete.1, exDens_complete.2])
  exact ⟨g, h1, h2.trans (by decide +kernel)⟩

def exW (p : Str) (n : Nat) : Weight Nat := { probe := p, grid := some 10, w := some n, dens := some exDens }

def exCl (p q : Str) (n m : Nat) : Cl Nat :=
  { p1 := p, p2 := q, c := some 20, ells := some 21,
    kernel := some ⟨p, q, some 10, some 22, some (exW p n), some (exW q m)⟩ }

def exP : Str := "Void".toList
def exQ : Str := "Lensing".toList
def exR : Str := "PhotometricGalaxy".toList

/-- Two spectra of two probes, and a weight function of a third. -/
def exColl (n : Nat) : Coll Nat :=
  { grid := some 10, cls := [(key exP exP, exCl exP exP n n), (key exP exQ, exCl exP exQ n 12)],
    weights := [(exP, exW exP n), (exQ, exW exQ 12), (exR, exW exR 13)] }

theorem exW_complete (p : Str) (n : Nat) (h : p ∈ probes) : (exW p n).Complete :=
  ⟨h, by intro d hd; cases hd; exact exDens_complete.1⟩

theorem exColl_sound (n : Nat) : (exColl n).Sound where
  names := by simp only [exColl, List.map_cons, List.map_nil]; decide
  wnames := by simp only [exColl, List.map_cons, List.map_nil]; decide
  keys := by
    intro i hi
    simp only [exColl, List.mem_cons, List.not_mem_nil, or_false] at hi
    rcases hi with rfl | rfl
    · exact ⟨rfl, show exP ∈ probes by decide, show exP ∈ probes by decide⟩
    · exact ⟨rfl, show exP ∈ probes by decide, show exQ ∈ probes by decide⟩
  cls := by
    intro i hi
    simp only [exColl, List.mem_cons, List.not_mem_nil, or_false] at hi
    rcases hi with rfl | rfl <;> exact ⟨rfl, rfl, _, rfl, rfl, rfl, rfl, rfl⟩
  weights := by
    intro i hi
    simp only [exColl, List.mem_cons, List.not_mem_nil, or_false] at hi
    rcases hi with rfl | rfl | rfl
    · exact ⟨exW_complete _ _ (by decide), rfl⟩
    · exact ⟨exW_complete _ _ (by decide), rfl⟩
    · exact ⟨exW_complete _ _ (by decide), rfl⟩
  same := by
    intro i hi k hk
    simp only [exColl, List.mem_cons, List.not_mem_nil, or_false] at hi
    have h1 : (exColl n).weights.lookup exP = some (exW exP n) := PyDict.lookup_of_mem (p := (exP, exW exP n)) _
      (by simp only [exColl, List.map_cons, List.map_nil]; decide) (by simp [exColl])
    have h2 : (exColl n).weights.lookup exQ = some (exW exQ 12) := PyDict.lookup_of_mem (p := (exQ, exW exQ 12)) _
      (by simp only [exColl, List.map_cons, List.map_nil]; decide) (by simp [exColl])
    rcases hi with rfl | rfl
    · cases hk; exact ⟨h1.symm, h1.symm⟩
    · cases hk; exact ⟨h1.symm, h2.symm⟩

/-- The weight function of a probe without spectra is lost. -/
theorem weights_lost : ∃ f o', run File.empty (saveColl [] (exColl 11)) = (.ok (), f) ∧ loadColl f [] = .ok o' ∧
    (exColl 11).weights.lookup exR ≠ none ∧ o'.weights.lookup exR = none := by
  obtain ⟨f, o', h1, h2, _, _, _, h3⟩ := coll_back (exColl_sound 11)
  refine ⟨f, o', h1, h2, by decide +kernel, h3 _ ?_⟩
  rintro ⟨i, hi, hp⟩
  simp only [exColl, List.mem_cons, List.not_mem_nil, or_false] at hi
  rcases hi with rfl | rfl <;> revert hp <;> decide +kernel

/-- Of two collections in one file under different roots, the second comes back with the weight functions of the
first. -/
theorem second_collection : ∃ f g o', run File.empty (saveColl ["a".toList] (exColl 11)) = (.ok (), f) ∧
    run f (saveColl ["b".toList] (exColl 99)) = (.ok (), g) ∧ loadColl g ["b".toList] = .ok o' ∧
    (exColl 99).weights.lookup exP = some (exW exP 99) ∧ o'.weights.lookup exP = some (exW exP 11).kept := by
  refine ⟨(run File.empty (saveColl ["a".toList] (exColl 11))).2,
    (run (run File.empty (saveColl ["a".toList] (exColl 11))).2 (saveColl ["b".toList] (exColl 99))).2, ?_⟩
  refine ⟨match loadColl (run (run File.empty (saveColl ["a".toList] (exColl 11))).2 (saveColl ["b".toList] (exColl 99))).2
    ["b".toList] with
    | .ok o => o
    | .error _ => {}, ?_⟩
  refine ⟨?_, ?_, ?_, ?_, ?_⟩
  · exact Prod.ext (show _ = Except.ok () by decide +kernel) rfl
  · exact Prod.ext (show _ = Except.ok () by decide +kernel) rfl
  · decide +kernel
  · decide +kernel
  · decide +kernel

example : ∃ g, runOps File.empty (saveWeight ["w".toList] { exW exP 11 with grid := none }) = (.ok (), g) ∧
    readWeight (view g ["w".toList]) = .ok { probe := exP, dens := some exDens.kept } := by
  obtain ⟨g, h1, h2, _⟩ := weight_back (f := File.empty) (r := ["w".toList]) (w := { exW exP 11 with grid := none })
    (fresh_empty (by simp)) (exW_complete exP 11 (by decide))
  exact ⟨g, h1, h2⟩

example : ∃ f o', run File.empty (saveColl [] (exColl 11)) = (.ok (), f) ∧ loadColl f [] = .ok o' ∧
    collEq (exColl 11) o' = .ok true ∧ collEq o' (exColl 11) = .ok true := coll_back_eq (exColl_sound 11)

/-- A file with the group of the spectra only. -/
def exRoot : File (Val Nat) := (runOps File.empty [.group [N .cls]]).2

theorem exRoot_fresh (k : Str) : Fresh exRoot ([N .cls] ++ [k]) := by
  have hg : ∀ p ∈ exRoot.groups, p.length ≤ 1 := by decide +kernel
  have hd : exRoot.data = [] := by decide +kernel
  have ha : exRoot.attrs = [] := by decide +kernel
  constructor
  · simp
  · intro q hq
    have := hg _ hq
    simp at this
  all_goals simp [hd, ha]

example : ∃ g, run exRoot (saveCl [N .cls] { exCl exP exQ 1 2 with kernel := none }) = (.error .attributeError, g) ∧
    loadCl g [N .cls] exP exQ = .ok { exCl exP exQ 1 2 with kernel := none } :=
  cl_no_kernel_left (c := { exCl exP exQ 1 2 with kernel := none }) (by decide +kernel) (exRoot_fresh _) rfl rfl rfl

/-- The file a spectrum without kernel leaves cannot be loaded as a collection. -/
example : loadColl (run exRoot (saveCl [N .cls] { exCl exP exQ 1 2 with kernel := none })).2 [] =
    .error .attributeError := by decide +kernel

/-- The weight functions of the spectrum saved second are not in the file. -/
example : ∃ f g, run File.empty (saveCl ["a".toList] (exCl exP exQ 11 12)) = (.ok (), f) ∧
    run f (saveCl ["b".toList] (exCl exP exQ 88 99)) = (.ok (), g) ∧
    run f (saveCl ["b".toList] (exCl exP exQ 11 12)) = (.ok (), g) := by
  refine ⟨(run File.empty (saveCl ["a".toList] (exCl exP exQ 11 12))).2,
    (run (run File.empty (saveCl ["a".toList] (exCl exP exQ 11 12))).2 (saveCl ["b".toList] (exCl exP exQ 11 12))).2,
    Prod.ext (show _ = Except.ok () by decide +kernel) rfl, ?_, Prod.ext (show _ = Except.ok () by decide +kernel) rfl⟩
  exact weights_first (c := exCl exP exQ 11 12) (show _ = true by decide +kernel) (show _ = true by decide +kernel) rfl
    (some (exW exP 88)) (some (exW exQ 99)) (Prod.ext (show _ = Except.ok () by decide +kernel) rfl)

example : collEq (exColl 11) { (exColl 99) with weights := [], grid := none } = .ok true := by decide +kernel

example : loadWeightInto (V := Nat) (some File.empty) "/weights".toList 0 [] = (.error .badMode, some File.empty) :=
  weight_into _ _ _ _ rfl

def exDelta (n : Nat) : DeltaCl Nat :=
  { name := "x".toList, probe1 := some exP, delta := some n, ells := some 2, noise := some 3 }

example : ∃ g, runOps File.empty (saveDeltaColl [] ⟨[("b".toList, exDelta 1), ("a".toList, exDelta 2)],
      [("c".toList, exDelta 3)]⟩) = (.ok (), g) ∧
    loadDeltaColl g [] = .ok ⟨[("a".toList, exDelta 2), ("b".toList, exDelta 1)], [("c".toList, exDelta 3)]⟩ := by
  obtain ⟨g, h1, h2⟩ := delta_back_new (o := (⟨[("b".toList, exDelta 1), ("a".toList, exDelta 2)],
      [("c".toList, exDelta 3)]⟩ : DeltaColl Nat)) (by decide) (by decide) (by simp [DeltaCl.Complete, exDelta])
  exact ⟨g, h1, h2.trans (by decide +kernel)⟩

/-- Joint covariances alone are saved and cannot be loaded. -/
theorem delta_alone : ∃ g, runOps File.empty (saveDeltaColl [] ⟨[("b".toList, exDelta 1)], []⟩) = (.ok (), g) ∧
    loadDeltaColl g [] = .error .keyError := by
  obtain ⟨g, h1, h2⟩ := delta_back_new (o := (⟨[("b".toList, exDelta 1)], []⟩ : DeltaColl Nat)) (by decide) (by decide)
    (by simp [DeltaCl.Complete, exDelta])
  exact ⟨g, h1, h2.trans (by simp)⟩

example : ∃ f l, runOps File.empty (saveDerivs [(key exP exQ, 1, 2), (key exQ exQ, 3, 4)]) = (.ok (), f) ∧
    loadDerivs f (kids f []) = .ok l ∧
    l.map (fun i => (i.1, i.2.dc, i.2.ells)) = [(key exQ exQ, 3, 4), (key exP exQ, 1, 2)] := by
  obtain ⟨f, h1, l, h2, h3, _⟩ := derivs_back (d := [(key exP exQ, 1, 2), (key exQ exQ, 3, 4)]) (by decide)
    (by
      intro i hi
      simp only [List.mem_cons, List.not_mem_nil, or_false] at hi
      rcases hi with rfl | rfl
      · exact ⟨exP, exQ, rfl, by decide, by decide⟩
      · exact ⟨exQ, exQ, rfl, by decide, by decide⟩)
  exact ⟨f, l, h1, h2, h3.trans (by decide +kernel)⟩

end Cases

end Seyfert.Stored
