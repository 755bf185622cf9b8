import Verif.Props.FisherAnalysis
import Verif.Spec.AnalysisLife

/-!
C116: the matrices of an analysis are those of its directory, its order names them.
-/

set_option linter.unusedSectionVars false

namespace Seyfert.Life

open Fisher

variable {N K : Type} [LinearOrder N] [Field K] [DecidableEq K]

/-! ### Order -/

/-- C116. An order is accepted exactly if it is a list with the names of the working matrices and no
others; then it is the order in use, and an order that is not accepted changes nothing. -/
theorem setOrder_spec (a : Life N) (o : OrderArg) :
    (∀ l, o = .list l → (∀ n, n ∈ l ↔ n ∈ a.names) →
      (a.setOrder o).2 = .ok () ∧ (a.setOrder o).1.getOrder = l ∧ (a.setOrder o).1.an = a.an) ∧
    ((∀ l, o = .list l → ¬ ∀ n, n ∈ l ↔ n ∈ a.names) →
      (∃ e, (a.setOrder o).2 = .error e) ∧ (a.setOrder o).1 = a) := by
  constructor
  · rintro l rfl h
    have e : l.toFinset = a.names.toFinset := by
      ext n; simpa using h n
    simp [Life.setOrder, e, Life.getOrder]
  · intro h
    cases o with
    | other => exact ⟨⟨_, rfl⟩, rfl⟩
    | list l =>
      have e : l.toFinset ≠ a.names.toFinset := by
        intro e
        refine h l rfl (fun n => ?_)
        have := congrArg (n ∈ ·) e
        simpa using this
      simp [Life.setOrder, e]

theorem step_order (en : Finset N → List N) (sq : K → K) (w0 wa : N) (h : Heap N K) (a : Life N)
    (o : Op N K) (ho : NoOrder o) : (a.step en sq w0 wa h o).2.1.order = a.order := by
  cases o with
  | work o => rfl
  | sliceBase => rfl
  | setOrder o => exact absurd ho (by simp [NoOrder])
  | load dir => cases dir <;> rfl

theorem work_mats (en : Finset N → List N) (sq : K → K) (w0 wa : N) (h : Heap N K) (a : Analysis)
    (o : AOp N) (h1 : o ≠ .useBase) (h2 : ∀ ls, o ≠ .addends ls) :
    (a.step en sq w0 wa h o).2.1.mats = a.mats := by
  cases o with
  | useBase => exact absurd rfl h1
  | addends ls => exact absurd rfl (h2 ls)
  | marg _ => rfl
  | slice => rfl
  | invert => rfl
  | prepare => rfl
  | errors => rfl

theorem step_names (en : Finset N → List N) (sq : K → K) (w0 wa : N) (h : Heap N K) (a : Life N)
    (o : Op N K) (ho : Keeps o) : (a.step en sq w0 wa h o).2.1.names = a.names := by
  cases o with
  | work o =>
    unfold Life.names
    simp only [Life.step]
    rw [work_mats en sq w0 wa h a.an o (by rintro rfl; exact ho) (by rintro ls rfl; exact ho)]
  | sliceBase => rfl
  | setOrder o =>
    simp only [Life.step]
    cases o with
    | other => rfl
    | list l =>
      unfold Life.setOrder
      dsimp only
      split <;> rfl
  | load dir => cases dir <;> rfl

/-- C116. An analysis whose order was never set lists its working matrices, whatever is done to it. -/
theorem order_unset (en : Finset N → List N) (sq : K → K) (w0 wa : N) (ops : List (Op N K))
    (ho : ∀ o ∈ ops, NoOrder o) (h : Heap N K) (a : Life N) (ha : a.order = none) :
    (a.run en sq w0 wa h ops).2.getOrder = (a.run en sq w0 wa h ops).2.names := by
  induction ops generalizing h a with
  | nil => simp [Life.run, Life.getOrder, ha]
  | cons o os ih =>
    unfold Life.run
    exact ih (fun o' h' => ho o' (List.mem_cons_of_mem _ h')) _ _
      (by rw [step_order en sq w0 wa h a o (ho o (by simp)), ha])

/-- C116. Whatever is done to an analysis - matrices are marginalised, sliced, inverted, loaded, orders
are assigned and refused - the order names exactly its working matrices, as long as the working matrices
are not replaced.

Full statement: the same without the last condition, false by `order_stale`. -/
theorem order_covers_partial (en : Finset N → List N) (sq : K → K) (w0 wa : N) (ops : List (Op N K))
    (ho : ∀ o ∈ ops, Keeps o) (h : Heap N K) (a : Life N) (ha : Covers a) :
    Covers (a.run en sq w0 wa h ops).2 := by
  induction ops generalizing h a with
  | nil => exact ha
  | cons o os ih =>
    unfold Life.run
    refine ih (fun o' h' => ho o' (List.mem_cons_of_mem _ h')) _ _ ?_
    have hn := step_names en sq w0 wa h a o (ho o (by simp))
    by_cases hno : NoOrder o
    · have hor := step_order en sq w0 wa h a o hno
      intro n
      have := ha n
      unfold Life.getOrder at this ⊢
      rw [hor, hn]
      exact this
    · cases o with
      | work o => exact absurd trivial hno
      | sliceBase => exact absurd trivial hno
      | load d => exact absurd trivial hno
      | setOrder o =>
        by_cases hl : ∃ l, o = .list l ∧ ∀ n, n ∈ l ↔ n ∈ a.names
        · obtain ⟨l, e, hl⟩ := hl
          obtain ⟨_, h2, h3⟩ := (setOrder_spec a o).1 l e hl
          intro n
          simp only [Life.step] at hn ⊢
          rw [h2, hn]
          exact hl n
        · have := ((setOrder_spec a o).2 (fun l e h' => hl ⟨l, e, h'⟩)).2
          simp only [Life.step]
          rw [this]
          exact ha

/-- C116 is false in general: after the order is set and the working matrices are replaced, the order
lacks a working matrix, or names one that is gone.  An order may also name a matrix twice. -/
theorem order_stale (en : Finset ℕ → List ℕ) (sq : ℚ → ℚ) :
    let a : Life ℕ := { an := { base := some [(['A'], 0), (['B'], 1)], mats := [(['A'], 0)] } }
    (∃ h : Heap ℕ ℚ, let s := (a.run en sq 0 1 h [.setOrder (.list [['A']]), .work .useBase]).2
      s.getOrder = [['A']] ∧ s.names = [['A'], ['B']]) ∧
    (∃ h : Heap ℕ ℚ, let s := (a.run en sq 0 1 h [.setOrder (.list [['A']]), .work (.addends [[['B']]])]).2
      s.getOrder = [['A']] ∧ s.names = [['B']]) ∧
    (a.setOrder (.list [['A'], ['A']])).2 = .ok () :=
  ⟨⟨[], rfl, rfl⟩, ⟨[], rfl, rfl⟩, by decide +kernel⟩

/-! ### Construction -/

/-- C116 is false of lists: an analysis made of a list of matrices has none of them. -/
theorem list_dropped (en : Finset N → List N) (h : Heap N K) (l : List Ref) (fid : Option (Finset N))
    (flag : Bool) :
    ∃ a, construct en h (.list l) none fid flag = (h, .ok a) ∧ a.names = [] ∧ a.an.base = none :=
  ⟨_, rfl, rfl, rfl⟩

/-- C116. An object that has been made has the matrices, the flag and the parameters it was given, and an order only if this names the
matrices; without an order it is that of the matrices. -/
theorem construct_order (en : Finset N → List N) (h : Heap N K) (mats : MatsArg) (order : Option OrderArg)
    (fid : Option (Finset N)) (flag : Bool) {h' : Heap N K} {a : Life N}
    (hc : construct en h mats order fid flag = (h', .ok a)) :
    a.an.mats = mats.toDict ∧ a.an.base = none ∧ a.flag = flag ∧ a.fid = fid ∧ (order = none → a.getOrder = a.names) ∧
      ∀ o, order = some o → ∃ l, o = .list l ∧ (∀ n, n ∈ l ↔ n ∈ a.names) ∧ a.getOrder = l := by
  unfold construct at hc
  split at hc
  · cases hc
  · cases order with
    | none =>
      cases hc
      exact ⟨rfl, rfl, rfl, rfl, fun _ => rfl, nofun⟩
    | some o =>
      cases o with
      | other => cases hc
      | list l =>
        unfold Life.initOrder Life.setOrder at hc
        by_cases hl : l.toFinset = (Life.names { an := { mats := mats.toDict }, fid := fid, flag := flag }).toFinset
        · dsimp only at hc
          rw [if_neg (not_not.mpr hl)] at hc
          cases hc
          refine ⟨rfl, rfl, rfl, rfl, nofun, fun o ho => ⟨l, by cases ho; rfl, fun n => ?_, rfl⟩⟩
          have := congrArg (n ∈ ·) hl
          simpa [List.mem_toFinset, Life.names] using this
        · dsimp only at hc
          rw [if_pos hl] at hc
          cases hc

/-- With an order that does not name the matrices, and with one that does. -/
example (en : Finset ℕ → List ℕ) (fid : Option (Finset ℕ)) :
    (construct en ([] : Heap ℕ ℚ) .none (some (.list [['A']])) fid true).2 = .error .order ∧
    ∃ a, construct en ([] : Heap ℕ ℚ) .none (some (.list [])) fid true = ([], .ok a) :=
  ⟨rfl, _, rfl⟩

/-! ### Loading -/

/-- Restriction of a matrix to the parameters of the analysis. -/
theorem select_usable {en : Finset N → List N} (hen : Iteration en) {flag : Bool} {C : Finset N}
    {F : FM N K} (hF : Usable C F) (hc : F.cosmo = C) (hfl : F.margFlag = flag) :
    ∃ R, F.select en = (R, .ok ()) ∧ Restricted flag C F R := by
  obtain ⟨⟨S, hS, hsub⟩, hd⟩ := hF
  subst hc hfl
  unfold FM.select
  simp only
  rw [if_pos (fun a ha => (hS.mem a).mpr (hsub ha))]
  obtain ⟨hl, hlon⟩ := On.locSet hen hS (T := (F.cosmo ∪ F.nuis) \ (if F.margFlag then ∅ else F.nuis))
    (Finset.sdiff_subset.trans hsub)
  rw [hl]
  simp only
  cases hfl : F.margFlag with
  | true =>
    simp only [hfl, if_true] at hlon ⊢
    refine ⟨_, rfl, rfl, by simp, rfl, by simp, ?_, fun _ _ => rfl⟩
    have := On.sortIndex hlon
    rw [Finset.sdiff_empty] at this
    unfold FM.WF
    simpa using this
  | false =>
    simp only [hfl, Bool.false_eq_true, if_false] at hlon ⊢
    refine ⟨_, rfl, rfl, by simp, rfl, by simp, ?_, fun _ _ => rfl⟩
    have := On.sortIndex hlon
    have e : (F.cosmo ∪ F.nuis) \ F.nuis = F.cosmo ∪ ∅ := by
      rw [Finset.union_sdiff_right, Finset.union_empty]
      exact Finset.sdiff_eq_self_of_disjoint hd
    unfold FM.WF
    simp only
    rw [← e]
    exact this

/-- A loop over distinct references none of whose calls raises ends. -/
theorem forRefs_ends {α : Type} (f : FM N K → Res N K α) (rs : List Ref) (hn : rs.Nodup)
    (h : Heap N K) (hf : ∀ r ∈ rs, ∃ F F' a, h[r]? = some F ∧ f F = (F', .ok a)) :
    ∃ h' out, forRefs f h rs = (h', .ok out) := by
  induction rs generalizing h with
  | nil => exact ⟨h, [], rfl⟩
  | cons r rs ih =>
    obtain ⟨F, F', a, h1, h2⟩ := hf r List.mem_cons_self
    obtain ⟨hr, hn'⟩ := List.nodup_cons.mp hn
    obtain ⟨h', out, h3⟩ := ih hn' (h.set r F') (fun s hs => by
      obtain ⟨G, G', b, g1, g2⟩ := hf s (List.mem_cons_of_mem _ hs)
      refine ⟨G, G', b, ?_, g2⟩
      have hne : r ≠ s := by rintro rfl; exact hr hs
      rw [List.getElem?_set_ne hne, g1])
    exact ⟨h', a :: out, by unfold forRefs; simp only [h1, h2, h3]⟩

/-- C116. An analysis made of usable matrices, each under one name: every matrix itself, not a copy of it, gets the flag of
the analysis and is restricted accordingly; every other matrix is left as it was. -/
theorem construct_matrices {en : Finset N → List N} (hen : Iteration en) (h : Heap N K) (d : Dict Str Ref)
    (hn : (d.map Prod.snd).Nodup) (fid : Option (Finset N)) (flag : Bool)
    (hd : ∀ r ∈ d.map Prod.snd, ∃ F, h[r]? = some F ∧ Usable F.cosmo F) :
    ∃ h' a, construct en h (.dict d) none fid flag = (h', .ok a) ∧ a.an.mats = d ∧
      (∀ r ∈ d.map Prod.snd, ∃ F R, h[r]? = some F ∧ h'[r]? = some R ∧ Restricted flag F.cosmo F R) ∧
      ∀ r, r ∉ d.map Prod.snd → h'[r]? = h[r]? := by
  obtain ⟨h1, o1, e1⟩ := forRefs_ends (fun F : FM N K => ({ F with margFlag := flag }, .ok ())) _ hn h (fun r hr => by
    obtain ⟨F, hF, _⟩ := hd r hr
    exact ⟨F, _, (), hF, rfl⟩)
  have s1 : ∀ r ∈ d.map Prod.snd, ∃ F, h[r]? = some F ∧ Usable F.cosmo F ∧ h1[r]? = some { F with margFlag := flag } := by
    intro r hr
    obtain ⟨i, hi, rfl⟩ := List.getElem_of_mem hr
    obtain ⟨F, F', a, g1, g2, g3, -⟩ := (forRefs_ok _ _ hn h h1 e1).2 i hi
    cases g2
    obtain ⟨G, hG, u⟩ := hd _ hr
    rw [g1] at hG
    cases hG
    exact ⟨F, g1, u, g3⟩
  obtain ⟨h2, o2, e2⟩ := forRefs_ends (FM.select en) _ hn h1 (fun r hr => by
    obtain ⟨F, _, u, hF⟩ := s1 r hr
    obtain ⟨R, e, _⟩ := select_usable hen (flag := flag) (C := F.cosmo) (F := { F with margFlag := flag })
      ⟨u.labels, u.disj⟩ rfl rfl
    exact ⟨_, R, (), hF, e⟩)
  have e : analysisInit en flag h d = (h2, .ok o2) := by
    unfold analysisInit
    rw [e1]
    exact e2
  refine ⟨h2, { an := { mats := d }, fid := fid, flag := flag }, ?_, rfl, ?_, ?_⟩
  · unfold construct
    rw [show MatsArg.toDict (.dict d) = d from rfl, e]
    rfl
  · intro r hr
    obtain ⟨F, hF, u, hF1⟩ := s1 r hr
    obtain ⟨i, hi, rfl⟩ := List.getElem_of_mem hr
    obtain ⟨G, R', a, g1, g2, g3, -⟩ := (forRefs_ok _ _ hn h1 h2 e2).2 i hi
    rw [hF1] at g1
    cases g1
    obtain ⟨R, e, hR⟩ := select_usable hen (flag := flag) (C := F.cosmo) (F := { F with margFlag := flag })
      ⟨u.labels, u.disj⟩ rfl rfl
    rw [e] at g2
    cases g2
    exact ⟨F, _, hF, g3, hR.name, hR.marg, hR.cosmo, hR.nuis, hR.wf, hR.val⟩
  · intro r hr
    have f1 := (forRefs_frame (fun F : FM N K => (({ F with margFlag := flag } : FM N K), .ok ())) (d.map Prod.snd) h).2 r hr
    have f2 := (forRefs_frame (FM.select en) (d.map Prod.snd) h1).2 r hr
    rw [e1] at f1
    rw [e2] at f2
    exact f2.trans f1

theorem prepared_usable {flag : Bool} {fid : Option (Finset N)} {F : FM N K}
    (hF : Usable (fid.getD F.cosmo) F) : Usable (fid.getD F.cosmo) (prepared flag fid F) :=
  ⟨hF.labels, hF.disj⟩

/-- One readable file of the loop. -/
theorem loadLoop_cons {en : Finset N → List N} (hen : Iteration en) (flag : Bool)
    (fid : Option (Finset N)) (h : Heap N K) (d : Dict Str Ref) (F : FM N K) (rest : List (File N K))
    (hF : Usable (fid.getD F.cosmo) F) :
    ∃ R, Restricted flag (fid.getD F.cosmo) F R ∧
      loadLoop en flag fid h d (some F :: rest) =
        loadLoop en flag fid (h ++ [R]) (dictSet d F.name h.length) rest := by
  obtain ⟨R, e, hR⟩ := select_usable hen (flag := flag) (prepared_usable (flag := flag) hF) rfl rfl
  refine ⟨R, ⟨hR.name, hR.marg, hR.cosmo, hR.nuis, hR.wf, hR.val⟩, ?_⟩
  rw [loadLoop, e]
  simp only
  rw [hR.name]
  rfl

/-- The loop over usable files. -/
theorem loadLoop_ok {en : Finset N → List N} (hen : Iteration en) (flag : Bool)
    (fid : Option (Finset N)) (Fs : List (FM N K)) (hFs : ∀ F ∈ Fs, Usable (fid.getD F.cosmo) F)
    (h : Heap N K) (d : Dict Str Ref) (rest : List (File N K)) :
    ∃ ext d', loadLoop en flag fid h d (Fs.map some ++ rest) = loadLoop en flag fid (h ++ ext) d' rest ∧
      (∀ n, n ∈ d'.map Prod.fst ↔ n ∈ d.map Prod.fst ∨ ∃ F ∈ Fs, F.name = n) ∧
      (∀ n, (∀ F ∈ Fs, F.name ≠ n) → d'.lookup n = d.lookup n) ∧
      (∀ pre F post, Fs = pre ++ F :: post → (∀ G ∈ post, G.name ≠ F.name) →
        ∃ r R, d'.lookup F.name = some r ∧ h.length ≤ r ∧ (h ++ ext)[r]? = some R ∧
          Restricted flag (fid.getD F.cosmo) F R) := by
  induction Fs generalizing h d with
  | nil =>
    refine ⟨[], d, by simp, by simp, by simp, ?_⟩
    intro pre F post e
    exact absurd e (by simp)
  | cons F Fs ih =>
    obtain ⟨R, hR, e⟩ := loadLoop_cons hen flag fid h d F (Fs.map some ++ rest) (hFs F (by simp))
    obtain ⟨ext, d', e1, e2, e3, e4⟩ := ih (fun G hG => hFs G (List.mem_cons_of_mem _ hG)) (h ++ [R])
      (dictSet d F.name h.length)
    refine ⟨[R] ++ ext, d', ?_, ?_, ?_, ?_⟩
    · rw [List.map_cons, List.cons_append, e, e1, List.append_assoc]
    · intro n
      rw [e2, dictSet_keys]
      by_cases hk : F.name ∈ d.map Prod.fst
      · rw [if_pos hk]
        constructor
        · rintro (h1 | ⟨G, h1, h2⟩)
          · exact Or.inl h1
          · exact Or.inr ⟨G, List.mem_cons_of_mem _ h1, h2⟩
        · rintro (h1 | ⟨G, h1, h2⟩)
          · exact Or.inl h1
          · rcases List.mem_cons.mp h1 with rfl | h1
            · exact Or.inl (h2 ▸ hk)
            · exact Or.inr ⟨G, h1, h2⟩
      · rw [if_neg hk, List.mem_append, List.mem_singleton]
        constructor
        · rintro ((h1 | h1) | ⟨G, h1, h2⟩)
          · exact Or.inl h1
          · exact Or.inr ⟨F, by simp, h1.symm⟩
          · exact Or.inr ⟨G, List.mem_cons_of_mem _ h1, h2⟩
        · rintro (h1 | ⟨G, h1, h2⟩)
          · exact Or.inl (Or.inl h1)
          · rcases List.mem_cons.mp h1 with rfl | h1
            · exact Or.inl (Or.inr h2.symm)
            · exact Or.inr ⟨G, h1, h2⟩
    · intro n hn
      rw [e3 n (fun G hG => hn G (List.mem_cons_of_mem _ hG)), dictSet_lookup,
        if_neg (fun e => hn F (by simp) e.symm)]
    · intro pre G post eq hpost
      cases pre with
      | nil =>
        rw [List.nil_append] at eq
        injection eq with eq1 eq2
        subst eq1 eq2
        refine ⟨h.length, R, ?_, le_refl _, by simp, hR⟩
        rw [e3 _ hpost, dictSet_lookup, if_pos rfl]
      | cons F' pre =>
        rw [List.cons_append] at eq
        injection eq with eq1 eq2
        obtain ⟨r, R', f1, f2, f3, f4⟩ := e4 pre G post eq2 hpost
        refine ⟨r, R', f1, ?_, by rw [← List.append_assoc]; exact f3, f4⟩
        rw [List.length_append] at f2
        omega

/-- C116. Loading a directory of usable files: the base matrices are those of the files - for files
with the same name of the matrix, the one listed last - restricted to the parameters of the analysis.
The working matrices, the order and all objects that exist are left alone. -/
theorem load_ok {en : Finset N → List N} (hen : Iteration en) (h : Heap N K) (a : Life N)
    (Fs : List (FM N K)) (hFs : ∀ F ∈ Fs, Usable (a.fid.getD F.cosmo) F) :
    ∃ ext b, a.load en h (some (Fs.map some)) =
        (h ++ ext, { a with an := { base := some b, mats := a.an.mats } }, .ok ()) ∧
      (∀ n, n ∈ b.map Prod.fst ↔ ∃ F ∈ Fs, F.name = n) ∧
      (∀ pre F post, Fs = pre ++ F :: post → (∀ G ∈ post, G.name ≠ F.name) →
        ∃ r R, b.lookup F.name = some r ∧ h.length ≤ r ∧ (h ++ ext)[r]? = some R ∧
          Restricted a.flag (a.fid.getD F.cosmo) F R) := by
  obtain ⟨ext, d, e1, e2, _, e4⟩ := loadLoop_ok hen a.flag a.fid Fs hFs h [] []
  rw [List.append_nil] at e1
  refine ⟨ext, d, ?_, fun n => by simpa using e2 n, e4⟩
  simp only [Life.load]
  rw [e1, loadLoop]

/-- C116. A file that cannot be read or that lacks a parameter stops the loading: the analysis is left
with the base matrices of the files before it, as if there were no others. -/
theorem load_stops {en : Finset N → List N} (hen : Iteration en) (h : Heap N K) (a : Life N)
    (Fs : List (FM N K)) (hFs : ∀ F ∈ Fs, Usable (a.fid.getD F.cosmo) F) (bad : File N K)
    (hbad : ∀ F, bad = some F → ∃ p ∈ a.fid.getD F.cosmo ∪ F.nuis, p ∉ F.matrix.rows)
    (rest : List (File N K)) :
    ∃ e, a.load en h (some (Fs.map some ++ bad :: rest)) =
      ((a.load en h (some (Fs.map some))).1, (a.load en h (some (Fs.map some))).2.1, .error e) := by
  have key : ∀ (h : Heap N K) (d0 : Dict Str Ref), ∃ ext d, ∀ rest,
      loadLoop en a.flag a.fid h d0 (Fs.map some ++ rest)
        = loadLoop en a.flag a.fid (h ++ ext) d rest := by
    induction Fs with
    | nil => exact fun h d0 => ⟨[], d0, fun rest => by simp⟩
    | cons F Fs ih =>
      intro h d0
      obtain ⟨R, e, hR⟩ := select_usable hen (flag := a.flag)
        (prepared_usable (flag := a.flag) (hFs F (by simp))) rfl rfl
      obtain ⟨ext, d, e'⟩ := ih (fun G hG => hFs G (List.mem_cons_of_mem _ hG)) (h ++ [R])
        (dictSet d0 R.name h.length)
      refine ⟨[R] ++ ext, d, fun rest => ?_⟩
      rw [List.map_cons, List.cons_append, loadLoop, e]
      simp only
      rw [e', List.append_assoc]
  obtain ⟨ext, d, key⟩ := key h []
  have k1 := key (bad :: rest)
  have k2 := key []
  rw [List.append_nil] at k2
  simp only [Life.load]
  rw [k1, k2]
  rw [show loadLoop en a.flag a.fid (h ++ ext) d [] = (h ++ ext, d, .ok ()) by rw [loadLoop]]
  cases bad with
  | none => exact ⟨.unreadable, rfl⟩
  | some F =>
    obtain ⟨p, hp, hnp⟩ := hbad F rfl
    refine ⟨.fm .fisherError, ?_⟩
    have : ((prepared a.flag a.fid F).select en) = (prepared a.flag a.fid F, .error .fisherError) := by
      unfold FM.select
      simp only
      rw [if_neg]
      intro hall
      exact hnp (hall p hp)
    have e : loadLoop en a.flag a.fid (h ++ ext) d (some F :: rest) = (h ++ ext, d, .error (.fm .fisherError)) := by
      rw [loadLoop, this]
    rw [e]

/-- C116. Loading a directory that does not exist raises and leaves an analysis that had base matrices
without any; the working matrices stay. -/
theorem load_no_directory (en : Finset N → List N) (h : Heap N K) (a : Life N) :
    a.load en h none = (h, { a with an := { base := some [], mats := a.an.mats } }, .error .notFound) :=
  rfl

/-- C116. Loading gives an error or not according to the files alone. -/
theorem load_iff {en : Finset N → List N} (hen : Iteration en) (h : Heap N K) (a : Life N)
    (fs : List (File N K))
    (hfs : ∀ F, some F ∈ fs → (∃ S, F.matrix.On S) ∧ Disjoint (a.fid.getD F.cosmo) F.nuis) :
    (a.load en h (some fs)).2.2 = .ok () ↔
      ∀ f ∈ fs, ∃ F, f = some F ∧ ∀ p ∈ a.fid.getD F.cosmo ∪ F.nuis, p ∈ F.matrix.rows := by
  constructor
  · intro hok
    by_contra hcon
    -- the first bad file
    obtain ⟨Fs, bad, rest, e, hFs, hbad⟩ : ∃ (Fs : List (FM N K)) (bad : File N K) (rest : List (File N K)),
        fs = Fs.map some ++ bad :: rest ∧ (∀ F ∈ Fs, Usable (a.fid.getD F.cosmo) F) ∧
        (∀ F, bad = some F → ∃ p ∈ a.fid.getD F.cosmo ∪ F.nuis, p ∉ F.matrix.rows) := by
      clear hok
      induction fs with
      | nil => exact absurd (fun f hf => absurd hf (by simp)) hcon
      | cons f fs ih =>
        by_cases hf : ∃ F, f = some F ∧ ∀ p ∈ a.fid.getD F.cosmo ∪ F.nuis, p ∈ F.matrix.rows
        · obtain ⟨F, rfl, hp⟩ := hf
          obtain ⟨Fs, bad, rest, e, h1, h2⟩ := ih (fun G hG => hfs G (List.mem_cons_of_mem _ hG))
            (fun hall => hcon (fun f hf => by
              rcases List.mem_cons.mp hf with rfl | hf
              · exact ⟨F, rfl, hp⟩
              · exact hall f hf))
          obtain ⟨⟨S, hS⟩, hd⟩ := hfs F (by simp)
          refine ⟨F :: Fs, bad, rest, by rw [e]; rfl, ?_, h2⟩
          intro G hG
          rcases List.mem_cons.mp hG with rfl | hG
          · exact ⟨⟨S, hS, fun p hp' => (hS.mem p).mp (hp p hp')⟩, hd⟩
          · exact h1 G hG
        · refine ⟨[], f, fs, rfl, by simp, ?_⟩
          rintro F rfl
          by_contra hno
          apply hf
          refine ⟨F, rfl, fun p hp => ?_⟩
          by_contra hp'
          exact hno ⟨p, hp, hp'⟩
    subst e
    obtain ⟨err, he⟩ := load_stops hen h a Fs hFs bad hbad rest
    rw [he] at hok
    cases hok
  · intro hall
    obtain ⟨Fs, e⟩ : ∃ Fs : List (FM N K), fs = Fs.map some := by
      clear hfs
      induction fs with
      | nil => exact ⟨[], rfl⟩
      | cons f fs ih =>
        obtain ⟨F, rfl, _⟩ := hall f (by simp)
        obtain ⟨Fs, e⟩ := ih (fun f hf => hall f (List.mem_cons_of_mem _ hf))
        exact ⟨F :: Fs, by rw [e]; rfl⟩
    subst e
    obtain ⟨ext, b, e, _⟩ := load_ok hen h a Fs (fun F hF => by
      obtain ⟨⟨S, hS⟩, hd⟩ := hfs F (List.mem_map.mpr ⟨F, hF, rfl⟩)
      obtain ⟨G, eG, hp⟩ := hall (some F) (List.mem_map.mpr ⟨F, hF, rfl⟩)
      cases eG
      exact ⟨⟨S, hS, fun p hp' => (hS.mem p).mp (hp p hp')⟩, hd⟩)
    rw [e]

/-- C116. `fromFishersDir`: one working matrix for every name of a matrix in the files, in no set order,
with the entries of the file listed last under that name, all other cosmological parameters than the
free ones being fixed; the working matrices are the base matrices. -/
theorem fromDir_ok {en : Finset N → List N} (hen : Iteration en) (h : Heap N K) (fid : Finset N)
    (Fs : List (FM N K)) (hFs : ∀ F ∈ Fs, Usable fid F) :
    ∃ ext a, fromDir en h fid (some (Fs.map some)) = (h ++ ext, .ok a) ∧
      a.an.base = some a.an.mats ∧ a.getOrder = a.names ∧
      (∀ n, n ∈ a.names ↔ ∃ F ∈ Fs, F.name = n) ∧
      (∀ pre F post, Fs = pre ++ F :: post → (∀ G ∈ post, G.name ≠ F.name) →
        ∃ r R, a.an.mats.lookup F.name = some r ∧ (h ++ ext)[r]? = some R ∧ Restricted true fid F R) := by
  obtain ⟨ext, b, e1, e2, e3⟩ := load_ok hen h ({ fid := some fid } : Life N) Fs hFs
  refine ⟨ext, { an := { base := some b, mats := b }, fid := some fid }, ?_, rfl, rfl, e2, ?_⟩
  · unfold fromDir
    rw [e1]
    rfl
  · intro pre F post e hpost
    obtain ⟨r, R, f1, _, f3, f4⟩ := e3 pre F post e hpost
    exact ⟨r, R, f1, f3, f4⟩

/-- C116. `fromRundir` for the cosmology without dark energy parameters: the matrices of the directory
with the parameters `w0` and `wa` fixed, if the run knows both parameters; otherwise it raises and loads
nothing. -/
theorem fromRun_lcdm {en : Finset N → List N} (hen : Iteration en) (w0 wa : N) (h : Heap N K)
    (all free : Finset N) (Fs : List (FM N K)) (hFs : ∀ F ∈ Fs, Usable (free \ {w0, wa}) F) :
    (w0 ∈ all → wa ∈ all → ∃ ext a, fromRun en w0 wa h true all free (some (Fs.map some)) = (h ++ ext, .ok a) ∧
      (∀ n, n ∈ a.names ↔ ∃ F ∈ Fs, F.name = n) ∧
      (∀ n r, a.an.mats.lookup n = some r → ∃ F ∈ Fs, F.name = n ∧ ∃ R, (h ++ ext)[r]? = some R ∧
        w0 ∉ R.cosmo ∧ wa ∉ R.cosmo ∧ Restricted true (free \ {w0, wa}) F R)) ∧
    (¬ (w0 ∈ all ∧ wa ∈ all) →
      fromRun en w0 wa h true all free (some (Fs.map some)) = (h, .error (.fm .keyError))) := by
  constructor
  · intro h0 ha
    obtain ⟨ext, a, e1, _, _, e4, e5⟩ := fromDir_ok hen h (free \ {w0, wa}) Fs hFs
    refine ⟨ext, a, ?_, e4, ?_⟩
    · unfold fromRun runFid
      simp only [if_true, h0, ha, and_self, e1]
    · intro n r hr
      have hn : n ∈ a.names := by
        exact List.mem_map.mpr ⟨(n, r), Fisher.mem_of_lookup hr, rfl⟩
      have hlast : ∀ Fs : List (FM N K), (∃ F ∈ Fs, F.name = n) →
          ∃ pre F post, Fs = pre ++ F :: post ∧ F.name = n ∧ ∀ G ∈ post, G.name ≠ F.name := by
        intro Fs
        induction Fs with
        | nil => rintro ⟨F, hF, _⟩; simp at hF
        | cons F Fs ih =>
          intro hex
          by_cases hlater : ∃ G ∈ Fs, G.name = n
          · obtain ⟨pre, G, post, e, hG, hp⟩ := ih hlater
            exact ⟨F :: pre, G, post, by rw [e]; rfl, hG, hp⟩
          · obtain ⟨G, hG, hGn⟩ := hex
            rcases List.mem_cons.mp hG with rfl | hG
            · exact ⟨[], G, Fs, rfl, hGn, fun G' h' e' => hlater ⟨G', h', e'.trans hGn⟩⟩
            · exact absurd ⟨G, hG, hGn⟩ hlater
      obtain ⟨pre, F, post, eF, hFn, hpost⟩ := hlast Fs ((e4 n).mp hn)
      obtain ⟨r', R, f1, f2, f3⟩ := e5 pre F post eF hpost
      rw [hFn, hr] at f1
      cases f1
      refine ⟨F, by rw [eF]; simp, hFn, R, f2, ?_, ?_, f3⟩
      · rw [f3.cosmo]; simp
      · rw [f3.cosmo]; simp
  · intro hno
    unfold fromRun runFid
    simp only [if_true, hno, if_false]

/-- C116. `fromRundir` for any other cosmology: the matrices of the directory with all cosmological parameters fixed but
the free ones of the run. -/
theorem fromRun_other {en : Finset N → List N} (hen : Iteration en) (w0 wa : N) (h : Heap N K)
    (all free : Finset N) (Fs : List (FM N K)) (hFs : ∀ F ∈ Fs, Usable free F) :
    ∃ ext a, fromRun en w0 wa h false all free (some (Fs.map some)) = (h ++ ext, .ok a) ∧
      (∀ n, n ∈ a.names ↔ ∃ F ∈ Fs, F.name = n) ∧
      (∀ pre F post, Fs = pre ++ F :: post → (∀ G ∈ post, G.name ≠ F.name) →
        ∃ r R, a.an.mats.lookup F.name = some r ∧ (h ++ ext)[r]? = some R ∧ Restricted true free F R) := by
  obtain ⟨ext, a, e1, _, _, e4, e5⟩ := fromDir_ok hen h free Fs hFs
  refine ⟨ext, a, ?_, e4, e5⟩
  unfold fromRun runFid
  simp only [Bool.false_eq_true, if_false, e1]

/-! ### Selection -/

/-- C116. `getSubsetAnalysis` succeeds exactly if base matrices are loaded and every requested name is a
working matrix.  The result has the requested matrices, the very objects of the receiver, in the order
requested. -/
theorem subset_spec (a : Life N) (names : List Str) :
    ((∃ s, a.subset names = .ok s) ↔ a.an.base ≠ none ∧ ∀ n ∈ names, n ∈ a.names) ∧
    ∀ s, a.subset names = .ok s → s.getOrder = names ∧ (∀ n, n ∈ s.names ↔ n ∈ names) ∧
      (∀ n ∈ names, s.an.mats.lookup n = a.an.mats.lookup n) := by
  have hlook : ∀ (d : Dict Str Ref) (n : Str), n ∈ names →
      (d.filter (fun x => decide (x.1 ∈ names))).lookup n = d.lookup n := by
    intro d n hn
    induction d with
    | nil => rfl
    | cons x d ih =>
      obtain ⟨k, v⟩ := x
      by_cases hk : k ∈ names
      · rw [List.filter_cons_of_pos (by simpa using hk), List.lookup_cons, List.lookup_cons, ih]
      · rw [List.filter_cons_of_neg (by simpa using hk), List.lookup_cons, ih]
        have : (n == k) = false := by
          simp only [beq_eq_false_iff_ne, ne_eq]
          rintro rfl
          exact hk hn
        rw [this]
  have hkeys : ∀ (d : Dict Str Ref) (n : Str),
      n ∈ (d.filter (fun x => decide (x.1 ∈ names))).map Prod.fst ↔ n ∈ names ∧ n ∈ d.map Prod.fst := by
    intro d n
    simp only [List.mem_map, List.mem_filter, decide_eq_true_eq]
    constructor
    · rintro ⟨x, ⟨h1, h2⟩, rfl⟩; exact ⟨h2, x, h1, rfl⟩
    · rintro ⟨h1, x, h2, rfl⟩; exact ⟨x, ⟨h2, h1⟩, rfl⟩
  cases hb : a.an.base with
  | none =>
    have : a.subset names = .error .attributeError := by unfold Life.subset; rw [hb]
    rw [this]
    simp
  | some b =>
    let a' : Life N := { a with an := { base := some (b.filter (fun x => decide (x.1 ∈ names))),
                                        mats := a.an.mats.filter (fun x => decide (x.1 ∈ names)) } }
    have ha' : a.subset names = match a'.setOrder (.list names) with
        | (_, .error e) => .error e
        | (a', .ok _) => .ok a' := by unfold Life.subset; simp only [hb]; rfl
    have hn : ∀ n, n ∈ a'.names ↔ n ∈ names ∧ n ∈ a.names := fun n => hkeys a.an.mats n
    by_cases hall : ∀ n ∈ names, n ∈ a.names
    · have hiff : ∀ n, n ∈ names ↔ n ∈ a'.names := fun n => by
        rw [hn]; exact ⟨fun h => ⟨h, hall n h⟩, fun h => h.1⟩
      obtain ⟨h1, h2, h3⟩ := (setOrder_spec a' (.list names)).1 names rfl hiff
      generalize hg : a'.setOrder (.list names) = g at h1 h2 h3 ha'
      obtain ⟨g1, g2⟩ := g
      simp only at h1 h2 h3
      subst h1
      simp only at ha'
      refine ⟨⟨fun _ => ⟨by simp, hall⟩, fun _ => ⟨_, ha'⟩⟩, fun s hs => ?_⟩
      rw [ha'] at hs
      cases hs
      refine ⟨h2, fun n => ?_, fun n hn' => ?_⟩
      · unfold Life.names
        rw [h3]
        exact (hiff n).symm
      · rw [h3]
        exact hlook a.an.mats n hn'
    · have : ∀ l, OrderArg.list names = .list l → ¬ ∀ n, n ∈ l ↔ n ∈ a'.names := by
        intro l e hl
        cases e
        exact hall (fun n h => ((hn n).mp ((hl n).mp h)).2)
      obtain ⟨⟨e, h1⟩, h2⟩ := (setOrder_spec a' (.list names)).2 this
      generalize hg : a'.setOrder (.list names) = g at h1 h2 ha'
      obtain ⟨g1, g2⟩ := g
      simp only at h1
      subst h1
      simp only at ha'
      rw [ha']
      exact ⟨⟨(by rintro ⟨s, hs⟩; cases hs), fun h => absurd h.2 hall⟩, by rintro s hs; cases hs⟩

/-! ### Sums -/

/-- Left to right sum of the objects of references. -/
theorem sumRefs_spec {en : Finset N → List N} (hen : Iteration en) (rs : List Ref) (Ms : List (FM N K))
    (h : Heap N K) (r : Ref) (F : FM N K) (hr : h[r]? = some F) (hF : F.WF) (Fs : List (FM N K))
    (hs : IsSum Fs F) (hlen : rs.length = Ms.length)
    (hM : ∀ (i : Nat) (s : Ref) (M : FM N K), rs[i]? = some s → Ms[i]? = some M → h[s]? = some M ∧ M.WF) :
    ∃ ext r' R, sumRefs en h r rs = .ok (h ++ ext, r') ∧ (h ++ ext)[r']? = some R ∧
      IsSum (Fs ++ Ms) R := by
  induction rs generalizing h r F Fs Ms with
  | nil =>
    have : Ms = [] := List.length_eq_zero_iff.mp hlen.symm
    subst this
    exact ⟨[], r, F, by simp [sumRefs], by simpa using hr, by simpa using hs⟩
  | cons s rs ih =>
    cases Ms with
    | nil => simp at hlen
    | cons M Ms =>
      obtain ⟨hsM, hWF⟩ := hM 0 s M rfl rfl
      obtain ⟨ext, r', R, e1, e2, e3, e4⟩ := add_frame hen hr hsM hF hWF
      obtain ⟨R', e5, e6, e7, e8, e9, e10, e11, e12, e13⟩ := add_spec hen hF hWF
      rw [e4] at e5; cases e5
      have hsum : IsSum (Fs ++ [M]) R := by
        refine ⟨e6, fun p => ?_, fun p => ?_, fun p q => ?_, fun _ => e12⟩
        · rw [e8, Finset.mem_union, hs.cosmo]
          simp only [List.mem_append, List.mem_singleton]
          constructor
          · rintro (⟨G, h1, h2⟩ | h1)
            · exact ⟨G, Or.inl h1, h2⟩
            · exact ⟨M, Or.inr rfl, h1⟩
          · rintro ⟨G, h1 | rfl, h2⟩
            · exact Or.inl ⟨G, h1, h2⟩
            · exact Or.inr h2
        · rw [e9, Finset.mem_union, hs.nuis]
          simp only [List.mem_append, List.mem_singleton]
          constructor
          · rintro (⟨G, h1, h2⟩ | h1)
            · exact ⟨G, Or.inl h1, h2⟩
            · exact ⟨M, Or.inr rfl, h1⟩
          · rintro ⟨G, h1 | rfl, h2⟩
            · exact Or.inl ⟨G, h1, h2⟩
            · exact Or.inr h2
        · rw [e13, hs.ent]; simp
      obtain ⟨ext', r'', R'', f1, f2, f3⟩ := ih Ms (h ++ ext) r' R e3 e6 (Fs ++ [M]) hsum
        (by simpa using hlen) (fun i s' M' h1 h2 => by
          obtain ⟨g1, g2⟩ := hM (i + 1) s' M' (by simpa using h1) (by simpa using h2)
          exact ⟨get_append_of_some g1 _, g2⟩)
      refine ⟨ext ++ ext', r'', R'', ?_, by rw [← List.append_assoc]; exact f2, by simpa using f3⟩
      unfold sumRefs
      rw [e1]
      simp only
      rw [f1, List.append_assoc]

theorem joinStr_single (s n : Str) : joinStr s [n] = n := by simp [joinStr]

theorem mapM_lookup (b : Dict Str Ref) (l : List Str) (hl : ∀ n ∈ l, (b.lookup n).isSome) :
    ∃ rs, l.mapM (fun o => b.lookup o) = some rs ∧ rs.length = l.length ∧
      ∀ (i : Nat) (n : Str) (r : Ref), l[i]? = some n → rs[i]? = some r → b.lookup n = some r := by
  induction l with
  | nil => exact ⟨[], rfl, rfl, by simp⟩
  | cons x l ih =>
    obtain ⟨rs, e, hlen, hi⟩ := ih (fun n hn => hl n (List.mem_cons_of_mem _ hn))
    obtain ⟨r, hr⟩ := Option.isSome_iff_exists.mp (hl x (by simp))
    refine ⟨r :: rs, by simp [List.mapM_cons, hr, e], by simp [hlen], ?_⟩
    intro i n r' h1 h2
    cases i with
    | zero => simp at h1 h2; subst h1 h2; exact hr
    | succ i => exact hi i n r' (by simpa using h1) (by simpa using h2)

theorem isSum_single {F : FM N K} (hF : F.WF) : IsSum [F] F :=
  ⟨hF, by simp, by simp, by simp, by simp⟩

/-- One list of addends. -/
theorem fromAddends_cons {en : Finset N → List N} (hen : Iteration en) (b : Dict Str Ref)
    (M : Str → FM N K) (l : List Str) (hl : l ≠ []) (h : Heap N K)
    (hM : ∀ n ∈ l, ∃ r, b.lookup n = some r ∧ h[r]? = some (M n) ∧ (M n).WF) :
    ∃ ext r R, (∀ d rest, fromAddends en b h d (l :: rest) =
        fromAddends en b (h ++ ext) (dictSet d (joinStr "+".toList l) r) rest) ∧
      (h ++ ext)[r]? = some R ∧ IsSum (l.map M) R := by
  cases l with
  | nil => exact absurd rfl hl
  | cons n l =>
    obtain ⟨r, hr, hrM, hWF⟩ := hM n (by simp)
    cases l with
    | nil =>
      refine ⟨[], r, M n, fun d rest => ?_, by simpa using hrM, isSum_single hWF⟩
      rw [fromAddends, joinStr_single]
      simp only [hr, List.append_nil]
    | cons m l =>
      obtain ⟨rs, e, hlen, hi⟩ := mapM_lookup b (m :: l) (fun o ho => by
        obtain ⟨t, ht, _⟩ := hM o (List.mem_cons_of_mem _ ho)
        rw [ht]; rfl)
      obtain ⟨ext, r', R, e1, e2, e3⟩ := sumRefs_spec hen rs ((m :: l).map M) (h ++ [(M n).copy]) h.length
        (M n).copy (by simp) (FM.copy_WF hWF) [M n] (by
          have := isSum_single hWF
          exact ⟨FM.copy_WF hWF, this.cosmo, this.nuis, this.ent, this.flag⟩) (by simp [hlen])
        (fun i s F h1 h2 => by
          rw [List.getElem?_map] at h2
          obtain ⟨o, ho, rfl⟩ := Option.map_eq_some_iff.mp h2
          obtain ⟨t, ht, htM, hW⟩ := hM o (List.mem_cons_of_mem _ (List.mem_of_getElem? ho))
          have := hi i o s ho h1
          rw [ht] at this
          cases this
          exact ⟨get_append_of_some htM _, hW⟩)
      refine ⟨[(M n).copy] ++ ext, r', R, fun d rest => ?_, by rw [← List.append_assoc]; exact e2,
        by simpa using e3⟩
      rw [fromAddends]
      · simp only [hr, e, hrM, e1, List.append_assoc]
      · simp

/-- C116. Working matrices from lists of addends: one for every list, named by the names joined with
"+", whose entries are the sums of the entries of the base matrices; no object that exists changes. -/
theorem addends_value {en : Finset N → List N} (hen : Iteration en) (b : Dict Str Ref)
    (M : Str → FM N K) (ls : List (List Str)) (hne : [] ∉ ls) (h : Heap N K)
    (hM : ∀ l ∈ ls, ∀ n ∈ l, ∃ r, b.lookup n = some r ∧ h[r]? = some (M n) ∧ (M n).WF)
    (hk : ∀ l ∈ ls, ∀ l' ∈ ls, joinStr "+".toList l = joinStr "+".toList l' → l = l')
    (d : Dict Str Ref) :
    ∃ ext d', fromAddends en b h d ls = (h ++ ext, d', .ok ()) ∧
      (∀ n, n ∈ d'.map Prod.fst ↔ n ∈ d.map Prod.fst ∨ ∃ l ∈ ls, joinStr "+".toList l = n) ∧
      (∀ n, (∀ l ∈ ls, joinStr "+".toList l ≠ n) → d'.lookup n = d.lookup n) ∧
      (∀ l ∈ ls, ∃ r R, d'.lookup (joinStr "+".toList l) = some r ∧ (h ++ ext)[r]? = some R ∧
        IsSum (l.map M) R) := by
  induction ls generalizing h d with
  | nil => exact ⟨[], d, by simp [fromAddends], by simp, by simp, by simp⟩
  | cons l ls ih =>
    obtain ⟨ext, r, R, e1, e2, e3⟩ := fromAddends_cons hen b M l (fun e => hne (by simp [e])) h (hM l (by simp))
    obtain ⟨ext', d', f1, f2, f3, f4⟩ := ih (fun hm => hne (List.mem_cons_of_mem _ hm)) (h ++ ext)
      (fun l' hl' n hn => by
        obtain ⟨r, g1, g2, g3⟩ := hM l' (List.mem_cons_of_mem _ hl') n hn
        exact ⟨r, g1, get_append_of_some g2 _, g3⟩)
      (fun a ha c hc => hk a (List.mem_cons_of_mem _ ha) c (List.mem_cons_of_mem _ hc))
      (dictSet d (joinStr "+".toList l) r)
    refine ⟨ext ++ ext', d', by rw [e1, f1, List.append_assoc], ?_, ?_, ?_⟩
    · intro n
      rw [f2, dictSet_keys]
      have hmem : (∃ l' ∈ l :: ls, joinStr "+".toList l' = n) ↔
          joinStr "+".toList l = n ∨ ∃ l' ∈ ls, joinStr "+".toList l' = n := by
        constructor
        · rintro ⟨l', h1, h2⟩
          rcases List.mem_cons.mp h1 with rfl | h1
          · exact Or.inl h2
          · exact Or.inr ⟨l', h1, h2⟩
        · rintro (h1 | ⟨l', h1, h2⟩)
          · exact ⟨l, by simp, h1⟩
          · exact ⟨l', List.mem_cons_of_mem _ h1, h2⟩
      rw [hmem]
      by_cases hkk : joinStr "+".toList l ∈ d.map Prod.fst
      · rw [if_pos hkk]
        constructor
        · rintro (h1 | h1)
          · exact Or.inl h1
          · exact Or.inr (Or.inr h1)
        · rintro (h1 | h1 | h1)
          · exact Or.inl h1
          · exact Or.inl (h1 ▸ hkk)
          · exact Or.inr h1
      · rw [if_neg hkk, List.mem_append, List.mem_singleton, or_assoc, @eq_comm _ n]
    · intro n hn
      rw [f3 n (fun l' hl' => hn l' (List.mem_cons_of_mem _ hl')), dictSet_lookup,
        if_neg (fun e => hn l (by simp) e.symm)]
    · intro l' hl'
      by_cases hin : l' ∈ ls
      · obtain ⟨r', R', g1, g2, g3⟩ := f4 l' hin
        exact ⟨r', R', g1, by rw [← List.append_assoc]; exact g2, g3⟩
      · have : l' = l := by
          rcases List.mem_cons.mp hl' with e | e
          · exact e
          · exact absurd e hin
        subst this
        refine ⟨r, R, ?_, by rw [← List.append_assoc]; exact get_append_of_some e2 _, e3⟩
        rw [f3, dictSet_lookup, if_pos rfl]
        intro l'' hl'' e
        exact hin ((hk l'' (List.mem_cons_of_mem _ hl'') l' (by simp) e) ▸ hl'')

/-- C116. A list of addends that names a matrix which is not loaded raises; the working matrices are
then those of the lists before it, and the earlier working matrices are gone. -/
theorem addends_missing {en : Finset N → List N} (hen : Iteration en) (sq : K → K) (w0 wa : N)
    (a : Life N) (b : Dict Str Ref) (hb : a.an.base = some b) (M : Str → FM N K) (ls : List (List Str))
    (hne : [] ∉ ls) (h : Heap N K)
    (hM : ∀ l ∈ ls, ∀ n ∈ l, ∃ r, b.lookup n = some r ∧ h[r]? = some (M n) ∧ (M n).WF)
    (bad : List Str) (hbad : ∃ n ∈ bad, b.lookup n = none) (rest : List (List Str)) :
    ∃ e, a.step en sq w0 wa h (.work (.addends (ls ++ bad :: rest))) =
      ((a.step en sq w0 wa h (.work (.addends ls))).1,
       (a.step en sq w0 wa h (.work (.addends ls))).2.1, .error e) := by
  have key : ∀ (ls : List (List Str)) (h : Heap N K) (d : Dict Str Ref), [] ∉ ls →
      (∀ l ∈ ls, ∀ n ∈ l, ∃ r, b.lookup n = some r ∧ h[r]? = some (M n) ∧ (M n).WF) →
      fromAddends en b h d (ls ++ bad :: rest) =
        ((fromAddends en b h d ls).1, (fromAddends en b h d ls).2.1, .error .exception) := by
    intro ls
    induction ls with
    | nil =>
      intro h d _ _
      rw [List.nil_append]
      obtain ⟨n, hn, hnone⟩ := hbad
      cases bad with
      | nil => simp at hn
      | cons m l =>
        cases l with
        | nil =>
          have : n = m := by simpa using hn
          subst this
          rw [fromAddends, fromAddends]
          simp only [hnone]
        | cons m' l =>
          rw [fromAddends, fromAddends]
          · rcases List.mem_cons.mp hn with rfl | hn
            · simp only [hnone]
            · have hm : (m' :: l).mapM (fun o => b.lookup o) = none := by
                have : ∀ l : List Str, n ∈ l → l.mapM (fun o => b.lookup o) = none := by
                  intro l
                  induction l with
                  | nil => intro h; simp at h
                  | cons x l ih =>
                    intro hx
                    rw [List.mapM_cons]
                    rcases List.mem_cons.mp hx with rfl | hx
                    · rw [hnone]; rfl
                    · rw [ih hx]
                      cases b.lookup x <;> rfl
                exact this _ hn
              rw [hm]
              cases b.lookup m <;> rfl
          · simp
    | cons l ls ih =>
      intro h d hne hM
      obtain ⟨ext, r, R, e1, _, _⟩ := fromAddends_cons hen b M l (fun e => hne (by simp [e])) h (hM l (by simp))
      rw [List.cons_append, e1, e1]
      exact ih (h ++ ext) _ (fun hm => hne (List.mem_cons_of_mem _ hm)) (fun l' hl' n hn => by
        obtain ⟨r, g1, g2, g3⟩ := hM l' (List.mem_cons_of_mem _ hl') n hn
        exact ⟨r, g1, get_append_of_some g2 _, g3⟩)
  refine ⟨.fm .exception, ?_⟩
  simp only [Life.step, Analysis.step, hb, key ls h [] hne hM]
  rfl

/-! ### A directory with two matrices -/

/-- The files of the two matrices `exF` and `exG`, analysed for the parameters 0 and 1. -/
theorem two_files_usable : ∀ F ∈ [exF, exG], Usable (F.cosmo) F := by
  intro F hF
  rcases List.mem_cons.mp hF with rfl | hF
  · exact ⟨⟨_, exF_WF, le_refl _⟩, by decide⟩
  · have : F = exG := by simpa using hF
    subst this
    exact ⟨⟨_, exG_WF, le_refl _⟩, by decide⟩

example : ∃ ext b, ({} : Life ℕ).load (fun s => s.sort (· ≤ ·)) [] (some ([exF, exG].map some)) =
    ([] ++ ext, { an := { base := some b } }, .ok ()) ∧
    (∀ n, n ∈ b.map Prod.fst ↔ ∃ F ∈ [exF, exG], F.name = n) := by
  obtain ⟨ext, b, e1, e2, _⟩ := load_ok sortedIteration [] ({} : Life ℕ) [exF, exG] two_files_usable
  exact ⟨ext, b, e1, e2⟩

example : ∃ ext d, fromAddends (fun s => s.sort (· ≤ ·)) [(['A'], 0), (['B'], 1)] [exF, exG] []
      [[['A'], ['B']], [['A']]] = ([exF, exG] ++ ext, d, .ok ()) ∧
    ∃ r R, d.lookup (joinStr "+".toList [['A'], ['B']]) = some r ∧ ([exF, exG] ++ ext)[r]? = some R ∧
      IsSum [exF, exG] R := by
  obtain ⟨ext, d, e1, _, _, e4⟩ := addends_value sortedIteration [(['A'], 0), (['B'], 1)]
    (fun n => if n = ['A'] then exF else exG) [[['A'], ['B']], [['A']]] (by decide) [exF, exG]
    (by
      intro l hl n hn
      have : n = ['A'] ∨ n = ['B'] := by
        simp only [List.mem_cons, List.not_mem_nil, or_false] at hl
        rcases hl with rfl | rfl
        · simpa using hn
        · left; simpa using hn
      rcases this with rfl | rfl
      · exact ⟨0, by decide, rfl, exF_WF⟩
      · exact ⟨1, by decide, rfl, exG_WF⟩)
    (by decide +kernel) []
  obtain ⟨r, R, f1, f2, f3⟩ := e4 [['A'], ['B']] (by simp)
  exact ⟨ext, d, e1, r, R, f1, f2, f3⟩

example : ∃ s : Life ℕ, ({ an := { base := some [], mats := [(['A'], 0), (['B'], 1)] } } : Life ℕ).subset
    [['B']] = .ok s :=
  (subset_spec _ _).1.mpr ⟨by simp, by decide⟩

/-- Two matrices without marginalisation of nuisance parameters; a third matrix is not used. -/
example : ∃ h' a, construct (fun s => s.sort (· ≤ ·)) [exF, exF, exG] (.dict [(['A'], 0), (['B'], 2)]) none none false = (h', .ok a) ∧
    (∃ R, h'[0]? = some R ∧ R.nuis = ∅ ∧ R.cosmo = {0}) ∧ h'[1]? = some exF := by
  obtain ⟨h', a, e, -, m, o⟩ := construct_matrices sortedIteration [exF, exF, exG] [(['A'], 0), (['B'], 2)] (by decide)
    none false (by
      intro r hr
      simp only [List.map_cons, List.map_nil, List.mem_cons, List.not_mem_nil, or_false] at hr
      rcases hr with rfl | rfl
      · exact ⟨exF, rfl, ⟨_, exF_WF, Finset.Subset.refl _⟩, by decide⟩
      · exact ⟨exG, rfl, ⟨_, exG_WF, Finset.Subset.refl _⟩, by decide⟩)
  obtain ⟨F, R, hF, hR, r⟩ := m 0 (by decide)
  cases hF
  exact ⟨h', a, e, ⟨R, hR, r.nuis, r.cosmo⟩, o 1 (by decide)⟩

end Seyfert.Life
