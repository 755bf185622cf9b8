import Verif.Lemmas.StoredColl
import Verif.Lemmas.PyStr

/-! A collection of spectra in one file. -/

namespace Seyfert.Stored
open H5 (Path File begins)

variable {V A : Type}

/-- A spectrum can be read, but for its weight functions. -/
def ClAt (v : View (Val A)) (c : Cl A) : Prop := ∃ k x l g y, c.kernel = some k ∧ c.c = some x ∧ c.ells = some l ∧
  k.grid = some g ∧ k.k = some y ∧ v.num [N .cLij] = .ok x ∧ v.num [N .ells] = .ok l ∧ v.opt [N .widths] = .ok c.widths ∧
  v.has [N .kernel] = true ∧
  readKern (v.sub [N .kernel]) = .ok { p1 := k.p1, p2 := k.p2, grid := some g, k := some y }

structure Inv (f₀ f : File (Val A)) (C : Dict Str (Cl A)) (W : Dict Str (Weight A)) : Prop where
  clean : Clean f
  clsGroup : [N .cls] ∈ f.groups
  clsMembers : (members f [N .cls]).Perm (C.map (·.1))
  wMembers : (members f [N .weights]).Perm (W.map (·.1))
  hasC : ∀ i ∈ C, [N .cls, i.1] ∈ f.groups
  clView : ∀ i ∈ C, ClAt (view f [N .cls, i.1]) i.2
  wView : ∀ i ∈ W, readWeight (view f [N .weights, i.1]) = .ok i.2.kept
  hasW : ∀ i ∈ W, [N .weights, i.1] ∈ f.groups
  freshC : ∀ n, n ∉ C.map (·.1) → Fresh f [N .cls, n]
  freshW : ∀ n, n ∉ W.map (·.1) → Fresh f [N .weights, n]
  uniq : ∀ q ∈ f.groups, ∀ p ∈ probes, isWeightGroup p q = true → q = [N .weights, p]
  rest : ∀ n, n ≠ N .cls → n ≠ N .weights → view f [n] = view f₀ [n]

theorem members_of_view {f f' : File V} {b : Path} (h : view f' b = view f b) : (members f' b).Perm (members f b) := by
  have h1 : kids f' b = kids f b := by
    have := congrFun (congrArg View.kids h) []
    simpa [view] using this
  rw [kids_members, kids_members] at h1
  exact (List.perm_insertionSort nameLe _).symm.trans (h1 ▸ List.perm_insertionSort nameLe _)

theorem cls_ne_weights : N .cls ≠ N .weights := by simp [N_inj]

theorem apart_cls_weights (q s : Path) : Apart (N .cls :: q) (N .weights :: s) :=
  apart_of_ne [] q s cls_ne_weights

theorem isWeight_last {p : Str} {q : Path} (h : isWeightGroup p q = true) : q.getLast? = some p := by
  unfold isWeightGroup at h
  have e := List.reverse_reverse q
  cases hq : q.reverse with
  | nil => rw [hq] at h; cases h
  | cons a l =>
    rw [hq] at h e
    cases l with
    | nil => cases h
    | cons b l =>
      simp only [Bool.and_eq_true, beq_iff_eq] at h
      rw [← e, List.getLast?_reverse, List.head?_cons, h.1]

theorem probe_not_field : ∀ p ∈ probes, p ≠ N .kernel ∧ p ≠ N .density ∧ p ≠ N .response := by
  decide

theorem probe_no_sep : ∀ p ∈ probes, '_' ∉ p := by
  decide

theorem not_weight_cls (p n : Str) : isWeightGroup p [N .cls, n] = false := by
  have : (N .weights).isSuffixOf (N .cls) = false := by decide
  simp only [isWeightGroup, List.reverse_cons, List.reverse_nil, List.nil_append, List.cons_append, this, Bool.and_false]

theorem inv_cl {f₀ f F : File (Val A)} {C : Dict Str (Cl A)} {W : Dict Str (Weight A)} (h : Inv f₀ f C W) {n : Str} {c : Cl A}
    (hn : n ∉ C.map (·.1)) (hF : ClAt (view F []) c) (hc : Clean F) (hg : ∀ q ∈ F.groups, q = [N .kernel]) :
    Inv f₀ (graft f [N .cls, n] F) (C ++ [(n, c)]) W := by
  have hf := h.freshC n hn
  have hap : ∀ m, m ≠ n → Apart [N .cls, n] [N .cls, m] := fun m hm => apart_of_ne [N .cls] [] [] (Ne.symm hm)
  have hmem : ∀ q, q ∈ f.groups → q ∈ (graft f [N .cls, n] F).groups := by
    intro q hq
    simp only [graft, List.mem_append, mem_touch]
    exact Or.inl (Or.inl hq)
  constructor
  · constructor
    · simp only [graft, List.mem_append, mem_touch, List.mem_map, not_or]
      refine ⟨⟨h.clean.1, fun hm => (mem_begins.1 hm).1 rfl⟩, ?_⟩
      rintro ⟨a, _, ha⟩
      simp at ha
    · simp only [graft, List.map_append, List.mem_append, not_or]
      refine ⟨h.clean.2, ?_⟩
      simp
  · exact hmem _ h.clsGroup
  · rw [List.map_append]
    refine (members_graft (b := [N .cls]) hf hc).trans ?_
    exact ((h.clsMembers.cons n).trans (List.perm_append_singleton n _).symm)
  · exact (members_of_view (view_graft_apart (apart_cls_weights [n] []))).trans h.wMembers
  · intro i hi
    rw [List.mem_append, List.mem_singleton] at hi
    rcases hi with hi | rfl
    · exact hmem _ (h.hasC i hi)
    · simp only [graft, List.mem_append, mem_touch]
      exact Or.inl (Or.inr (mem_begins.2 ⟨by simp, List.prefix_rfl⟩))
  · intro i hi
    rw [List.mem_append, List.mem_singleton] at hi
    rcases hi with hi | rfl
    · have hne : i.1 ≠ n := fun e => hn (e ▸ List.mem_map_of_mem hi)
      rw [view_graft_apart (hap _ hne)]
      exact h.clView i hi
    · rw [view_graft hf]; exact hF
  · intro i hi
    rw [view_graft_apart (apart_cls_weights [n] [i.1])]
    exact h.wView i hi
  · intro i hi
    exact hmem _ (h.hasW i hi)
  · intro m hm
    simp only [List.map_append, List.mem_append, List.map_cons, List.map_nil, List.mem_singleton, not_or] at hm
    exact fresh_graft (hap m hm.2) (h.freshC m hm.1)
  · intro m hm
    exact fresh_graft (apart_cls_weights [n] [m]) (h.freshW m hm)
  · intro q hq p hp hw
    simp only [graft, List.mem_append, mem_touch, List.mem_map] at hq
    rcases hq with (hq | hq) | ⟨a, ha, rfl⟩
    · exact h.uniq q hq p hp hw
    · simp only [begins, List.map_cons, List.map_nil, List.mem_cons, List.not_mem_nil, or_false] at hq
      rcases hq with rfl | rfl
      · cases hw
      · rw [not_weight_cls] at hw; cases hw
    · have := isWeight_last hw
      rw [hg a ha] at this
      simp at this
      exact absurd this.symm (probe_not_field p hp).1
  · intro m h1 h2
    rw [view_graft_apart (show Apart [N .cls, n] [m] from apart_of_ne [] [n] [] (Ne.symm h1))]
    exact h.rest m h1 h2

theorem inv_w {f₀ f F : File (Val A)} {C : Dict Str (Cl A)} {W : Dict Str (Weight A)} (h : Inv f₀ f C W) {n : Str} {w : Weight A}
    (hn : n ∉ W.map (·.1)) (hF : readWeight (view F []) = .ok w.kept) (hc : Clean F)
    (hg : ∀ q ∈ F.groups, q.getLast? = some (N .density) ∨ q.getLast? = some (N .response)) :
    Inv f₀ (graft f [N .weights, n] F) C (W ++ [(n, w)]) := by
  have hf := h.freshW n hn
  have hap : ∀ m, m ≠ n → Apart [N .weights, n] [N .weights, m] := fun m hm => apart_of_ne [N .weights] [] [] (Ne.symm hm)
  have hap' : ∀ s : Path, Apart [N .weights, n] (N .cls :: s) := fun s => (apart_cls_weights s [n]).symm
  have hmem : ∀ q, q ∈ f.groups → q ∈ (graft f [N .weights, n] F).groups := by
    intro q hq
    simp only [graft, List.mem_append, mem_touch]
    exact Or.inl (Or.inl hq)
  constructor
  · constructor
    · simp only [graft, List.mem_append, mem_touch, List.mem_map, not_or]
      refine ⟨⟨h.clean.1, fun hm => (mem_begins.1 hm).1 rfl⟩, ?_⟩
      rintro ⟨a, _, ha⟩
      simp at ha
    · simp only [graft, List.map_append, List.mem_append, not_or]
      refine ⟨h.clean.2, ?_⟩
      simp
  · exact hmem _ h.clsGroup
  · exact (members_of_view (view_graft_apart (hap' []))).trans h.clsMembers
  · rw [List.map_append]
    refine (members_graft (b := [N .weights]) hf hc).trans ?_
    exact ((h.wMembers.cons n).trans (List.perm_append_singleton n _).symm)
  · intro i hi
    exact hmem _ (h.hasC i hi)
  · intro i hi
    rw [view_graft_apart (hap' [i.1])]
    exact h.clView i hi
  · intro i hi
    rw [List.mem_append, List.mem_singleton] at hi
    rcases hi with hi | rfl
    · have hne : i.1 ≠ n := fun e => hn (e ▸ List.mem_map_of_mem hi)
      rw [view_graft_apart (hap _ hne)]
      exact h.wView i hi
    · rw [view_graft hf]; exact hF
  · intro i hi
    rw [List.mem_append, List.mem_singleton] at hi
    rcases hi with hi | rfl
    · exact hmem _ (h.hasW i hi)
    · simp only [graft, List.mem_append, mem_touch]
      exact Or.inl (Or.inr (mem_begins.2 ⟨by simp, List.prefix_rfl⟩))
  · intro m hm
    exact fresh_graft (hap' [m]) (h.freshC m hm)
  · intro m hm
    simp only [List.map_append, List.mem_append, List.map_cons, List.map_nil, List.mem_singleton, not_or] at hm
    exact fresh_graft (hap m hm.2) (h.freshW m hm.1)
  · intro q hq p hp hw
    simp only [graft, List.mem_append, mem_touch, List.mem_map] at hq
    rcases hq with (hq | hq) | ⟨a, ha, rfl⟩
    · exact h.uniq q hq p hp hw
    · simp only [begins, List.map_cons, List.map_nil, List.mem_cons, List.not_mem_nil, or_false] at hq
      rcases hq with rfl | rfl
      · cases hw
      · have := isWeight_last hw
        simp at this
        rw [this]
    · have h1 := isWeight_last hw
      have hne : a ≠ [] := by
        rintro rfl
        rcases hg [] ha with h | h <;> cases h
      rw [List.getLast?_append_of_ne_nil _ hne] at h1
      rcases hg a ha with h | h
      · rw [h] at h1; exact absurd (Option.some.inj h1).symm (probe_not_field p hp).2.1
      · rw [h] at h1; exact absurd (Option.some.inj h1).symm (probe_not_field p hp).2.2
  · intro m h1 h2
    rw [view_graft_apart (show Apart [N .weights, n] [m] from apart_of_ne [] [n] [] (Ne.symm h2))]
    exact h.rest m h1 h2

/-! ### Saving -/

theorem run_append (f : File V) (a b : List (Cmd V)) :
    run f (a ++ b) = match run f a with
      | (.ok (), g) => run g b
      | (.error e, g) => (.error e, g) := by
  induction a generalizing f with
  | nil => rfl
  | cons c a ih =>
    simp only [List.cons_append, run]
    rcases runCmd f c with ⟨e | u, g⟩
    · rfl
    · simp only [ih]

theorem run_ops (f : File V) (ops : List (Op V)) : run f (ops.map .op) = runOps f ops := by
  induction ops generalizing f with
  | nil => rfl
  | cons o ops ih =>
    simp only [List.map_cons, run, runCmd, runOps]
    cases step f o with
    | error e => rfl
    | ok g => exact ih g

theorem save_weight {f₀ f : File (Val A)} {C : Dict Str (Cl A)} {W : Dict Str (Weight A)} (h : Inv f₀ f C W) {p : Str}
    {w : Weight A} (hw : w.Complete) (hs : ∀ w', (p, w') ∈ W → w' = w) :
    ∃ f' W', runCmd f (.unless [N .weights, p] (saveWeight [N .weights, p] w)) = (.ok (), f') ∧ Inv f₀ f' C W' ∧
      (p, w) ∈ W' ∧ (∀ i ∈ W, i ∈ W') ∧ (∀ i ∈ W', i ∈ W ∨ i = (p, w)) := by
  by_cases hp : p ∈ W.map (·.1)
  · obtain ⟨⟨q, w'⟩, hi, rfl⟩ := List.mem_map.1 hp
    have e := hs w' hi
    subst e
    refine ⟨f, W, ?_, h, hi, fun _ h => h, fun _ h => Or.inl h⟩
    simp only [runCmd]
    rw [if_pos (has_iff.2 (Or.inr (Or.inl (h.hasW _ hi))))]
  · obtain ⟨F, h1, h2, h3, h4⟩ := weight_file hw
    have hf := h.freshW p hp
    refine ⟨_, W ++ [(p, w)], ?_, inv_w h hp h2 h3 h4, by simp, fun i hi => List.mem_append_left _ hi, ?_⟩
    · simp only [runCmd]
      have hn : ¬ f.has [N .weights, p] = true := by
        intro hc
        rcases has_iff.1 hc with h | h | h
        · simp at h
        · exact hf.groups [] (by simpa using h)
        · exact hf.data [] (by simpa using h)
      rw [if_neg hn, saveWeight_shift, save_graft hf, h1]
    · intro i hi
      simpa using hi

theorem save_cl {f₀ f : File (Val A)} {C : Dict Str (Cl A)} {W D : Dict Str (Weight A)} (h : Inv f₀ f C W) {c : Cl A}
    (hn : key c.p1 c.p2 ∉ C.map (·.1)) (hc : c.Complete) (hW : ∀ i ∈ W, D.lookup i.1 = some i.2)
    (hD : ∀ p w, D.lookup p = some w → w.Complete)
    (hk : ∀ k, c.kernel = some k → k.w1 = D.lookup c.p1 ∧ k.w2 = D.lookup c.p2) :
    ∃ f' W', run f (saveCl [N .cls] c) = (.ok (), f') ∧ Inv f₀ f' (C ++ [(key c.p1 c.p2, c)]) W' ∧
      (∀ i ∈ W', D.lookup i.1 = some i.2) ∧ (∀ i ∈ W, i ∈ W') ∧ c.p1 ∈ W'.map (·.1) ∧ c.p2 ∈ W'.map (·.1) := by
  obtain ⟨hx, hl, k, hkk, hg, hy, hw1, hw2⟩ := hc
  obtain ⟨x, hx⟩ := Option.isSome_iff_exists.1 hx
  obtain ⟨l, hl⟩ := Option.isSome_iff_exists.1 hl
  obtain ⟨g, hg⟩ := Option.isSome_iff_exists.1 hg
  obtain ⟨y, hy⟩ := Option.isSome_iff_exists.1 hy
  obtain ⟨w1, hw1⟩ := Option.isSome_iff_exists.1 hw1
  obtain ⟨w2, hw2⟩ := Option.isSome_iff_exists.1 hw2
  have hd1 : D.lookup c.p1 = some w1 := (hk k hkk).1 ▸ hw1
  have hd2 : D.lookup c.p2 = some w2 := (hk k hkk).2 ▸ hw2
  obtain ⟨F, r1, r2, r3, r4, r5, r6, r7, r8⟩ := cl_file hx hl hg hy
  have hf := h.freshC _ hn
  have i1 := inv_cl h hn (c := c) ⟨k, x, l, g, y, hkk, hx, hl, hg, hy, r2, r3, r4, r5, r6⟩ r7 r8
  obtain ⟨f2, W2, a1, a2, a3, a4, a5⟩ := save_weight i1 (p := c.p1) (w := w1) (hD _ _ hd1) (by
    intro w' hw'
    have := hW _ hw'
    simp only at this
    rw [hd1] at this
    exact (Option.some.inj this).symm)
  have hW2 : ∀ i ∈ W2, D.lookup i.1 = some i.2 := by
    intro i hi
    rcases a5 i hi with h | rfl
    · exact hW i h
    · exact hd1
  obtain ⟨f3, W3, b1, b2, b3, b4, b5⟩ := save_weight a2 (p := c.p2) (w := w2) (hD _ _ hd2) (by
    intro w' hw'
    have := hW2 _ hw'
    simp only at this
    rw [hd2] at this
    exact (Option.some.inj this).symm)
  refine ⟨f3, W3, ?_, b2, ?_, fun i hi => b4 i (a4 i hi), List.mem_map_of_mem (b4 _ a3), List.mem_map_of_mem b3⟩
  · have e : saveCl [N .cls] c = (Op.enter [N .cls] :: ((clOps c k).map (shift [N .cls, key c.p1 c.p2]))).map Cmd.op ++
        [.unless [N .weights, c.p1] (saveWeight [N .weights, c.p1] w1),
          .unless [N .weights, c.p2] (saveWeight [N .weights, c.p2] w2)] := by
      unfold saveCl clOps
      simp only [hkk, hw1, hw2, weightCmds]
      have : (saveKern [N .kernel] k).map (shift [N .cls, key c.p1 c.p2]) = saveKern [N .cls, key c.p1 c.p2, N .kernel] k := by
        simp [saveKern, shift_putO]
      simp only [List.map_append, List.map_cons, shift_putO, shift_putIf, this, List.cons_append,
        List.nil_append, List.append_assoc]
    have e2 : runOps f (Op.enter [N .cls] :: ((clOps c k).map (shift [N .cls, key c.p1 c.p2])))
        = (.ok (), graft f [N .cls, key c.p1 c.p2] F) := by
      have hs : step f (.enter [N .cls]) = .ok f := by
        simp only [step]
        rw [if_pos (has_iff.2 (Or.inr (Or.inl h.clsGroup)))]
      rw [runOps_cons_ok hs]
      have ec : clOps c k = Op.put [N .cLij] (.num x) :: ((clOps c k).tail) := by
        simp [clOps, hx, putO]
      rw [ec, save_graft' hf, ← ec, r1]
    rw [e, run_append, run_ops, e2]
    simp only [run]
    rw [a1]
    simp only
    rw [b1]
  · intro i hi
    rcases b5 i hi with h | rfl
    · exact hW2 i h
    · exact hd2

theorem save_cls {f₀ : File (Val A)} {D : Dict Str (Weight A)} (hD : ∀ p w, D.lookup p = some w → w.Complete)
    (l : Dict Str (Cl A)) : ∀ {f : File (Val A)} {C : Dict Str (Cl A)} {W : Dict Str (Weight A)}, Inv f₀ f C W →
    ((C ++ l).map (·.1)).Nodup → (∀ i ∈ l, i.1 = key i.2.p1 i.2.p2) → (∀ i ∈ l, i.2.Complete) →
    (∀ i ∈ W, D.lookup i.1 = some i.2) →
    (∀ i ∈ l, ∀ k, i.2.kernel = some k → k.w1 = D.lookup i.2.p1 ∧ k.w2 = D.lookup i.2.p2) →
    ∃ f' W', run f (l.flatMap (fun p => saveCl [N .cls] p.2)) = (.ok (), f') ∧ Inv f₀ f' (C ++ l) W' ∧
      (∀ i ∈ W', D.lookup i.1 = some i.2) ∧ (∀ i ∈ W, i ∈ W') ∧
      ∀ i ∈ l, i.2.p1 ∈ W'.map (·.1) ∧ i.2.p2 ∈ W'.map (·.1) := by
  induction l with
  | nil =>
    intro f C W h _ _ _ hW _
    exact ⟨f, W, rfl, by simpa using h, hW, fun _ h => h, by simp⟩
  | cons i l ih =>
    intro f C W h hnd hkey hcomp hW hk
    obtain ⟨n, c⟩ := i
    have hn := hkey (n, c) (by simp)
    simp only at hn
    subst hn
    have hnot : key c.p1 c.p2 ∉ C.map (·.1) := by
      rw [List.map_append, List.nodup_append] at hnd
      intro hm
      exact hnd.2.2 _ hm _ (by simp) rfl
    obtain ⟨f1, W1, a1, a2, a3, a4, a5, a6⟩ := save_cl h hnot (hcomp _ List.mem_cons_self) hW hD (hk _ List.mem_cons_self)
    obtain ⟨f2, W2, b1, b2, b3, b4, b5⟩ := ih a2 (by simpa using hnd) (fun i hi => hkey i (List.mem_cons_of_mem _ hi))
      (fun i hi => hcomp i (List.mem_cons_of_mem _ hi)) a3 (fun i hi => hk i (List.mem_cons_of_mem _ hi))
    refine ⟨f2, W2, ?_, by simpa using b2, b3, fun i hi => b4 i (a4 i hi), ?_⟩
    · rw [List.flatMap_cons, run_append, a1]
      exact b1
    · intro i hi
      rcases List.mem_cons.1 hi with rfl | hi
      · constructor
        · obtain ⟨j, hj, e⟩ := List.mem_map.1 a5
          exact e ▸ List.mem_map_of_mem (b4 j hj)
        · obtain ⟨j, hj, e⟩ := List.mem_map.1 a6
          exact e ▸ List.mem_map_of_mem (b4 j hj)
      · exact b5 i hi

theorem save_weights {f₀ : File (Val A)} {D : Dict Str (Weight A)} {C : Dict Str (Cl A)} (l : Dict Str (Weight A)) :
    ∀ {f : File (Val A)} {W : Dict Str (Weight A)}, Inv f₀ f C W →
    (∀ i ∈ l, i.2.Complete ∧ D.lookup i.1 = some i.2) → (∀ i ∈ W, D.lookup i.1 = some i.2) →
    ∃ f' W', run f (l.map (fun p => .unless [N .weights, p.1] (saveWeight [N .weights, p.1] p.2))) = (.ok (), f') ∧
      Inv f₀ f' C W' ∧ (∀ i ∈ W', D.lookup i.1 = some i.2) ∧ (∀ i ∈ W, i ∈ W') ∧ ∀ i ∈ l, i ∈ W' := by
  induction l with
  | nil =>
    intro f W h _ hW
    exact ⟨f, W, rfl, h, hW, fun _ h => h, by simp⟩
  | cons i l ih =>
    intro f W h hl hW
    obtain ⟨p, w⟩ := i
    have hi := hl (p, w) (by simp)
    obtain ⟨f1, W1, a1, a2, a3, a4, a5⟩ := save_weight h (p := p) (w := w) hi.1 (by
      intro w' hw'
      have := hW _ hw'
      simp only at this
      rw [hi.2] at this
      exact (Option.some.inj this).symm)
    obtain ⟨f2, W2, b1, b2, b3, b4, b5⟩ := ih a2 (fun i hi => hl i (List.mem_cons_of_mem _ hi)) (by
      intro i hi'
      rcases a5 i hi' with h | rfl
      · exact hW i h
      · exact hi.2)
    refine ⟨f2, W2, ?_, b2, b3, fun i hi => b4 i (a4 i hi), ?_⟩
    · rw [List.map_cons, run, a1]
      exact b1
    · intro i hi'
      rcases List.mem_cons.1 hi' with rfl | hi'
      · exact b4 _ a3
      · exact b5 i hi'

/-! ### Loading -/

theorem find_weight {f₀ f : File (Val A)} {C : Dict Str (Cl A)} {W : Dict Str (Weight A)} (h : Inv f₀ f C W) {p : Str}
    {w : Weight A} (hp : p ∈ probes) (hw : (p, w) ∈ W) : loadWeight f p = .ok w.kept := by
  have hm : [N .weights, p] ∈ f.groups.insertionSort pathLe := (List.mem_insertionSort _).2 (h.hasW _ hw)
  have hf : findWeight f p = some [N .weights, p] := by
    unfold findWeight
    cases hq : (f.groups.insertionSort pathLe).find? (isWeightGroup p) with
    | none =>
      have := List.find?_eq_none.1 hq _ hm
      exact absurd (by simp [isWeightGroup]) this
    | some q =>
      have h1 := List.find?_some hq
      have h2 := (List.mem_insertionSort _).1 (List.mem_of_find?_eq_some hq)
      rw [h.uniq q h2 p hp h1]
  unfold loadWeight
  rw [hf]
  exact h.wView _ hw

theorem key_split {p1 p2 : Str} (h1 : p1 ∈ probes) (h2 : p2 ∈ probes) : splitChar '_' (key p1 p2) = [p1, p2] := by
  unfold key
  rw [splitChar_append _ _ _ (probe_no_sep p1 h1), splitChar_no_sep _ _ (probe_no_sep p2 h2)]

theorem load_cl {f₀ f : File (Val A)} {C : Dict Str (Cl A)} {W : Dict Str (Weight A)} (h : Inv f₀ f C W) {c : Cl A}
    (hc : (key c.p1 c.p2, c) ∈ C) (h1 : c.p1 ∈ probes) (h2 : c.p2 ∈ probes) {k : Kern A} (hk : c.kernel = some k)
    {w1 w2 : Weight A} (e1 : k.w1 = some w1) (e2 : k.w2 = some w2) (m1 : (c.p1, w1) ∈ W) (m2 : (c.p2, w2) ∈ W) :
    loadCl f [N .cls] c.p1 c.p2 = .ok c.kept := by
  obtain ⟨k', x, l, g, y, a1, a2, a3, a4, a5, a6, a7, a8, a9, a10⟩ := h.clView _ hc
  simp only at a1 a2 a3 a4 a5 a6 a7 a8 a9 a10
  rw [hk] at a1
  cases a1
  unfold loadCl
  have ha : f.has [N .cls] = true := has_iff.2 (Or.inr (Or.inl h.clsGroup))
  have hb : (view f ([N .cls] ++ [key c.p1 c.p2])).has [] = true :=
    view_has.2 (Or.inr (Or.inl (by simpa using h.hasC _ hc)))
  simp only [ha, if_true, hb]
  simp only [List.cons_append, List.nil_append, a6, a7, a8, a9, if_true, a10, find_weight h h1 m1, find_weight h h2 m2]
  obtain ⟨q1, q2, cc, ll, ww, kk⟩ := c
  obtain ⟨b1, b2, b3, b4, b5, b6⟩ := k
  simp only at a2 a3 a4 a5 hk e1 e2
  subst a2 a3 hk a4 a5 e1 e2
  simp [Cl.kept]

theorem setNew_lookup (d : Dict Str (Weight A)) (p : Str) (w : Weight A) (q : Str) :
    (setNew d p (some w)).lookup q = if q = p then (d.lookup p).or (some w) else d.lookup q := by
  unfold setNew
  cases h : d.lookup p with
  | none =>
    simp only [List.lookup_append]
    by_cases hq : q = p
    · subst hq; simp [h]
    · have : (q == p) = false := by simpa using hq
      simp [List.lookup_cons, this, hq]
  | some v =>
    simp only
    by_cases hq : q = p
    · subst hq; simp [h]
    · simp [hq]

theorem load_cls {f₀ f : File (Val A)} {C : Dict Str (Cl A)} {W D : Dict Str (Weight A)} (h : Inv f₀ f C W)
    (hW : ∀ p w, D.lookup p = some w → (p, w) ∈ W) (l : Dict Str (Cl A)) : ∀ acc : Coll A,
    (∀ i ∈ l, i ∈ C ∧ i.1 = key i.2.p1 i.2.p2 ∧ i.2.p1 ∈ probes ∧ i.2.p2 ∈ probes ∧
      ∃ k w1 w2, i.2.kernel = some k ∧ k.w1 = some w1 ∧ k.w2 = some w2 ∧ D.lookup i.2.p1 = some w1 ∧ D.lookup i.2.p2 = some w2) →
    ((acc.cls.map (·.1)) ++ l.map (·.1)).Nodup →
    (∀ p w, acc.weights.lookup p = some w → (D.lookup p).map Weight.kept = some w) →
    ∃ ws, loadCls f [N .cls] (l.map (·.1)) acc
        = .ok { grid := acc.grid, cls := acc.cls ++ l.map (fun i => (i.1, i.2.kept)), weights := ws } ∧
      (∀ p w, ws.lookup p = some w → (D.lookup p).map Weight.kept = some w) ∧
      ∀ p, (ws.lookup p).isSome ↔ (acc.weights.lookup p).isSome ∨ ∃ i ∈ l, p = i.2.p1 ∨ p = i.2.p2 := by
  induction l with
  | nil =>
    intro acc _ _ ha
    exact ⟨acc.weights, by simp [loadCls], ha, by simp⟩
  | cons i l ih =>
    intro acc hl hnd ha
    obtain ⟨n, c⟩ := i
    obtain ⟨hC, hn, hp1, hp2, k, w1, w2, hk, e1, e2, d1, d2⟩ := hl (n, c) List.mem_cons_self
    simp only at hn hp1 hp2 hk e1 e2 d1 d2
    subst hn
    have hload := load_cl h hC hp1 hp2 hk e1 e2 (hW _ _ d1) (hW _ _ d2)
    have hkk : c.kept.kernel = some { k with w1 := some w1.kept, w2 := some w2.kept } := by
      simp [Cl.kept, hk, e1, e2]
    have hset : PyDict.set acc.cls (key c.p1 c.p2) c.kept = acc.cls ++ [(key c.p1 c.p2, c.kept)] := by
      have hnot : key c.p1 c.p2 ∉ acc.cls.map (·.1) := by
        rw [List.nodup_append] at hnd
        intro hm
        exact hnd.2.2 _ hm _ (by simp) rfl
      have := set_append acc.cls [] (key c.p1 c.p2) c.kept hnot
      rw [List.append_nil] at this
      rw [this]; rfl
    have hlk : ∀ q, (setNew (setNew acc.weights c.p1 (some w1.kept)) c.p2 (some w2.kept)).lookup q =
        if q = c.p2 then (if c.p2 = c.p1 then ((acc.weights.lookup c.p1).or (some w1.kept)).or (some w2.kept)
            else (acc.weights.lookup c.p2).or (some w2.kept))
        else if q = c.p1 then (acc.weights.lookup c.p1).or (some w1.kept) else acc.weights.lookup q := by
      intro q
      rw [setNew_lookup, setNew_lookup, setNew_lookup]
      by_cases h1 : c.p2 = c.p1 <;> simp [h1]
    obtain ⟨ws, r1, r2, r3⟩ := ih
      ⟨acc.grid, acc.cls ++ [(key c.p1 c.p2, c.kept)],
        setNew (setNew acc.weights c.p1 (some w1.kept)) c.p2 (some w2.kept)⟩
      (fun i hi => hl i (List.mem_cons_of_mem _ hi)) (by simpa using hnd) (by
        intro p w hw
        simp only at hw
        rw [hlk] at hw
        have o1 : ∀ w, (acc.weights.lookup c.p1).or (some w1.kept) = some w → w1.kept = w := by
          intro w hw
          cases hx : acc.weights.lookup c.p1 with
          | none => rw [hx] at hw; exact Option.some.inj hw
          | some v =>
            have := ha _ _ hx
            rw [d1] at this
            rw [hx] at hw
            rw [Option.some.inj this]
            exact Option.some.inj hw
        split at hw
        · rename_i hq
          subst hq
          rw [d2]
          split at hw
          · rename_i h12
            rw [h12, d1] at d2
            cases d2
            have : ((acc.weights.lookup c.p1).or (some w1.kept)).or (some w1.kept) = (acc.weights.lookup c.p1).or (some w1.kept) := by
              cases acc.weights.lookup c.p1 <;> rfl
            rw [this] at hw
            rw [← o1 w hw]; rfl
          · cases hx : acc.weights.lookup c.p2 with
            | none => rw [hx] at hw; rw [← Option.some.inj hw]; rfl
            | some v =>
              have := ha _ _ hx
              rw [d2] at this
              rw [hx] at hw
              rw [this, Option.some.inj hw]
        · split at hw
          · rename_i hq
            subst hq
            rw [d1, ← o1 w hw]; rfl
          · exact ha p w hw)
    refine ⟨ws, ?_, r2, ?_⟩
    · rw [List.map_cons, loadCls]
      simp only [key_split hp1 hp2, hload, hkk]
      rw [hset, r1]
      simp
    · intro p
      rw [r3 p]
      simp only [hlk, List.mem_cons, exists_eq_or_imp]
      by_cases q2 : p = c.p2
      · subst q2
        have : (if True then (if c.p2 = c.p1 then ((acc.weights.lookup c.p1).or (some w1.kept)).or (some w2.kept)
            else (acc.weights.lookup c.p2).or (some w2.kept)) else none).isSome = true := by
          rw [if_pos trivial]
          split
          · cases acc.weights.lookup c.p1 <;> rfl
          · cases acc.weights.lookup c.p2 <;> rfl
        simp only [if_true] at this ⊢
        exact ⟨fun _ => Or.inr (Or.inl (Or.inr trivial)), fun _ => Or.inl this⟩
      · simp only [q2, if_false, or_false]
        by_cases q1 : p = c.p1
        · subst q1
          simp
        · simp only [q1, if_false, false_or]

theorem readAll_ok (v : View (Val A)) (ns : List Str) (h : ∀ n ∈ ns, ∃ w, readWeight (v.sub [n]) = .ok w) :
    readAll v ns = .ok () := by
  induction ns with
  | nil => rfl
  | cons n ns ih =>
    obtain ⟨w, hw⟩ := h n (by simp)
    rw [readAll, hw]
    exact ih (fun m hm => h m (List.mem_cons_of_mem _ hm))

/-- The file with the grid of redshifts of a collection and its empty group. -/
def collTop (o : Coll A) : File (Val A) := { groups := [[N .cls]], attrs := [], data := top (optItem (N .zGrid) o.grid) }

theorem collTop_run (o : Coll A) : run File.empty ([.op (.enter [])] ++ (putIf ([] ++ [N .zGrid]) o.grid).map .op ++
    [.op (.group ([] ++ [N .cls]))]) = (.ok (), collTop o) := by
  have e : [Cmd.op (.enter [])] ++ (putIf ([] ++ [N .zGrid]) o.grid).map .op ++ [Cmd.op (.group ([] ++ [N .cls]))]
      = (Op.enter [] :: (puts [] (optItem (N .zGrid) o.grid) ++ [.group [N .cls]])).map .op := by
    rw [putIf_items]
    simp
  rw [e, run_ops, runOps_cons_ok (g := File.empty) rfl, runOps_append, puts_ok]
  · have hne : N .cls ≠ N .zGrid := by simp [N_inj]
    cases hg : o.grid with
    | none => simp [runOps, step, File.has, File.empty, mkGroup, isData, begins, touch, collTop, hg, optItem, top]
    | some g =>
      simp [runOps, step, File.has, File.empty, mkGroup, isData, begins, touch, collTop, hg, optItem, top, hne]
  · simp [begins]
  · simp [begins]
  · simp [File.empty]
  · simp [File.empty]
  · cases o.grid <;> simp [optItem]

theorem collTop_inv (o : Coll A) : Inv (collTop o) (collTop o) [] [] := by
  have hd : ∀ i ∈ (collTop o).data, i.1 = [N .zGrid] := by
    intro i hi
    cases hg : o.grid with
    | none => simp [collTop, hg, optItem, top] at hi
    | some g => simp [collTop, hg, optItem, top] at hi; rw [hi]
  have hf : ∀ a n, a = N .cls ∨ a = N .weights → Fresh (collTop o) [a, n] := by
    intro a n ha
    constructor
    · simp
    · intro q hq; simp [collTop] at hq
    · intro q hq
      obtain ⟨i, hi, he⟩ := List.mem_map.1 hq
      rw [hd i hi] at he
      simp at he
    · intro q m hq; simp [collTop] at hq
    · intro q hq hm
      obtain ⟨i, hi, he⟩ := List.mem_map.1 hm
      rw [hd i hi] at he
      subst he
      have := (List.cons_prefix_cons.1 hq).1
      rcases ha with rfl | rfl <;> simp [N_inj] at this
  have hm : ∀ a, a = N .cls ∨ a = N .weights → members (collTop o) [a] = [] := by
    intro a ha
    unfold members
    rw [List.filterMap_eq_nil_iff]
    intro q hq
    by_contra hc
    obtain ⟨n, hn⟩ := Option.ne_none_iff_exists'.1 hc
    have hn := childOf_some.1 hn
    rw [List.mem_append] at hq
    rcases hq with hq | hq
    · simp [collTop] at hq
      rw [hq] at hn
      simp at hn
    · obtain ⟨i, hi, he⟩ := List.mem_map.1 hq
      rw [hd i hi, hn] at he
      simp at he
  constructor
  · constructor
    · simp [collTop]
    · intro h
      obtain ⟨i, hi, he⟩ := List.mem_map.1 h
      rw [hd i hi] at he
      simp at he
  · simp [collTop]
  · rw [hm _ (Or.inl rfl)]; exact List.Perm.refl _
  · rw [hm _ (Or.inr rfl)]; exact List.Perm.refl _
  · simp
  · simp
  · simp
  · simp
  · exact fun n _ => hf _ n (Or.inl rfl)
  · exact fun n _ => hf _ n (Or.inr rfl)
  · intro q hq p _ hw
    simp [collTop] at hq
    subst hq
    cases hw
  · exact fun _ _ _ => rfl

theorem perm_byName {B : Type} (d : Dict Str B) : (byName d).Perm d := List.perm_insertionSort _ d

end Seyfert.Stored
