import Verif.Lemmas.StoredInv

/-! Dictionaries of objects, one group each. -/

namespace Seyfert.Stored
open H5 (Path File begins)

variable {V A X : Type}

/-- A file with the objects of a dictionary under their names in the group `b`. -/
structure Items (f : File V) (b : Path) (L : Dict Str X) (P : X → View V → Prop) : Prop where
  mem : (members f b).Perm (L.map (·.1))
  at_ : ∀ i ∈ L, P i.2 (view f (b ++ [i.1]))
  has : ∀ i ∈ L, b ++ [i.1] ∈ f.groups
  fresh : ∀ n, n ∉ L.map (·.1) → Fresh f (b ++ [n])

theorem begins_mono {p q x : Path} (h : p <+: q) (hx : x ∈ begins p) : x ∈ begins q := by
  rw [mem_begins] at hx ⊢
  exact ⟨hx.1, hx.2.trans h⟩

theorem items_run {b : Path} {P : X → View V → Prop} (mk : Path → Op V)
    (hmk : ∀ f r, Fresh f r → step f (mk r) = step f (.enter r)) (ops : X → List (Op V)) (l : Dict Str X) :
    ∀ {f : File V} {L : Dict Str X}, Items f b L P → ((L ++ l).map (·.1)).Nodup →
    (∀ i ∈ l, ∃ F, runOps File.empty (ops i.2) = (.ok (), F) ∧ P i.2 (view F []) ∧ Clean F) →
    ∃ f', runOps f (l.flatMap (fun i => mk (b ++ [i.1]) :: (ops i.2).map (shift (b ++ [i.1])))) = (.ok (), f') ∧
      Items f' b (L ++ l) P ∧
      (∀ s, (∀ n, Apart (b ++ [n]) s) → view f' s = view f s ∧ (Fresh f s → Fresh f' s)) ∧
      (∀ q ∈ f.groups, q ∈ f'.groups) ∧ (l ≠ [] → b ≠ [] → b ∈ f'.groups) := by
  induction l with
  | nil =>
    intro f L h _ _
    exact ⟨f, rfl, by simpa using h, fun s _ => ⟨rfl, id⟩, fun _ h => h, fun h => absurd rfl h⟩
  | cons i l ih =>
    intro f L h hnd hl
    obtain ⟨n, x⟩ := i
    obtain ⟨F, h1, h2, h3⟩ := hl (n, x) List.mem_cons_self
    have hn : n ∉ L.map (·.1) := by
      rw [List.map_append, List.nodup_append] at hnd
      intro hm
      exact hnd.2.2 _ hm _ (by simp) rfl
    have hf := h.fresh n hn
    have hap : ∀ m, m ≠ n → Apart (b ++ [n]) (b ++ [m]) := fun m hm => apart_of_ne b [] [] (Ne.symm hm)
    have hmem : ∀ q, q ∈ f.groups → q ∈ (graft f (b ++ [n]) F).groups := by
      intro q hq
      simp only [graft, List.mem_append, mem_touch]
      exact Or.inl (Or.inl hq)
    have hnew : ∀ q, q ∈ begins (b ++ [n]) → q ∈ (graft f (b ++ [n]) F).groups := by
      intro q hq
      simp only [graft, List.mem_append, mem_touch]
      exact Or.inl (Or.inr hq)
    have hi : Items (graft f (b ++ [n]) F) b (L ++ [(n, x)]) P := by
      constructor
      · rw [List.map_append]
        exact (members_graft hf h3).trans ((h.mem.cons n).trans (List.perm_append_singleton n _).symm)
      · intro j hj
        rw [List.mem_append, List.mem_singleton] at hj
        rcases hj with hj | rfl
        · have hne : j.1 ≠ n := fun e => hn (e ▸ List.mem_map_of_mem hj)
          rw [view_graft_apart (hap _ hne)]
          exact h.at_ j hj
        · rw [view_graft hf]; exact h2
      · intro j hj
        rw [List.mem_append, List.mem_singleton] at hj
        rcases hj with hj | rfl
        · exact hmem _ (h.has j hj)
        · exact hnew _ (mem_begins.2 ⟨by simp, List.prefix_rfl⟩)
      · intro m hm
        simp only [List.map_append, List.mem_append, List.map_cons, List.map_nil, List.mem_singleton, not_or] at hm
        exact fresh_graft (hap m hm.2) (h.fresh m hm.1)
    obtain ⟨f', r1, r2, r3, r4, r5⟩ := ih hi (by simpa using hnd) (fun j hj => hl j (List.mem_cons_of_mem _ hj))
    refine ⟨f', ?_, by simpa using r2, ?_, fun q hq => r4 q (hmem q hq), ?_⟩
    · have e : ∀ ops, runOps f (mk (b ++ [n]) :: ops) = runOps f (.enter (b ++ [n]) :: ops) := by
        intro ops
        simp only [runOps, hmk f _ hf]
      rw [List.flatMap_cons, runOps_append, e, save_graft hf, h1]
      exact r1
    · intro s hs
      have := r3 s hs
      exact ⟨this.1.trans (view_graft_apart (hs n)), fun hfs => this.2 (fresh_graft (hs n) hfs)⟩
    · intro _ hb
      exact r4 b (hnew b (mem_begins.2 ⟨hb, by simp⟩))

theorem items_empty {b : Path} {P : X → View V → Prop} : Items (File.empty : File V) b ([] : Dict Str X) P where
  mem := by simp [members, File.empty]
  at_ := by simp
  has := by simp
  fresh n _ := by
    constructor <;> simp [File.empty]

theorem items_kids {f : File V} {b : Path} {L : Dict Str X} {P : X → View V → Prop} (h : Items f b L P) :
    kids f b = (byName L).map (·.1) := by
  rw [kids_members, nameLe_sort h.mem, sort_names]
  rfl

/-- Reading a dictionary back. -/
theorem items_read {B : Type} {f : File V} {b : Path} {L : Dict Str X} (read : View V → Except Err B) (φ : X → B)
    (h : Items f b L (fun x v => read v = .ok (φ x))) :
    readDict (fun n => read (view f (b ++ [n]))) (kids f b) = .ok ((byName L).map (fun i => (i.1, φ i.2))) := by
  rw [items_kids h]
  apply readDict_ok
  intro i hi
  exact h.at_ i ((perm_byName L).mem_iff.1 hi)

/-! ### Covariances -/

def deltaOps (d : DeltaCl A) : List (Op (Val A)) :=
  [.att [] (N .name) (.str d.name)] ++ attIf [] (N .probe_1) d.probe1 ++ attIf [] (N .probe_2) d.probe2 ++
  [putO [N .ells] d.ells, putO [N .deltaC] d.delta] ++ putIf [N .invDeltaC] d.inv ++
  putIf [N .widths] d.widths ++ putIf [N .noise] d.noise ++ putIf [N .cLij] d.c

theorem shift_attIf (r p : Path) (n : Str) (o : Option Str) : (attIf (A := A) p n o).map (shift r) = attIf (r ++ p) n o := by
  cases o <;> rfl

theorem saveDelta_shift (r : Path) (d : DeltaCl A) : saveDelta r d = .enter r :: (deltaOps d).map (shift r) := by
  simp [saveDelta, deltaOps, shift_putO, shift_putIf, shift_attIf]

def deltaItems (d : DeltaCl A) (l x : A) : List (Str × Val A) :=
  [(N .ells, .num l), (N .deltaC, .num x)] ++ optItem (N .invDeltaC) d.inv ++ optItem (N .widths) d.widths ++
    optItem (N .noise) d.noise ++ optItem (N .cLij) d.c

theorem atts_ok (l : List (Str × V)) : ∀ f : File V, (∀ i ∈ l, (([] : Path), i.1) ∉ f.attrs.map (·.1)) →
    (l.map (·.1)).Nodup →
    runOps f (l.map (fun i => .att [] i.1 i.2)) = (.ok (), { f with attrs := f.attrs ++ l.map (fun i => (([], i.1), i.2)) }) := by
  induction l with
  | nil => intro f _ _; simp [runOps]
  | cons i l ih =>
    intro f h1 h2
    have hn := List.nodup_cons.1 h2
    have hs : PyDict.set f.attrs ([], i.1) i.2 = f.attrs ++ [(([], i.1), i.2)] := by
      have := set_append f.attrs [] ([], i.1) i.2 (h1 i List.mem_cons_self)
      rw [List.append_nil] at this
      rw [this]; rfl
    rw [List.map_cons, runOps_cons_ok (g := { f with attrs := f.attrs ++ [(([], i.1), i.2)] }) (by
      simp only [step, File.setAttr, hs]), ih]
    · simp
    · intro j hj
      simp only [List.map_append, List.mem_append, List.map_cons, List.map_nil, List.mem_singleton, not_or]
      refine ⟨h1 j (List.mem_cons_of_mem _ hj), ?_⟩
      intro e
      exact hn.1 (List.mem_map.2 ⟨j, hj, (Prod.mk.inj e).2⟩)
    · exact hn.2

def optAttr (n : Str) : Option Str → List (Str × Val A)
  | none => []
  | some s => [(n, .str s)]

def deltaAttrs (d : DeltaCl A) : List (Str × Val A) :=
  [(N .name, .str d.name)] ++ optAttr (N .probe_1) d.probe1 ++ optAttr (N .probe_2) d.probe2

def deltaFile (d : DeltaCl A) (l x : A) : File (Val A) :=
  { groups := [], data := top (deltaItems d l x),
    attrs := (deltaAttrs d).map (fun i => (([], i.1), i.2)) }

theorem attr_lookup (l : List (Str × V)) (n : Str) :
    (l.map (fun i => ((([] : Path), i.1), i.2))).lookup ([], n) = l.lookup n :=
  lookup_map_inj (fun n : Str => (([] : Path), n)) (fun _ _ h => (Prod.mk.inj h).2) l n

theorem delta_nodup (d : DeltaCl A) (l x : A) : ((deltaItems d l x).map (·.1)).Nodup := by
  unfold deltaItems
  cases d.inv <;> cases d.widths <;> cases d.noise <;> cases d.c <;> simp [optItem, N_inj]

theorem delta_run {d : DeltaCl A} {l x : A} (h1 : d.ells = some l) (h2 : d.delta = some x) :
    runOps File.empty (deltaOps d) = (.ok (), deltaFile d l x) := by
  have e : deltaOps d = ([.att [] (N .name) (.str d.name)] ++ attIf [] (N .probe_1) d.probe1 ++ attIf [] (N .probe_2) d.probe2) ++
      puts [] (deltaItems d l x) := by
    have hp : ∀ (n : Str) (o : Option A), putIf [n] o = puts [] (optItem n o) := fun n o => putIf_items [] n o
    unfold deltaOps
    simp only [h1, h2, putO, hp]
    simp [puts, deltaItems]
  have ha : runOps (File.empty : File (Val A)) ([.att [] (N .name) (.str d.name)] ++ attIf [] (N .probe_1) d.probe1 ++
      attIf [] (N .probe_2) d.probe2) = (.ok (), { File.empty with attrs := (deltaFile d l x).attrs }) := by
    have e1 : ∀ (n : Str) (o : Option Str), attIf [] n o = (optAttr (A := A) n o).map (fun i => Op.att [] i.1 i.2) := by
      intro n o
      cases o <;> rfl
    have e2 : ([.att [] (N .name) (.str d.name)] ++ attIf [] (N .probe_1) d.probe1 ++ attIf [] (N .probe_2) d.probe2 :
        List (Op (Val A))) = (deltaAttrs d).map (fun i => Op.att [] i.1 i.2) := by
      rw [e1, e1]
      simp [deltaAttrs]
    rw [e2, atts_ok]
    · simp [deltaFile, File.empty]
    · simp [File.empty]
    · unfold deltaAttrs
      cases d.probe1 <;> cases d.probe2 <;> simp [optAttr, N_inj]
  rw [e, runOps_append, ha]
  simp only
  rw [puts_ok]
  · rfl
  · simp [begins]
  · simp [begins]
  · simp [File.empty]
  · simp [File.empty]
  · exact delta_nodup d l x

theorem flat_num {f : File (Val A)} {l : List (Str × Val A)} (h : f.data = top l) {n : Str} {a : A}
    (hl : l.lookup n = some (.num a)) : (view f []).num [n] = .ok a := by
  have : (view f []).data [n] = some (.num a) := by
    simp only [view, List.nil_append, h]
    rw [top_lookup, hl]
  simp [View.num, this]

theorem flat_has {f : File (Val A)} {l : List (Str × Val A)} (h : f.data = top l) (hg : f.groups = []) (n : Str) :
    (view f []).has [n] = (l.lookup n).isSome := by
  rw [Bool.eq_iff_iff, view_has, PyDict.lookup_isSome_iff, h, hg]
  simp [top]

theorem flat_opt {f : File (Val A)} {l : List (Str × Val A)} (h : f.data = top l) (hg : f.groups = []) {n : Str} {o : Option A}
    (hl : l.lookup n = o.map .num) : (view f []).opt [n] = .ok o := by
  unfold View.opt
  rw [flat_has h hg, hl]
  cases o with
  | none => rfl
  | some a => simp [flat_num h (n := n) (a := a) hl]

theorem delta_read {d : DeltaCl A} {l x : A} (h1 : d.ells = some l) (h2 : d.delta = some x) :
    readDelta (view (deltaFile d l x) []) = .ok d := by
  have hd : (deltaFile d l x).data = top (deltaItems d l x) := rfl
  have hg : (deltaFile d l x).groups = [] := rfl
  have ha : ∀ n, (view (deltaFile d l x) []).att [] n = (deltaAttrs d).lookup n := by
    intro n
    simp only [view, deltaFile, List.append_nil]
    exact attr_lookup _ n
  have hname : (view (deltaFile d l x) []).str (N .name) = .ok d.name := by
    simp only [View.str, ha]
    simp [deltaAttrs]
  have hp1 : (view (deltaFile d l x) []).strOpt (N .probe_1) = d.probe1 := by
    simp only [View.strOpt, ha]
    unfold deltaAttrs
    cases d.probe1 <;> cases d.probe2 <;> simp [optAttr, List.lookup_cons, N_beq]
  have hp2 : (view (deltaFile d l x) []).strOpt (N .probe_2) = d.probe2 := by
    simp only [View.strOpt, ha]
    unfold deltaAttrs
    cases d.probe1 <;> cases d.probe2 <;> simp [optAttr, List.lookup_cons, N_beq]
  have e1 := flat_num hd (n := N .deltaC) (a := x) (by simp [deltaItems, List.lookup_cons, N_beq])
  have e2 := flat_num hd (n := N .ells) (a := l) (by simp [deltaItems])
  have e3 := flat_opt hd hg (n := N .cLij) (o := d.c) (by
    unfold deltaItems
    cases d.inv <;> cases d.widths <;> cases d.noise <;> cases d.c <;> simp [optItem, List.lookup_cons, N_beq])
  have e4 := flat_opt hd hg (n := N .noise) (o := d.noise) (by
    unfold deltaItems
    cases d.inv <;> cases d.widths <;> cases d.noise <;> cases d.c <;> simp [optItem, List.lookup_cons, N_beq])
  have e5 := flat_opt hd hg (n := N .widths) (o := d.widths) (by
    unfold deltaItems
    cases d.inv <;> cases d.widths <;> cases d.noise <;> cases d.c <;> simp [optItem, List.lookup_cons, N_beq])
  have e6 := flat_opt hd hg (n := N .invDeltaC) (o := d.inv) (by
    unfold deltaItems
    cases d.inv <;> cases d.widths <;> cases d.noise <;> cases d.c <;> simp [optItem, List.lookup_cons, N_beq])
  unfold readDelta
  simp only [hname, e1, e2, e3, e4, e5, e6, hp1, hp2]
  obtain ⟨a, b, c, dd, e, f, g, i, j⟩ := d
  simp only at h1 h2
  subst h1 h2
  rfl

theorem delta_file {d : DeltaCl A} (h : d.Complete) : ∃ F : File (Val A),
    runOps File.empty (deltaOps d) = (.ok (), F) ∧ readDelta (view F []) = .ok d ∧ Clean F := by
  obtain ⟨l, hl⟩ := Option.isSome_iff_exists.1 h.1
  obtain ⟨x, hx⟩ := Option.isSome_iff_exists.1 h.2
  refine ⟨_, delta_run hl hx, delta_read hl hx, ?_⟩
  have := clean_run (ops := deltaOps d) (clean_empty (V := Val A))
  rwa [delta_run hl hx] at this

end Seyfert.Stored
