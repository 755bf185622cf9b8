import Verif.Lemmas.StoredItems

/-! Files of weight functions and spectra, and many of them in one file. -/

namespace Seyfert.Stored
open H5 (Path File begins)

variable {V A : Type}

def members (f : File V) (b : Path) : List Str := (f.groups ++ f.data.map (·.1)).filterMap (childOf b)

theorem kids_members (f : File V) (b : Path) : kids f b = (members f b).insertionSort nameLe := rfl

/-- The root is neither a group made nor a data set. -/
def Clean (g : File V) : Prop := ([] : Path) ∉ g.groups ∧ ([] : Path) ∉ g.data.map (·.1)

theorem clean_empty : Clean (File.empty : File V) := by simp [Clean, File.empty]

theorem clean_step {f g : File V} {o : Op V} (hf : Clean f) (h : step f o = .ok g) : Clean g := by
  have ht : ∀ p, ([] : Path) ∉ touch f p := by
    intro p hp
    rcases mem_touch.1 hp with h | h
    · exact hf.1 h
    · exact (mem_begins.1 h).1 rfl
  have hm : ∀ p, mkGroup f p = .ok g → Clean g := by
    intro p h
    unfold mkGroup at h
    split at h
    · cases h
    · cases h; exact ⟨ht p, hf.2⟩
  cases o with
  | enter p =>
    simp only [step] at h
    split at h
    · cases h; exact hf
    · exact hm p h
  | group p =>
    simp only [step] at h
    split at h
    · cases h
    · exact hm p h
  | put p v =>
    simp only [step] at h
    split at h
    · cases h
    · rename_i hh
      split at h
      · cases h
      · cases h
        refine ⟨ht _, ?_⟩
        simp only [List.map_append, List.mem_append, List.map_cons, List.map_nil, List.mem_singleton, not_or]
        refine ⟨hf.2, ?_⟩
        rintro rfl
        exact hh (has_iff.2 (Or.inl rfl))
  | att p n v => cases h; exact hf
  | fail e => cases h

theorem clean_run {ops : List (Op V)} : ∀ {f : File V}, Clean f → Clean (runOps f ops).2 := by
  induction ops with
  | nil => intro f hf; exact hf
  | cons o ops ih =>
    intro f hf
    simp only [runOps]
    cases h : step f o with
    | error e => exact hf
    | ok g => exact ih (clean_step hf h)

theorem members_graft {f g : File V} {b : Path} {n : Str} (hf : Fresh f (b ++ [n])) (hg : Clean g) :
    (members (graft f (b ++ [n]) g) b).Perm (n :: members f b) := by
  have e1 : ∀ l : List Path, ([] : Path) ∉ l → (l.map (b ++ [n] ++ ·)).filterMap (childOf b) = [] := by
    intro l hl
    rw [List.filterMap_eq_nil_iff]
    intro q hq
    obtain ⟨a, ha, rfl⟩ := List.mem_map.1 hq
    by_contra hc
    obtain ⟨m, hm⟩ := Option.ne_none_iff_exists'.1 hc
    have := congrArg List.length (childOf_some.1 hm)
    simp only [List.length_append, List.length_cons, List.length_nil] at this
    have : a = [] := List.length_eq_zero_iff.1 (by omega)
    exact hl (this ▸ ha)
  have e2 : ((begins (b ++ [n])).filter (fun q => !f.groups.contains q)).filterMap (childOf b) = [n] := by
    rw [begins_append, List.filter_append, List.filterMap_append]
    have h1 : ((begins b).filter (fun q => !f.groups.contains q)).filterMap (childOf b) = [] := by
      rw [List.filterMap_eq_nil_iff]
      intro q hq
      by_contra hc
      obtain ⟨m, hm⟩ := Option.ne_none_iff_exists'.1 hc
      have := (mem_begins.1 (List.mem_filter.1 hq).1).2.length_le
      rw [childOf_some.1 hm] at this
      simp at this
    have h2 : b ++ [n] ∉ f.groups := by
      have := hf.groups []
      simpa using this
    rw [h1, List.nil_append]
    simp only [begins, List.map_nil, List.map_cons]
    rw [List.filter_cons_of_pos (by simpa using h2), List.filter_nil, List.filterMap_cons_some (childOf_some.2 rfl)]
    rfl
  have e3 : ((g.data.map (fun p => (b ++ [n] ++ p.1, p.2))).map (·.1)).filterMap (childOf b) = [] := by
    have := e1 (g.data.map (·.1)) hg.2
    rw [List.map_map] at this ⊢
    exact this
  unfold members
  simp only [graft, touch, List.map_append, List.filterMap_append, e1 g.groups hg.1, e2, e3, List.append_nil]
  exact List.perm_append_comm.append_right _

theorem nameLe_sort {a b : List Str} (h : a.Perm b) : a.insertionSort nameLe = b.insertionSort nameLe := by
  have : Std.Total nameLe := ⟨fun a b => le_total (a.map Char.toNat) (b.map Char.toNat)⟩
  have : IsTrans Str nameLe := ⟨fun a b c => le_trans (a := a.map Char.toNat)⟩
  have : Std.Antisymm nameLe := ⟨fun a b h1 h2 => by
    have := le_antisymm h1 h2
    exact (List.map_injective_iff.2 (fun x y h => Char.toNat_inj.1 h)) this⟩
  exact ((List.perm_insertionSort _ a).trans (h.trans (List.perm_insertionSort _ b).symm)).eq_of_pairwise'
    (List.pairwise_insertionSort _ a) (List.pairwise_insertionSort _ b)

theorem view_has {f : File V} {r p : Path} :
    (view f r).has p = true ↔ r ++ p = [] ∨ r ++ p ∈ f.groups ∨ r ++ p ∈ f.data.map (·.1) := has_iff

theorem view_sub (f : File V) (r p : Path) : (view f r).sub p = view f (r ++ p) := by
  apply View.ext' <;> funext <;> simp [view, View.sub, List.append_assoc]

theorem fresh_top {f : File V} {n : Str} (h1 : ∀ q ∈ f.groups, q.head? ≠ some n)
    (h2 : ∀ i ∈ f.data, i.1.head? ≠ some n) (h3 : ∀ i ∈ f.attrs, i.1.1.head? ≠ some n) (h4 : Clean f) : Fresh f [n] where
  ne := by simp
  groups q hq := h1 _ hq (by simp)
  data q hq := by
    obtain ⟨i, hi, he⟩ := List.mem_map.1 hq
    exact h2 i hi (by rw [he]; simp)
  attrs q m hq := by
    obtain ⟨i, hi, he⟩ := List.mem_map.1 hq
    exact h3 i hi (by rw [he]; simp)
  way q hq := by
    intro hd
    cases q with
    | nil => exact h4.2 hd
    | cons c q =>
      obtain ⟨i, hi, he⟩ := List.mem_map.1 hd
      exact h2 i hi (by rw [he, (List.cons_prefix_cons.1 hq).1]; simp)

/-! ### Weight functions -/

/-- `saveWeight` without opening the file. -/
def weightOps (w : Weight A) : List (Op (Val A)) :=
  [.att [] (N .probe) (.str w.probe)] ++ putIf [N .zGrid] w.grid ++ putIf [N .wBinZ] w.w ++
  match w.dens with
  | none => []
  | some d => saveDens [N .density] d

theorem saveWeight_shift (r : Path) (w : Weight A) : saveWeight r w = .enter r :: (weightOps w).map (shift r) := by
  unfold saveWeight weightOps
  cases w.dens with
  | none => simp [shift_putIf]
  | some d =>
    simp only [saveDens, List.map_append, List.map_cons, List.map_nil, shift_putIf]
    rw [densOps_shift (r ++ [N .density]), densOps_shift [N .density], List.map_map]
    have : (shift r ∘ shift [N .density] : Op (Val A) → _) = shift (r ++ [N .density]) := by
      funext o
      cases o <;> simp
    rw [this]
    simp

def weightItems (w : Weight A) : List (Str × Val A) := optItem (N .zGrid) w.grid ++ optItem (N .wBinZ) w.w

def weightTop (w : Weight A) : File (Val A) :=
  { groups := [], attrs := [(([], N .probe), .str w.probe)], data := top (weightItems w) }

theorem weightTop_run (w : Weight A) (ops : List (Op (Val A))) :
    runOps File.empty ([.att [] (N .probe) (.str w.probe)] ++ putIf [N .zGrid] w.grid ++ putIf [N .wBinZ] w.w ++ ops)
      = runOps (weightTop w) ops := by
  have e : [Op.att [] (N .probe) (.str w.probe)] ++ putIf [N .zGrid] w.grid ++ putIf [N .wBinZ] w.w ++ ops
      = .att [] (N .probe) (.str w.probe) :: (puts [] (weightItems w) ++ ops) := by
    have h1 := putIf_items [] (N .zGrid) w.grid
    have h2 := putIf_items [] (N .wBinZ) w.w
    rw [List.nil_append] at h1 h2
    rw [h1, h2]
    simp [puts, weightItems]
  rw [e, runOps_cons_ok (g := (File.empty : File (Val A)).setAttr [] (N .probe) (.str w.probe)) rfl, runOps_append, puts_ok]
  · rfl
  · simp [begins]
  · simp [begins]
  · simp [File.setAttr, File.empty]
  · simp [File.setAttr, File.empty]
  · unfold weightItems
    cases w.grid <;> cases w.w <;> simp [optItem, N_inj]

theorem weightTop_lookup (w : Weight A) (n : Str) : (view (weightTop w) []).data [n] = (weightItems w).lookup n := by
  simp only [view, weightTop, List.nil_append]
  exact top_lookup _ n

theorem weightTop_fresh (w : Weight A) : Fresh (weightTop w) [N .density] := by
  apply fresh_top
  · simp [weightTop]
  · intro i hi
    simp only [weightTop, top, weightItems, List.mem_map] at hi
    obtain ⟨j, hj, rfl⟩ := hi
    cases hg : w.grid <;> cases hw : w.w <;> simp [hg, hw, optItem] at hj
    · subst hj; simp [N_inj]
    · subst hj; simp [N_inj]
    · rcases hj with rfl | rfl <;> simp [N_inj]
  · simp [weightTop]
  · constructor
    · simp [weightTop]
    · simp [weightTop, top]

/-- The reading of a weight function but for its density. -/
theorem readWeight_of {v : View (Val A)} {w : Weight A} (hp : w.probe ∈ probes)
    (h1 : v.att [] (N .probe) = some (.str w.probe)) (h2 : ∀ n, n = N .zGrid ∨ n = N .wBinZ → v.data [n] = (weightItems w).lookup n) :
    readWeight v = if v.has [N .density] then (match readDens (v.sub [N .density]) with
        | .ok d => .ok { w with w := if w.grid.isSome then w.w else none, dens := some d }
        | .error e => .error e)
      else .ok { w with w := if w.grid.isSome then w.w else none, dens := none } := by
  unfold readWeight
  simp only [View.str, h1, hp, if_true, View.field, h2 _ (Or.inl rfl), h2 _ (Or.inr rfl)]
  obtain ⟨p, g, w, d⟩ := w
  cases readDens (v.sub [N .density]) <;> cases g <;> cases w <;> simp [weightItems, optItem, List.lookup_cons, N_beq]

theorem weight_file {w : Weight A} (h : w.Complete) : ∃ g : File (Val A),
    runOps File.empty (weightOps w) = (.ok (), g) ∧ readWeight (view g []) = .ok w.kept ∧ Clean g ∧
      ∀ q ∈ g.groups, q.getLast? = some (N .density) ∨ q.getLast? = some (N .response) := by
  obtain ⟨hp, hd⟩ := h
  cases hw : w.dens with
  | none =>
    have hr : runOps File.empty (weightOps w) = (.ok (), weightTop w) := by
      unfold weightOps
      rw [hw, weightTop_run]
      rfl
    have hh : (view (weightTop w) []).has [N .density] = false := by
      rw [Bool.eq_false_iff]
      intro hc
      have hf := weightTop_fresh w
      rcases view_has.1 hc with h | h | h
      · simp at h
      · exact hf.groups [] (by simpa using h)
      · exact hf.data [] (by simpa using h)
    refine ⟨weightTop w, hr, ?_, ?_, by simp [weightTop]⟩
    · rw [readWeight_of hp (by simp [view, weightTop]) (fun n _ => weightTop_lookup w n), hh]
      simp [Weight.kept, hw]
    · have := clean_run (ops := weightOps w) (clean_empty (V := Val A))
      rwa [hr] at this
  | some d =>
    obtain ⟨g, h1, h2, h3, _⟩ := dens_file (hd d hw)
    have hf := weightTop_fresh w
    have hr : runOps File.empty (weightOps w) = (.ok (), graft (weightTop w) [N .density] g) := by
      unfold weightOps
      rw [hw, weightTop_run]
      simp only [saveDens]
      rw [densOps_shift, save_graft hf, h1]
    have hv := view_graft (g := g) hf
    refine ⟨_, hr, ?_, ?_, ?_⟩
    · rw [readWeight_of (w := w) hp]
      · have hh : (view (graft (weightTop w) [N .density] g) []).has [N .density] = true := by
          have := graft_has (g := g) hf []
          simp only [view, List.nil_append]
          simpa [File.has] using this
        rw [hh, view_sub, List.nil_append, hv, h2]
        simp [Weight.kept, hw]
      · simp [view, graft, weightTop]
      · intro n hn
        rw [← weightTop_lookup]
        simp only [view, graft, List.nil_append]
        apply lookup_append_left
        intro hm
        simp only [List.map_map, List.mem_map, Function.comp, List.singleton_append, List.cons.injEq] at hm
        obtain ⟨a, _, ha, _⟩ := hm
        rcases hn with rfl | rfl <;> simp [N_inj] at ha
    · have := clean_run (ops := weightOps w) (clean_empty (V := Val A))
      rwa [hr] at this
    · intro q hq
      simp only [graft, weightTop, List.mem_append, mem_touch, begins, List.map_nil, List.mem_singleton, List.mem_map,
        List.not_mem_nil, false_or] at hq
      rcases hq with rfl | ⟨a, ha, rfl⟩
      · left; rfl
      · right; rw [h3 a ha]; rfl

/-! ### Spectra -/

def kernOps (k : Kern A) : List (Op (Val A)) :=
  [.att [] (N .probe1) (.str k.p1), .att [] (N .probe2) (.str k.p2), putO [N .zGrid] k.grid, putO [N .kIjz] k.k]

theorem saveKern_shift (r : Path) (k : Kern A) : saveKern r k = .enter r :: (kernOps k).map (shift r) := by
  simp [saveKern, kernOps, shift_putO]

def kernFile (k : Kern A) (g x : A) : File (Val A) :=
  { groups := [], attrs := [(([], N .probe1), .str k.p1), (([], N .probe2), .str k.p2)],
    data := top [(N .zGrid, .num g), (N .kIjz, .num x)] }

theorem kern_run {k : Kern A} {g x : A} (h1 : k.grid = some g) (h2 : k.k = some x) :
    runOps File.empty (kernOps k) = (.ok (), kernFile k g x) := by
  have e : kernOps k = .att [] (N .probe1) (.str k.p1) :: .att [] (N .probe2) (.str k.p2) ::
      puts [] [(N .zGrid, .num g), (N .kIjz, .num x)] := by
    simp [kernOps, h1, h2, putO, puts]
  have hne : N .probe1 ≠ N .probe2 := by simp [N_inj]
  rw [e, runOps_cons_ok (g := (File.empty : File (Val A)).setAttr [] (N .probe1) (.str k.p1)) rfl,
    runOps_cons_ok (g := ((File.empty : File (Val A)).setAttr [] (N .probe1) (.str k.p1)).setAttr [] (N .probe2) (.str k.p2)) rfl,
    puts_ok]
  · simp [kernFile, File.setAttr, File.empty, PyDict.set, hne, top]
  · simp [begins]
  · simp [begins]
  · simp [File.setAttr, File.empty]
  · simp [File.setAttr, File.empty]
  · simp [N_inj]

theorem kern_read (k : Kern A) (g x : A) :
    readKern (view (kernFile k g x) []) = .ok { p1 := k.p1, p2 := k.p2, grid := some g, k := some x } := by
  have hl : ∀ n, (view (kernFile k g x) []).data [n] = [(N .zGrid, Val.num g), (N .kIjz, .num x)].lookup n := by
    intro n
    simp only [view, kernFile, List.nil_append]
    exact top_lookup _ n
  have ha : (view (kernFile k g x) []).att [] (N .probe1) = some (.str k.p1) := by
    simp [view, kernFile]
  have hb : (view (kernFile k g x) []).att [] (N .probe2) = some (.str k.p2) := by
    simp only [view, kernFile, List.nil_append]
    rw [List.lookup_cons]
    have : ((([] : Path), N .probe2) == (([] : Path), N .probe1)) = false := by
      rw [Bool.eq_false_iff]
      intro h
      have := congrArg Prod.snd (eq_of_beq h)
      simp [N_inj] at this
    rw [this]
    simp
  unfold readKern
  simp only [View.str, ha, hb, View.num, hl]
  simp [List.lookup_cons, N_beq]

/-- The calls that write a spectrum, from its own group. -/
def clOps (c : Cl A) (k : Kern A) : List (Op (Val A)) :=
  [putO [N .cLij] c.c, putO [N .ells] c.ells] ++ putIf [N .widths] c.widths ++ saveKern [N .kernel] k

def clItems (c : Cl A) (x l : A) : List (Str × Val A) :=
  [(N .cLij, .num x), (N .ells, .num l)] ++ optItem (N .widths) c.widths

def clTop (c : Cl A) (x l : A) : File (Val A) := { groups := [], attrs := [], data := top (clItems c x l) }

theorem clTop_fresh (c : Cl A) (x l : A) : Fresh (clTop c x l) [N .kernel] := by
  apply fresh_top
  · simp [clTop]
  · intro i hi
    simp only [clTop, top, clItems, List.mem_map] at hi
    obtain ⟨j, hj, rfl⟩ := hi
    cases hg : c.widths <;> simp [hg, optItem] at hj
    · rcases hj with rfl | rfl <;> simp [N_inj]
    · rcases hj with rfl | rfl | rfl <;> simp [N_inj]
  · simp [clTop]
  · constructor
    · simp [clTop]
    · simp [clTop, top]

theorem cl_file {c : Cl A} {k : Kern A} {x l g y : A} (h1 : c.c = some x) (h2 : c.ells = some l)
    (h3 : k.grid = some g) (h4 : k.k = some y) : ∃ F : File (Val A),
    runOps File.empty (clOps c k) = (.ok (), F) ∧ (view F []).num [N .cLij] = .ok x ∧ (view F []).num [N .ells] = .ok l ∧
      (view F []).opt [N .widths] = .ok c.widths ∧ (view F []).has [N .kernel] = true ∧
      readKern ((view F []).sub [N .kernel]) = .ok { p1 := k.p1, p2 := k.p2, grid := some g, k := some y } ∧
      Clean F ∧ ∀ q ∈ F.groups, q = [N .kernel] := by
  have hf := clTop_fresh c x l
  have hr : runOps File.empty (clOps c k) = (.ok (), graft (clTop c x l) [N .kernel] (kernFile k g y)) := by
    have e : clOps c k = puts [] (clItems c x l) ++ saveKern [N .kernel] k := by
      have h := putIf_items [] (N .widths) c.widths
      rw [List.nil_append] at h
      unfold clOps
      rw [h, h1, h2]
      simp [puts, clItems, putO]
    rw [e, runOps_append, puts_ok]
    · simp only [saveKern_shift]
      have : ({ File.empty with data := (File.empty : File (Val A)).data ++ (clItems c x l).map (fun i => ([] ++ [i.1], i.2)) } : File (Val A))
          = clTop c x l := rfl
      rw [this, save_graft hf, kern_run h3 h4]
    · simp [begins]
    · simp [begins]
    · simp [File.empty]
    · simp [File.empty]
    · unfold clItems
      cases c.widths <;> simp [optItem, N_inj]
  have hl : ∀ n, n ≠ N .kernel →
      (view (graft (clTop c x l) [N .kernel] (kernFile k g y)) []).data [n] = (clItems c x l).lookup n := by
    intro n hn
    rw [← top_lookup]
    simp only [view, graft, List.nil_append, clTop]
    apply lookup_append_left
    intro hm
    simp only [List.map_map, List.mem_map, Function.comp, List.singleton_append, List.cons.injEq] at hm
    obtain ⟨a, _, ha, _⟩ := hm
    exact hn ha.symm
  have hw : N .widths ≠ N .kernel := by simp [N_inj]
  refine ⟨_, hr, ?_, ?_, ?_, ?_, ?_, ?_, ?_⟩
  · simp only [View.num, hl (N .cLij) (by simp [N_inj])]
    simp [clItems]
  · simp only [View.num, hl (N .ells) (by simp [N_inj])]
    simp [clItems, List.lookup_cons, N_beq]
  · unfold View.opt
    cases hc : c.widths with
    | none =>
      have : (view (graft (clTop c x l) [N .kernel] (kernFile k g y)) []).has [N .widths] = false := by
        rw [Bool.eq_false_iff]
        intro h
        have hm := view_has.1 h
        simp only [List.nil_append] at hm
        rcases hm with h | h | h
        · simp at h
        · simp [graft, clTop, mem_touch, begins, kernFile, hw] at h
        · simp [graft, clTop, kernFile, top, clItems, hc, optItem, N_inj] at h
      rw [this]; rfl
    | some b =>
      have hd : (view (graft (clTop c x l) [N .kernel] (kernFile k g y)) []).data [N .widths] = some (.num b) := by
        rw [hl _ hw]
        simp [clItems, hc, optItem, List.lookup_cons, N_beq]
      have : (view (graft (clTop c x l) [N .kernel] (kernFile k g y)) []).has [N .widths] = true := by
        apply view_has.2
        right; right
        exact (PyDict.lookup_isSome_iff _ _).1 (by
          have h := hd
          simp only [view] at h
          rw [h]; rfl)
      rw [this]
      simp [View.num, hd]
  · have := graft_has (g := kernFile k g y) hf []
    simp only [view, List.nil_append]
    simpa [File.has] using this
  · rw [view_sub, List.nil_append, view_graft hf, kern_read]
  · have := clean_run (ops := clOps c k) (clean_empty (V := Val A))
    rwa [hr] at this
  · intro q hq
    simpa [graft, clTop, mem_touch, begins, kernFile] using hq

end Seyfert.Stored
