import Verif.Lemmas.Stored
import Verif.Spec.Stored
import Verif.Lemmas.PyStr

/-! The files single objects make of their own. -/

namespace Seyfert.Stored
open H5 (Path File begins)

variable {V A : Type}

def optItem (n : Str) : Option A → List (Str × Val A)
  | none => []
  | some a => [(n, .num a)]

theorem putIf_items (p : Path) (n : Str) (o : Option A) : putIf (p ++ [n]) o = puts p (optItem n o) := by
  cases o <;> rfl

theorem shift_putO (r p : Path) (o : Option A) : shift r (putO p o) = putO (r ++ p) o := by
  cases o <;> rfl

theorem shift_putIf (r p : Path) (o : Option A) : (putIf p o).map (shift r) = putIf (r ++ p) o := by
  cases o <;> rfl

@[simp] theorem shift_enter (r p : Path) : shift r (.enter p : Op V) = .enter (r ++ p) := rfl
@[simp] theorem shift_group (r p : Path) : shift r (.group p : Op V) = .group (r ++ p) := rfl
@[simp] theorem shift_put (r p : Path) (v : V) : shift r (.put p v) = .put (r ++ p) v := rfl
@[simp] theorem shift_att (r p : Path) (n : Str) (v : V) : shift r (.att p n v) = .att (r ++ p) n v := rfl
@[simp] theorem shift_fail (r : Path) (e : Err) : shift r (.fail e : Op V) = .fail e := rfl

theorem densOps_shift (r : Path) (d : Dens A) : densOps r d = (densOps [] d).map (shift r) := by
  unfold densOps
  rcases h : d.fromInput with _ | _ | _ <;>
    simp [shift_putO, shift_putIf, List.map_map, Function.comp_def]

theorem N_beq (a b : Fld) : (N a == N b) = decide (a = b) := by
  rw [Bool.eq_iff_iff, beq_iff_eq, N_inj, decide_eq_true_iff]

/-- The data sets directly in the group of a density, before and after the table of the response. -/
def densItems1 (d : Dens A) (b : Bool) (dom ed fs : A) (x : Str × Val A) : List (Str × Val A) :=
  [(N .hasNiz, .flag b), (N .zDomain, .num dom), (N .zEdges, .num ed), (N .fSky, .num fs)] ++
    optItem (N .surface) d.surface ++ [x]

def densItems2 (d : Dens A) : List (Str × Val A) := optItem (N .zGrid) d.grid ++ optItem (N .normDensity) d.norm

def top (l : List (Str × Val A)) : Dict Path (Val A) := l.map (fun i => ([] ++ [i.1], i.2))

def densFile (d : Dens A) (b : Bool) (dom ed fs t : A) : File (Val A) :=
  if b then
    { groups := [], attrs := [(([], N .probe), .str d.probe)],
      data := top (densItems1 d b dom ed fs (N .nIz, .num t) ++ densItems2 d) }
  else
    { groups := [[N .response]], attrs := [(([], N .probe), .str d.probe)],
      data := top (densItems1 d b dom ed fs (N .dN, .num t)) ++
        d.response.map (fun i => ([N .response] ++ [i.1], .num i.2)) ++ top (densItems2 d) }

theorem runOps_cons_ok {f g : File V} {o : Op V} (h : step f o = .ok g) (ops : List (Op V)) :
    runOps f (o :: ops) = runOps g ops := by
  simp only [runOps, h]

theorem items1_nodup (d : Dens A) (b : Bool) (dom ed fs : A) (x : Fld) (v : Val A) (hx : x = .nIz ∨ x = .dN) :
    ((densItems1 d b dom ed fs (N x, v) ++ densItems2 d).map (·.1)).Nodup := by
  unfold densItems1 densItems2
  rcases hx with rfl | rfl <;> cases d.surface <;> cases d.grid <;> cases d.norm <;> simp [optItem, N_inj]

theorem save_dens_true (d : Dens A) (dom ed fs t : A) (h1 : d.fromInput = some true) (h2 : d.domain = some dom)
    (h3 : d.edges = some ed) (h4 : d.fSky = some fs) (h5 : d.nIz = some t) :
    runOps File.empty (densOps [] d) = (.ok (), densFile d true dom ed fs t) := by
  have e : densOps [] d = .att [] (N .probe) (.str d.probe) ::
      puts [] (densItems1 d true dom ed fs (N .nIz, .num t) ++ densItems2 d) := by
    unfold densOps
    simp only [h1, h2, h3, h4, h5, putO, if_true, putIf_items]
    simp [puts, densItems1, densItems2]
  rw [e, runOps_cons_ok (g := (File.empty : File (Val A)).setAttr [] (N .probe) (.str d.probe)) rfl, puts_ok]
  · rfl
  · simp [begins]
  · simp [begins]
  · simp [File.setAttr, File.empty]
  · simp [File.setAttr, File.empty]
  · exact items1_nodup d true dom ed fs .nIz _ (Or.inl rfl)

theorem save_dens_false (d : Dens A) (dom ed fs t : A) (h1 : d.fromInput = some false) (h2 : d.domain = some dom)
    (h3 : d.edges = some ed) (h4 : d.fSky = some fs) (h5 : d.dN = some t) (h6 : (d.response.map (·.1)).Nodup) :
    runOps File.empty (densOps [] d) = (.ok (), densFile d false dom ed fs t) := by
  have e : densOps [] d = .att [] (N .probe) (.str d.probe) ::
      (puts [] (densItems1 d false dom ed fs (N .dN, .num t)) ++ (.group [N .response] ::
        (puts [N .response] (d.response.map (fun i => (i.1, .num i.2))) ++ puts [] (densItems2 d)))) := by
    unfold densOps
    simp only [h1, h2, h3, h4, h5, putO, putIf_items]
    simp [puts, densItems1, densItems2]
  have hn := items1_nodup d false dom ed fs .dN (.num t) (Or.inr rfl)
  rw [List.map_append, List.nodup_append] at hn
  have hr : ∀ i ∈ densItems1 d false dom ed fs (N .dN, .num t) ++ densItems2 d, i.1 ≠ N .response := by
    unfold densItems1 densItems2
    cases d.surface <;> cases d.grid <;> cases d.norm <;> simp [optItem, N_inj]
  rw [e, runOps_cons_ok (g := (File.empty : File (Val A)).setAttr [] (N .probe) (.str d.probe)) rfl, runOps_append, puts_ok]
  rotate_left
  · simp [begins]
  · simp [begins]
  · simp [File.setAttr, File.empty]
  · simp [File.setAttr, File.empty]
  · exact hn.1
  simp only
  have hg : ∀ (f : File (Val A)), f.groups = [] → f.data = top (densItems1 d false dom ed fs (N .dN, .num t)) →
      step f (.group [N .response]) = .ok { f with groups := [[N .response]] } := by
    intro f hf1 hf2
    have hh : [N .response] ∉ f.data.map (·.1) := by
      rw [hf2]
      intro hm
      simp only [top, List.map_map, List.mem_map, Function.comp, List.nil_append, List.cons.injEq, and_true] at hm
      obtain ⟨i, hi, he⟩ := hm
      exact hr i (List.mem_append_left _ hi) he
    have a1 : f.has [N .response] = false := by
      rw [Bool.eq_false_iff]
      intro hc
      rcases has_iff.1 hc with h | h | h
      · simp at h
      · rw [hf1] at h; simp at h
      · exact hh h
    have a2 : isData f [N .response] = false := by
      rw [Bool.eq_false_iff]; exact fun hc => hh (isData_iff.1 hc)
    simp [step, a1, mkGroup, begins, a2, touch, hf1]
  rw [runOps_cons_ok (hg _ rfl rfl), runOps_append, puts_ok]
  rotate_left
  · simp [begins]
  · intro q hq
    simp only [begins, List.map_nil, List.mem_singleton] at hq
    subst hq
    intro hm
    simp only [File.setAttr, File.empty, List.nil_append, List.map_map, List.mem_map, Function.comp, List.cons.injEq,
      and_true] at hm
    obtain ⟨i, hi, he⟩ := hm
    exact hr i (List.mem_append_left _ hi) he
  · simp
  · intro i _ hm
    simp only [File.setAttr, File.empty, List.nil_append, List.map_map, List.mem_map, Function.comp] at hm
    obtain ⟨j, hj, he⟩ := hm
    simp at he
  · rw [List.map_map]; exact h6
  simp only
  rw [puts_ok]
  · simp only [densFile, File.setAttr, File.empty, top, List.map_map, Function.comp_def, List.nil_append,
      Bool.false_eq_true, if_false, PyDict.set]
  · simp [begins]
  · simp [begins]
  · intro i hi hm
    simp only [List.nil_append, List.mem_singleton, List.cons.injEq, and_true] at hm
    exact hr i (List.mem_append_right _ hi) hm
  · intro i hi hm
    simp only [File.setAttr, File.empty, List.nil_append, List.map_map, List.map_append, List.mem_append, List.mem_map,
      Function.comp] at hm
    rcases hm with ⟨j, hj, he⟩ | ⟨j, hj, he⟩
    · simp only [List.cons.injEq, and_true] at he
      exact hn.2.2 _ (List.mem_map_of_mem hj) _ (List.mem_map_of_mem hi) he
    · simp at he
  · exact hn.2.1

theorem top_lookup (l : List (Str × Val A)) (n : Str) : (top l).lookup [n] = l.lookup n := by
  have := lookup_map_inj (fun n : Str => ([n] : Path)) (fun a b h => by simpa using h) l n
  exact this

theorem top_lookup_ne (l : List (Str × Val A)) (p : Path) (h : p.length ≠ 1) : (top l).lookup p = none := by
  rw [PyDict.lookup_none_iff]
  intro hm
  simp only [top, List.map_map, List.mem_map, Function.comp] at hm
  obtain ⟨i, _, rfl⟩ := hm
  simp at h

theorem top_kids (l : List (Str × Val A)) (p : Path) (h : p ≠ []) :
    ((top l).map (·.1)).filterMap (childOf p) = [] := by
  rw [List.filterMap_eq_nil_iff]
  intro q hq
  by_contra hn
  obtain ⟨n, hn⟩ := Option.ne_none_iff_exists'.1 hn
  have := childOf_some.1 hn
  simp only [top, List.map_map, List.mem_map, Function.comp] at hq
  obtain ⟨i, _, rfl⟩ := hq
  have := congrArg List.length this
  simp at this
  exact h this

theorem read_dens_true (d : Dens A) (dom ed fs t : A) (h1 : d.fromInput = some true) (h2 : d.domain = some dom)
    (h3 : d.edges = some ed) (h4 : d.fSky = some fs) (h5 : d.nIz = some t) :
    readDens (view (densFile d true dom ed fs t) []) = .ok d.kept := by
  have hl : ∀ n, (view (densFile d true dom ed fs t) []).data [n]
      = (densItems1 d true dom ed fs (N .nIz, .num t) ++ densItems2 d).lookup n := by
    intro n
    exact top_lookup _ n
  have hp : (view (densFile d true dom ed fs t) []).str (N .probe) = .ok d.probe := by
    simp [View.str, view, densFile]
  unfold readDens
  rw [hp]
  simp only [View.field, hl]
  obtain ⟨p, fi, dm, e', fk, su, ni, dn, re, gr, no⟩ := d
  simp only at h1 h2 h3 h4 h5
  subst h1 h2 h3 h4 h5
  cases su <;> cases gr <;> cases no <;>
    simp [densItems1, densItems2, optItem, Dens.kept, List.lookup_cons, N_beq]

theorem readDict_ok {A B : Type} (l : List (Str × A)) (g : Str → Except Err B) (φ : A → B)
    (h : ∀ i ∈ l, g i.1 = .ok (φ i.2)) : readDict g (l.map (·.1)) = .ok (l.map (fun i => (i.1, φ i.2))) := by
  induction l with
  | nil => rfl
  | cons i l ih =>
    rw [List.map_cons, readDict, h i (by simp), ih (fun j hj => h j (by simp [hj]))]
    rfl

theorem sort_names {A : Type} (l : List (Str × A)) :
    (l.map (·.1)).insertionSort nameLe = (l.insertionSort (fun a b => nameLe a.1 b.1)).map (·.1) :=
  (List.map_insertionSort (fun a b : Str × A => nameLe a.1 b.1) nameLe (·.1) l (fun _ _ _ _ => Iff.rfl)).symm

theorem read_dens_false (d : Dens A) (dom ed fs t : A) (h1 : d.fromInput = some false) (h2 : d.domain = some dom)
    (h3 : d.edges = some ed) (h4 : d.fSky = some fs) (h5 : d.dN = some t) (h6 : (d.response.map (·.1)).Nodup) :
    readDens (view (densFile d false dom ed fs t) []) = .ok d.kept := by
  have hl : ∀ n, (view (densFile d false dom ed fs t) []).data [n]
      = (densItems1 d false dom ed fs (N .dN, .num t) ++ densItems2 d).lookup n := by
    intro n
    simp only [view, densFile, Bool.false_eq_true, if_false, List.nil_append]
    rw [List.lookup_append, List.lookup_append, top_lookup, top_lookup, (PyDict.lookup_none_iff _ [n]).2, Option.or_none,
      List.lookup_append]
    intro hm
    simp at hm
  have hr : ∀ i ∈ d.response, (view (densFile d false dom ed fs t) []).num [N .response, i.1] = .ok i.2 := by
    intro i hi
    have : (view (densFile d false dom ed fs t) []).data [N .response, i.1] = some (.num i.2) := by
      simp only [view, densFile, Bool.false_eq_true, if_false, List.nil_append]
      rw [List.lookup_append, List.lookup_append, top_lookup_ne _ _ (by simp), top_lookup_ne _ _ (by simp), Option.none_or,
        Option.or_none]
      apply PyDict.lookup_of_mem (p := ([N .response, i.1], Val.num i.2))
      · rw [List.map_map]
        have := h6.map (f := fun n : Str => ([N .response] ++ [n] : Path)) (fun a b h => by simpa using h)
        rw [List.map_map] at this
        exact this
      · exact List.mem_map.2 ⟨i, hi, rfl⟩
    simp [View.num, this]
  have hk : (view (densFile d false dom ed fs t) []).kids [N .response] = (byName d.response).map (·.1) := by
    simp only [view, kids, densFile, Bool.false_eq_true, if_false, List.nil_append]
    unfold byName
    rw [← sort_names]
    congr 1
    simp only [List.map_append, List.filterMap_append, top_kids _ [N .response] (by simp), List.append_nil,
      List.nil_append]
    have e0 : List.filterMap (childOf [N .response]) [[N .response]] = [] := by simp [childOf]
    rw [e0, List.nil_append, List.map_map, List.filterMap_map]
    have : (childOf [N .response] ∘ (fun x : Path × Val A => x.1) ∘ fun i : Str × A => ([N .response] ++ [i.1], Val.num i.2))
        = fun i => some i.1 := by
      funext i
      exact childOf_some.2 rfl
    rw [this, List.filterMap_eq_map']
  have hh : (view (densFile d false dom ed fs t) []).has [N .response] = true := by
    simp only [view, densFile]
    exact has_iff.2 (by simp)
  have hp : (view (densFile d false dom ed fs t) []).str (N .probe) = .ok d.probe := by
    simp [View.str, view, densFile]
  have hm := readDict_ok (byName d.response) (fun n => (view (densFile d false dom ed fs t) []).num [N .response, n]) id
    (by
      intro i hi
      exact hr i ((List.mem_insertionSort _).1 hi))
  rw [show (byName d.response).map (fun i => (i.1, id i.2)) = byName d.response by simp] at hm
  unfold readDens
  rw [hp]
  simp only [View.field, hl, hh, if_true, hk]
  rw [hm]
  obtain ⟨p, fi, dm, e', fk, su, ni, dn, re, gr, no⟩ := d
  simp only at h1 h2 h3 h4 h5
  subst h1 h2 h3 h4 h5
  cases su <;> cases gr <;> cases no <;>
    simp [densItems1, densItems2, optItem, Dens.kept, List.lookup_cons, N_beq]

/-- The file a density makes of its own. -/
theorem dens_file {d : Dens A} (h : d.Complete) : ∃ g : File (Val A),
    runOps File.empty (densOps [] d) = (.ok (), g) ∧ readDens (view g []) = .ok d.kept ∧
      (∀ q ∈ g.groups, q = [N .response]) ∧ [N .hasNiz] ∈ g.data.map (·.1) := by
  obtain ⟨h1, h2, h3, h4, h5, h6⟩ := h
  obtain ⟨b, hb⟩ := Option.isSome_iff_exists.1 h1
  obtain ⟨dom, hd⟩ := Option.isSome_iff_exists.1 h2
  obtain ⟨ed, he⟩ := Option.isSome_iff_exists.1 h3
  obtain ⟨fs, hf⟩ := Option.isSome_iff_exists.1 h4
  cases b with
  | true =>
    obtain ⟨t, ht⟩ := Option.isSome_iff_exists.1 (h5 hb)
    exact ⟨_, save_dens_true d dom ed fs t hb hd he hf ht, read_dens_true d dom ed fs t hb hd he hf ht,
      by simp [densFile], by simp [densFile, densItems1, top]⟩
  | false =>
    obtain ⟨h7, h8⟩ := h6 (by simp [hb])
    obtain ⟨t, ht⟩ := Option.isSome_iff_exists.1 h7
    exact ⟨_, save_dens_false d dom ed fs t hb hd he hf ht h8, read_dens_false d dom ed fs t hb hd he hf ht h8,
      by simp [densFile], by simp [densFile, densItems1, top]⟩

end Seyfert.Stored
