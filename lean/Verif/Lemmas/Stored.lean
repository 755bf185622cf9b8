import Verif.Model.Stored
import Verif.Lemmas.PyDict
import Mathlib.Tactic

/-! A subtree of a file under a new path behaves like a file of its own. -/

namespace Seyfert.Stored
open H5 (Path File begins)

variable {V A : Type}

theorem N_inj {a b : Fld} : N a = N b ↔ a = b := by
  constructor
  · have h : ∀ a b : Fld, N a = N b → a = b := by
      intro a b
      cases a <;> cases b <;> first | (intro _; rfl) | (intro h; revert h; decide)
    exact h a b
  · rintro rfl; rfl

theorem mem_begins {p q : Path} : q ∈ begins p ↔ q ≠ [] ∧ q <+: p := by
  induction p generalizing q with
  | nil => simp [begins]
  | cons c p ih =>
    simp only [begins, List.mem_cons, List.mem_map]
    constructor
    · rintro (rfl | ⟨a, ha, rfl⟩)
      · simp
      · exact ⟨by simp, by simpa using (ih.1 ha).2⟩
    · rintro ⟨h1, h2⟩
      cases q with
      | nil => exact absurd rfl h1
      | cons d q =>
        obtain ⟨rfl, h3⟩ := List.cons_prefix_cons.1 h2
        by_cases hq : q = []
        · subst hq; exact Or.inl rfl
        · exact Or.inr ⟨q, ih.2 ⟨hq, h3⟩, rfl⟩

theorem begins_append (r q : Path) : begins (r ++ q) = begins r ++ (begins q).map (r ++ ·) := by
  induction r with
  | nil => simp [begins]
  | cons c r ih => simp [begins, ih, List.map_map, Function.comp_def]

def shift (r : Path) : Op V → Op V
  | .enter p => .enter (r ++ p)
  | .group p => .group (r ++ p)
  | .put p v => .put (r ++ p) v
  | .att p n v => .att (r ++ p) n v
  | .fail e => .fail e

/-- The file `g` hung into `f` at `r`. -/
def graft (f : File V) (r : Path) (g : File V) : File V where
  groups := touch f r ++ g.groups.map (r ++ ·)
  data := f.data ++ g.data.map (fun p => (r ++ p.1, p.2))
  attrs := f.attrs ++ g.attrs.map (fun p => ((r ++ p.1.1, p.1.2), p.2))

/-- Nothing is at or below the path. -/
structure Fresh (f : File V) (r : Path) : Prop where
  ne : r ≠ []
  groups : ∀ q, r ++ q ∉ f.groups
  data : ∀ q, r ++ q ∉ f.data.map (·.1)
  attrs : ∀ q n, (r ++ q, n) ∉ f.attrs.map (·.1)
  way : ∀ q, q <+: r → q ∉ f.data.map (·.1)

/-- No data set has the path `/`. -/
def NoRoot (g : File V) : Prop := ([] : Path) ∉ g.data.map (·.1)

theorem has_iff {f : File V} {p : Path} : f.has p = true ↔ p = [] ∨ p ∈ f.groups ∨ p ∈ f.data.map (·.1) := by
  simp [File.has, List.isEmpty_iff, or_assoc]

theorem isData_iff {f : File V} {p : Path} : isData f p = true ↔ p ∈ f.data.map (·.1) := by
  simp [isData]

theorem mem_touch {f : File V} {p q : Path} : q ∈ touch f p ↔ q ∈ f.groups ∨ q ∈ begins p := by
  simp only [touch, List.mem_append, List.mem_filter]
  constructor
  · rintro (h | h)
    · exact Or.inl h
    · exact Or.inr h.1
  · rintro (h | h)
    · exact Or.inl h
    · by_cases h' : q ∈ f.groups
      · exact Or.inl h'
      · exact Or.inr ⟨h, by simpa using h'⟩

theorem mem_shift {l : List Path} {r q : Path} : r ++ q ∈ l.map (r ++ ·) ↔ q ∈ l := by
  simp

theorem mem_shift_data {g : File V} {r q : Path} :
    r ++ q ∈ (g.data.map (fun p => (r ++ p.1, p.2))).map (·.1) ↔ q ∈ g.data.map (·.1) := by
  simp [List.map_map, Function.comp_def]

theorem graft_has {f g : File V} {r : Path} (hf : Fresh f r) (q : Path) : (graft f r g).has (r ++ q) = g.has q := by
  rw [Bool.eq_iff_iff, has_iff, has_iff]
  by_cases hq : q = []
  · subst hq
    have : r ++ [] ∈ (graft f r g).groups := by
      simp only [graft, List.mem_append, mem_touch]
      exact Or.inl (Or.inr (mem_begins.2 ⟨by simpa using hf.ne, by simp⟩))
    simp only [this, true_or, or_true]
  · have h1 : r ++ q ≠ [] := by simp [hq]
    have h2 : r ++ q ∈ (graft f r g).groups ↔ q ∈ g.groups := by
      simp only [graft, List.mem_append, mem_touch, mem_shift]
      constructor
      · rintro ((h | h) | h)
        · exact absurd h (hf.groups q)
        · have h2 := (mem_begins.1 h).2.length_le
          have : 0 < q.length := List.length_pos_iff.2 hq
          rw [List.length_append] at h2; omega
        · exact h
      · exact Or.inr
    have h3 : r ++ q ∈ (graft f r g).data.map (·.1) ↔ q ∈ g.data.map (·.1) := by
      simp only [graft, List.map_append, List.mem_append, mem_shift_data]
      constructor
      · rintro (h | h)
        · exact absurd h (hf.data q)
        · exact h
      · exact Or.inr
    simp only [h1, hq, false_or, h2, h3]

theorem graft_isData {f g : File V} {r : Path} (hf : Fresh f r) (q : Path) :
    isData (graft f r g) (r ++ q) = isData g q := by
  rw [Bool.eq_iff_iff, isData_iff, isData_iff]
  simp only [graft, List.map_append, List.mem_append, mem_shift_data]
  constructor
  · rintro (h | h)
    · exact absurd h (hf.data q)
    · exact h
  · exact Or.inr

theorem graft_way {f g : File V} {r : Path} (hf : Fresh f r) (hg : NoRoot g) (q : Path) :
    (begins (r ++ q)).any (isData (graft f r g)) = (begins q).any (isData g) := by
  rw [begins_append, List.any_append, List.any_map]
  have h1 : (begins r).any (isData (graft f r g)) = false := by
    rw [List.any_eq_false]
    intro x hx hd
    rw [isData_iff] at hd
    simp only [graft, List.map_append, List.mem_append] at hd
    have hx' := mem_begins.1 hx
    rcases hd with h | h
    · exact hf.way x hx'.2 h
    · simp only [List.map_map, List.mem_map, Function.comp] at h
      obtain ⟨p, hp, rfl⟩ := h
      have hl := hx'.2.length_le
      have : p.1 = [] := by
        apply List.length_eq_zero_iff.1
        rw [List.length_append] at hl; omega
      exact hg (this ▸ List.mem_map_of_mem hp)
  rw [h1, Bool.false_or]
  congr 1
  funext x
  exact graft_isData hf x

theorem graft_touch {f g : File V} {r : Path} (hf : Fresh f r) (q : Path) :
    touch (graft f r g) (r ++ q) = touch f r ++ (touch g q).map (r ++ ·) := by
  have h1 : (begins (r ++ q)).filter (fun x => !(graft f r g).groups.contains x)
      = ((begins q).filter (fun x => !g.groups.contains x)).map (r ++ ·) := by
    rw [begins_append, List.filter_append, List.filter_map]
    have e1 : (begins r).filter (fun x => !(graft f r g).groups.contains x) = [] := by
      rw [List.filter_eq_nil_iff]
      intro x hx
      have : x ∈ (graft f r g).groups := by
        simp only [graft, List.mem_append, mem_touch]
        exact Or.inl (Or.inr hx)
      simp [this]
    rw [e1, List.nil_append]
    congr 1
    apply List.filter_congr
    intro x hx
    have hx' := (mem_begins.1 hx).1
    have : r ++ x ∈ (graft f r g).groups ↔ x ∈ g.groups := by
      simp only [graft, List.mem_append, mem_touch, mem_shift]
      constructor
      · rintro ((h | h) | h)
        · exact absurd h (hf.groups x)
        · have h2 := (mem_begins.1 h).2.length_le
          have : 0 < x.length := List.length_pos_iff.2 hx'
          rw [List.length_append] at h2; omega
        · exact h
      · exact Or.inr
    simp only [Function.comp, List.contains_eq_mem]
    congr 1
    exact decide_eq_decide.2 this
  unfold touch
  rw [h1]
  simp only [graft, touch, List.map_append, List.append_assoc]

theorem set_append {κ υ : Type} [DecidableEq κ] (a b : List (κ × υ)) (k : κ) (v : υ) (h : k ∉ a.map (·.1)) :
    PyDict.set (a ++ b) k v = a ++ PyDict.set b k v := by
  induction a with
  | nil => rfl
  | cons x a ih =>
    simp only [List.map_cons, List.mem_cons, not_or] at h
    simp only [List.cons_append, PyDict.set]
    rw [if_neg (fun e => h.1 e.symm), ih h.2]

theorem set_map {κ κ' υ : Type} [DecidableEq κ] [DecidableEq κ'] (φ : κ → κ') (hφ : Function.Injective φ)
    (l : List (κ × υ)) (k : κ) (v : υ) :
    PyDict.set (l.map (fun p => (φ p.1, p.2))) (φ k) v = (PyDict.set l k v).map (fun p => (φ p.1, p.2)) := by
  induction l with
  | nil => rfl
  | cons x l ih =>
    simp only [List.map_cons, PyDict.set, hφ.eq_iff]
    by_cases h : x.1 = k
    · rw [if_pos h, if_pos h]; rfl
    · rw [if_neg h, if_neg h, ih]; rfl

theorem graft_setAttr {f g : File V} {r : Path} (hf : Fresh f r) (q : Path) (n : Str) (v : V) :
    (graft f r g).setAttr (r ++ q) n v = graft f r (g.setAttr q n v) := by
  have hinj : Function.Injective (fun k : Path × Str => (r ++ k.1, k.2)) := by
    rintro ⟨a, b⟩ ⟨c, d⟩ h
    simp only [Prod.mk.injEq, List.append_cancel_left_eq] at h
    exact Prod.ext h.1 h.2
  unfold File.setAttr graft
  congr 1
  simp only
  rw [set_append _ _ _ _ (hf.attrs q n)]
  congr 1
  exact set_map (fun k : Path × Str => (r ++ k.1, k.2)) hinj g.attrs (q, n) v

/-- A call under the path works as it would in a file of its own. -/
theorem step_graft {f g : File V} {r : Path} (hf : Fresh f r) (hg : NoRoot g) (o : Op V) :
    step (graft f r g) (shift r o) = match step g o with
      | .ok g' => .ok (graft f r g')
      | .error e => .error e := by
  have hm : ∀ p, mkGroup (graft f r g) (r ++ p) = match mkGroup g p with
      | .ok g' => .ok (graft f r g')
      | .error e => .error e := by
    intro p
    unfold mkGroup
    rw [graft_way hf hg]
    by_cases h : (begins p).any (isData g) = true
    · simp only [h, if_true]
    · simp only [h, if_false, Bool.false_eq_true]
      rw [graft_touch hf]
      rfl
  cases o with
  | enter p =>
    simp only [shift, step, graft_has hf]
    by_cases h : g.has p = true
    · simp only [h, if_true]
    · simp only [h, if_false, Bool.false_eq_true]; exact hm p
  | group p =>
    simp only [shift, step, graft_has hf]
    by_cases h : g.has p = true
    · simp only [h, if_true]
    · simp only [h, if_false, Bool.false_eq_true]; exact hm p
  | put p v =>
    simp only [shift, step, graft_has hf, graft_way hf hg]
    by_cases h : g.has p = true
    · simp only [h, if_true]
    · simp only [h, if_false, Bool.false_eq_true]
      have hp : p ≠ [] := fun e => h (has_iff.2 (Or.inl e))
      by_cases h2 : (begins p).any (isData g) = true
      · simp only [h2, if_true]
      · simp only [h2, if_false, Bool.false_eq_true]
        rw [List.dropLast_append_of_ne_nil hp, graft_touch hf]
        simp only [graft, List.map_append, List.map_cons, List.map_nil, List.append_assoc, touch]
  | att p n v => simp only [shift, step, graft_setAttr hf]
  | fail e => rfl

theorem step_noRoot {f g : File V} {o : Op V} (hf : NoRoot f) (h : step f o = .ok g) : NoRoot g := by
  have hm : ∀ p, mkGroup f p = .ok g → NoRoot g := by
    intro p h
    unfold mkGroup at h
    split at h
    · exact nomatch h
    · cases h; exact hf
  cases o with
  | enter p =>
    simp only [step] at h
    split at h
    · cases h; exact hf
    · exact hm p h
  | group p =>
    simp only [step] at h
    split at h
    · exact nomatch h
    · exact hm p h
  | put p v =>
    simp only [step] at h
    split at h
    · exact nomatch h
    · rename_i hp
      split at h
      · exact nomatch h
      · cases h
        unfold NoRoot at hf ⊢
        simp only [List.map_append, List.mem_append, List.map_cons, List.map_nil, List.mem_singleton, not_or]
        exact ⟨hf, fun e => hp (has_iff.2 (Or.inl e.symm))⟩
  | att p n v => simp only [step] at h; cases h; exact hf
  | fail e => exact nomatch h

theorem runOps_graft {f : File V} {r : Path} (hf : Fresh f r) (ops : List (Op V)) :
    ∀ g : File V, NoRoot g →
      runOps (graft f r g) (ops.map (shift r)) = ((runOps g ops).1, graft f r (runOps g ops).2) := by
  induction ops with
  | nil => intro g _; rfl
  | cons o ops ih =>
    intro g hg
    simp only [List.map_cons, runOps]
    rw [step_graft hf hg]
    cases h : step g o with
    | error e => rfl
    | ok g' => exact ih g' (step_noRoot hg h)

theorem noRoot_empty : NoRoot (File.empty : File V) := by simp [NoRoot, File.empty]

theorem step_enter {f : File V} {r : Path} (hf : Fresh f r) : step f (.enter r) = .ok (graft f r File.empty) := by
  have h1 : f.has r = false := by
    rw [Bool.eq_false_iff]
    intro h
    rcases has_iff.1 h with h | h | h
    · exact hf.ne h
    · exact hf.groups [] (by simpa using h)
    · exact hf.data [] (by simpa using h)
  have h2 : (begins r).any (isData f) = false := by
    rw [List.any_eq_false]
    intro x hx hd
    exact hf.way x (mem_begins.1 hx).2 (isData_iff.1 hd)
  simp only [step, h1, mkGroup, h2, Bool.false_eq_true, if_false]
  simp [graft, File.empty]

/-- A save under a new path. -/
theorem save_graft {f : File V} {r : Path} (hf : Fresh f r) (ops : List (Op V)) :
    runOps f (.enter r :: ops.map (shift r)) = ((runOps File.empty ops).1, graft f r (runOps File.empty ops).2) := by
  simp only [runOps]
  rw [step_enter hf]
  exact runOps_graft hf ops _ noRoot_empty

/-- A save whose first call is a data set below the path makes the groups as well. -/
theorem put_graft {f : File V} {r : Path} (hf : Fresh f r) (n : Str) (v : V) :
    step f (.put (r ++ [n]) v) = step (graft f r File.empty) (.put (r ++ [n]) v) := by
  have h := step_graft hf (noRoot_empty (V := V)) (.put [n] v)
  simp only [shift] at h
  rw [h]
  have h1 : f.has (r ++ [n]) = false := by
    rw [Bool.eq_false_iff]
    intro h
    rcases has_iff.1 h with h | h | h
    · simp at h
    · exact hf.groups [n] h
    · exact hf.data [n] h
  have h2 : (begins (r ++ [n])).any (isData f) = false := by
    rw [List.any_eq_false]
    intro x hx hd
    have hx' := (mem_begins.1 hx).2
    rcases List.prefix_append_right_inj r |>.1 (List.prefix_rfl) with _
    rcases (List.prefix_concat_iff).1 hx' with e | e
    · exact hf.data [n] (e ▸ isData_iff.1 hd)
    · exact hf.way x e (isData_iff.1 hd)
  have h3 : (File.empty : File V).has [n] = false := by simp [File.has, File.empty]
  have h4 : (begins [n]).any (isData (File.empty : File V)) = false := by simp [isData, File.empty]
  simp only [step, h1, h2, h3, h4, Bool.false_eq_true, if_false]
  simp [graft, File.empty, touch, begins]

theorem save_graft' {f : File V} {r : Path} (hf : Fresh f r) (n : Str) (v : V) (ops : List (Op V)) :
    runOps f ((Op.put [n] v :: ops).map (shift r))
      = ((runOps File.empty (.put [n] v :: ops)).1, graft f r (runOps File.empty (.put [n] v :: ops)).2) := by
  have h := save_graft hf (Op.put [n] v :: ops)
  rw [← h]
  simp only [List.map_cons, runOps, shift]
  rw [step_enter hf]
  simp only
  rw [put_graft hf]
  have h2 := step_graft hf (noRoot_empty (V := V)) (.put [n] v)
  simp only [shift] at h2
  rw [h2]
  rfl

/-! ### What is seen after a save -/

theorem lookup_append_left {κ υ : Type} [DecidableEq κ] [BEq κ] [LawfulBEq κ] (a b : List (κ × υ)) (k : κ)
    (h : k ∉ b.map (·.1)) : (a ++ b).lookup k = a.lookup k := by
  rw [List.lookup_append, (PyDict.lookup_none_iff b k).2 h, Option.or_none]

theorem lookup_append_right {κ υ : Type} [DecidableEq κ] [BEq κ] [LawfulBEq κ] (a b : List (κ × υ)) (k : κ)
    (h : k ∉ a.map (·.1)) : (a ++ b).lookup k = b.lookup k := by
  rw [List.lookup_append, (PyDict.lookup_none_iff a k).2 h, Option.none_or]

theorem lookup_map_inj {κ κ' υ : Type} [BEq κ] [LawfulBEq κ] [BEq κ'] [LawfulBEq κ'] (φ : κ → κ')
    (hφ : Function.Injective φ) (l : List (κ × υ)) (k : κ) :
    (l.map (fun p => (φ p.1, p.2))).lookup (φ k) = l.lookup k := by
  induction l with
  | nil => rfl
  | cons x l ih =>
    obtain ⟨a, b⟩ := x
    rcases Classical.em (k = a) with h | h
    · subst h; simp
    · have : φ k ≠ φ a := fun e => h (hφ e)
      simp only [List.map_cons, List.lookup_cons, beq_eq_false_iff_ne.2 h, beq_eq_false_iff_ne.2 this, ih]

theorem childOf_some {p q : Path} {n : Str} : childOf p q = some n ↔ q = p ++ [n] := by
  unfold childOf
  constructor
  · intro h
    split at h
    · rename_i hq
      have h1 := List.dropLast_append_getLast hq.1
      rw [List.getLast?_eq_getLast_of_ne_nil hq.1] at h
      cases h
      calc q = q.dropLast ++ [q.getLast hq.1] := h1.symm
        _ = _ := congrArg (· ++ [q.getLast hq.1]) hq.2
    · exact nomatch h
  · rintro rfl
    simp

theorem childOf_shift (r p q : Path) : childOf (r ++ p) (r ++ q) = childOf p q := by
  apply Option.ext
  intro n
  rw [childOf_some, childOf_some, List.append_assoc, List.append_cancel_left_eq]

theorem filterMap_childOf_nil {l : List Path} {p : Path} (h : ∀ q ∈ l, ¬ p <+: q) :
    l.filterMap (childOf p) = [] := by
  rw [List.filterMap_eq_nil_iff]
  intro q hq
  by_contra hn
  obtain ⟨n, hn⟩ := Option.ne_none_iff_exists'.1 hn
  exact h q hq ⟨[n], (childOf_some.1 hn).symm⟩

theorem kids_graft {f g : File V} {r : Path} (hf : Fresh f r) (p : Path) : kids (graft f r g) (r ++ p) = kids g p := by
  unfold kids
  congr 1
  have e1 : f.groups.filterMap (childOf (r ++ p)) = [] := by
    apply filterMap_childOf_nil
    rintro q hq ⟨s, rfl⟩
    exact hf.groups (p ++ s) (by simpa [List.append_assoc] using hq)
  have e2 : (f.data.map (·.1)).filterMap (childOf (r ++ p)) = [] := by
    apply filterMap_childOf_nil
    rintro q hq ⟨s, rfl⟩
    exact hf.data (p ++ s) (by simpa [List.append_assoc] using hq)
  have e3 : ((begins r).filter (fun q => !f.groups.contains q)).filterMap (childOf (r ++ p)) = [] := by
    rw [List.filterMap_eq_nil_iff]
    intro q hq
    by_contra hn
    obtain ⟨n, hn⟩ := Option.ne_none_iff_exists'.1 hn
    have := (mem_begins.1 (List.mem_filter.1 hq).1).2.length_le
    rw [childOf_some.1 hn] at this
    simp at this
  have e4 : ∀ l : List Path, (l.map (r ++ ·)).filterMap (childOf (r ++ p)) = l.filterMap (childOf p) := by
    intro l
    rw [List.filterMap_map]
    congr 1
    funext q
    exact childOf_shift r p q
  simp only [graft, touch, List.map_append, List.filterMap_append, e1, e2, e3, List.nil_append, e4, List.map_map]
  congr 1
  have := e4 (g.data.map (·.1))
  rw [List.map_map] at this
  exact this

theorem View.ext' {v w : View V} (h1 : v.data = w.data) (h2 : v.has = w.has) (h3 : v.att = w.att)
    (h4 : v.kids = w.kids) : v = w := by
  cases v; cases w; simp_all

/-- What a save under a new path shows there is the file of its own. -/
theorem view_graft {f g : File V} {r : Path} (hf : Fresh f r) : view (graft f r g) r = view g [] := by
  have hinj : Function.Injective (fun k : Path × Str => (r ++ k.1, k.2)) := by
    rintro ⟨a, b⟩ ⟨c, d⟩ h
    simp only [Prod.mk.injEq, List.append_cancel_left_eq] at h
    exact Prod.ext h.1 h.2
  apply View.ext'
  · funext q
    simp only [view, graft, List.nil_append]
    rw [lookup_append_right _ _ _ (hf.data q)]
    exact lookup_map_inj (r ++ ·) (List.append_right_injective r) g.data q
  · funext q
    exact graft_has hf q
  · funext q n
    simp only [view, graft, List.nil_append]
    rw [lookup_append_right _ _ _ (hf.attrs q n)]
    exact lookup_map_inj (fun k : Path × Str => (r ++ k.1, k.2)) hinj g.attrs (q, n)
  · funext q
    exact kids_graft hf q

/-- The paths lie beside each other. -/
def Apart (r s : Path) : Prop := ¬ r <+: s ∧ ¬ s <+: r

theorem Apart.ne {r s : Path} (h : Apart r s) {a b : Path} : r ++ a ≠ s ++ b := by
  intro e
  rcases List.prefix_or_prefix_of_prefix (List.prefix_append r a) (e ▸ List.prefix_append s b) with h1 | h1
  · exact h.1 h1
  · exact h.2 h1

theorem Apart.symm {r s : Path} (h : Apart r s) : Apart s r := ⟨h.2, h.1⟩

theorem apart_of_ne (p : Path) {a b : Str} (q s : Path) (h : a ≠ b) : Apart (p ++ a :: q) (p ++ b :: s) := by
  constructor
  · rw [List.prefix_append_right_inj, List.cons_prefix_cons]; exact fun e => h e.1
  · rw [List.prefix_append_right_inj, List.cons_prefix_cons]; exact fun e => h e.1.symm

/-- Elsewhere nothing changes. -/
theorem view_graft_apart {f g : File V} {r s : Path} (h : Apart r s) : view (graft f r g) s = view f s := by
  have hb : ∀ q x, x ∈ begins r → x ≠ s ++ q := by
    rintro q x hx rfl
    exact h.2 ((List.prefix_append s q).trans (mem_begins.1 hx).2)
  have hg : ∀ q, s ++ q ∈ (graft f r g).groups ↔ s ++ q ∈ f.groups := by
    intro q
    simp only [graft, List.mem_append, mem_touch, List.mem_map]
    constructor
    · rintro ((h1 | h1) | ⟨a, _, h1⟩)
      · exact h1
      · exact absurd rfl (hb q _ h1)
      · exact absurd h1 h.ne
    · exact fun h => Or.inl (Or.inl h)
  have hd : ∀ q, s ++ q ∉ (g.data.map (fun p => (r ++ p.1, p.2))).map (·.1) := by
    intro q hq
    simp only [List.map_map, List.mem_map, Function.comp] at hq
    obtain ⟨a, _, h1⟩ := hq
    exact h.ne h1
  apply View.ext'
  · funext q
    simp only [view, graft]
    exact lookup_append_left _ _ _ (hd q)
  · funext q
    simp only [view]
    rw [Bool.eq_iff_iff, has_iff, has_iff, hg]
    simp only [graft, List.map_append, List.mem_append, hd q, or_false]
  · funext q n
    simp only [view, graft]
    apply lookup_append_left
    intro hq
    simp only [List.map_map, List.mem_map, Function.comp, Prod.mk.injEq] at hq
    obtain ⟨a, _, h1, _⟩ := hq
    exact h.ne h1
  · funext q
    simp only [view, kids]
    congr 1
    have e1 : ((begins r).filter (fun q => !f.groups.contains q)).filterMap (childOf (s ++ q)) = [] := by
      rw [List.filterMap_eq_nil_iff]
      intro x hx
      by_contra hn
      obtain ⟨n, hn⟩ := Option.ne_none_iff_exists'.1 hn
      refine hb (q ++ [n]) x (List.mem_filter.1 hx).1 ?_
      rw [childOf_some.1 hn, List.append_assoc]
    have e2 : ∀ l : List Path, (l.map (r ++ ·)).filterMap (childOf (s ++ q)) = [] := by
      intro l
      apply filterMap_childOf_nil
      intro x hx hp
      obtain ⟨a, _, rfl⟩ := List.mem_map.1 hx
      obtain ⟨t, ht⟩ := hp
      rw [List.append_assoc] at ht
      exact h.ne ht.symm
    have e3 := e2 (g.data.map (·.1))
    rw [List.map_map] at e3
    simp only [graft, touch, List.map_append, List.filterMap_append, e1, e2, List.map_map, List.append_nil]
    rw [show List.filterMap (childOf (s ++ q)) (List.map ((fun x => x.1) ∘ fun p => (r ++ p.1, p.2)) g.data) = []
      from e3, List.append_nil]

theorem fresh_graft {f g : File V} {r s : Path} (h : Apart r s) (hs : Fresh f s) : Fresh (graft f r g) s where
  ne := hs.ne
  groups q hq := by
    simp only [graft, List.mem_append, mem_touch, List.mem_map] at hq
    rcases hq with (h1 | h1) | ⟨a, _, h1⟩
    · exact hs.groups q h1
    · exact h.2 ((List.prefix_append s q).trans (mem_begins.1 h1).2)
    · exact h.ne h1
  data q hq := by
    simp only [graft, List.map_append, List.mem_append, List.map_map, List.mem_map, Function.comp] at hq
    rcases hq with ⟨a, ha, h1⟩ | ⟨a, _, h1⟩
    · exact hs.data q (h1 ▸ List.mem_map_of_mem ha)
    · exact h.ne h1
  attrs q n hq := by
    simp only [graft, List.map_append, List.mem_append, List.map_map, List.mem_map, Function.comp] at hq
    rcases hq with ⟨a, ha, h1⟩ | ⟨a, _, h1⟩
    · exact hs.attrs q n (h1 ▸ List.mem_map_of_mem ha)
    · exact h.ne (congrArg Prod.fst h1)
  way q hq hd := by
    simp only [graft, List.map_append, List.mem_append, List.map_map, List.mem_map, Function.comp] at hd
    rcases hd with ⟨a, ha, h1⟩ | ⟨a, _, h1⟩
    · exact hs.way q hq (h1 ▸ List.mem_map_of_mem ha)
    · exact h.1 ((List.prefix_append r a.1).trans (h1 ▸ hq))

/-! ### Plain data sets of one group -/

/-- The calls for the data sets of one group. -/
def puts (p : Path) (items : List (Str × V)) : List (Op V) := items.map (fun i => .put (p ++ [i.1]) i.2)

theorem runOps_append (f : File V) (a b : List (Op V)) :
    runOps f (a ++ b) = match runOps f a with
      | (.ok (), g) => runOps g b
      | (.error e, g) => (.error e, g) := by
  induction a generalizing f with
  | nil => rfl
  | cons o a ih =>
    simp only [List.cons_append, runOps]
    cases step f o with
    | error e => rfl
    | ok g => exact ih g

theorem puts_ok (p : Path) (items : List (Str × V)) : ∀ f : File V,
    (∀ q ∈ begins p, q ∈ f.groups) → (∀ q ∈ begins p, q ∉ f.data.map (·.1)) →
    (∀ i ∈ items, p ++ [i.1] ∉ f.groups) → (∀ i ∈ items, p ++ [i.1] ∉ f.data.map (·.1)) →
    (items.map (·.1)).Nodup →
    runOps f (puts p items) = (.ok (), { f with data := f.data ++ items.map (fun i => (p ++ [i.1], i.2)) }) := by
  induction items with
  | nil => intro f _ _ _ _ _; simp [puts, runOps]
  | cons i items ih =>
    intro f h1 h2 h3 h4 h5
    simp only [puts, List.map_cons, runOps]
    have e1 : f.has (p ++ [i.1]) = false := by
      rw [Bool.eq_false_iff]
      intro h
      rcases has_iff.1 h with h | h | h
      · simp at h
      · exact h3 i (by simp) h
      · exact h4 i (by simp) h
    have e2 : (begins (p ++ [i.1])).any (isData f) = false := by
      rw [List.any_eq_false]
      intro x hx hd
      rw [begins_append, List.mem_append] at hx
      rcases hx with hx | hx
      · exact h2 x hx (isData_iff.1 hd)
      · simp [begins] at hx
        exact h4 i (by simp) (hx ▸ isData_iff.1 hd)
    have e3 : touch f (p ++ [i.1]).dropLast = f.groups := by
      simp only [List.dropLast_concat, touch]
      rw [List.filter_eq_nil_iff.2, List.append_nil]
      intro x hx
      simp [h1 x hx]
    simp only [step, e1, e2, Bool.false_eq_true, if_false, e3]
    have hn := List.nodup_cons.1 h5
    have := ih { f with data := f.data ++ [(p ++ [i.1], i.2)] } h1 ?_ ?_ ?_ hn.2
    · simp only [puts] at this
      rw [this]
      simp
    · intro q hq hd
      simp only [List.map_append, List.mem_append, List.map_cons, List.map_nil, List.mem_singleton] at hd
      rcases hd with hd | hd
      · exact h2 q hq hd
      · have := (mem_begins.1 hq).2.length_le
        rw [hd] at this
        simp at this
    · intro j hj
      exact h3 j (List.mem_cons_of_mem _ hj)
    · intro j hj hd
      simp only [List.map_append, List.mem_append, List.map_cons, List.map_nil, List.mem_singleton] at hd
      rcases hd with hd | hd
      · exact h4 j (List.mem_cons_of_mem _ hj) hd
      · have e : j.1 = i.1 := by simpa using hd
        exact hn.1 (List.mem_map.2 ⟨j, hj, e⟩)

end Seyfert.Stored
