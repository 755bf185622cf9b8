import Verif.Lemmas.PyDict
import Mathlib.Data.List.Perm.Subperm

/-!
C42: the dictionary wrapper is a finite map with insertion order.
C54: mapping over nested dictionaries and selecting keys.
-/

set_option linter.unusedSectionVars false

namespace Seyfert.PyDict

variable {κ υ : Type} [DecidableEq κ] [BEq κ] [LawfulBEq κ]

/-- A finite map with insertion order, without reference to lists of items: the value of every key, and
the keys in order. -/
structure FMap (κ υ : Type) where
  val : κ → Option υ
  order : List κ

/-- Assignment: a new key goes last. -/
def FMap.set (m : FMap κ υ) (k : κ) (v : υ) : FMap κ υ :=
  ⟨fun x => if x = k then some v else m.val x, if k ∈ m.order then m.order else m.order ++ [k]⟩

/-- Specification of the operations on such a map. -/
def FMap.step (m : FMap κ υ) : Op κ υ → FMap κ υ × Ans κ υ
  | .set k v => (m.set k v, .none)
  | .del k => if k ∈ m.order then
      (⟨fun x => if x = k then none else m.val x, m.order.filter (fun x => decide (x ≠ k))⟩, .none)
      else (m, .keyError)
  | .update o => (o.foldl (fun m p => m.set p.1 p.2) m, .none)
  | .read k => (m, match m.val k with | some v => .value v | none => .keyError)
  | .get k v => (m, .value ((m.val k).getD v))
  | .contains k => (m, .bool (decide (k ∈ m.order)))
  | .keys => (m, .keys m.order)
  | .len => (m, .len m.order.length)

def FMap.run (m : FMap κ υ) : List (Op κ υ) → FMap κ υ × List (Ans κ υ)
  | [] => (m, [])
  | o :: os => ((m.step o).1.run os).map id ((m.step o).2 :: ·)

/-- The map that a dictionary stands for. -/
def toFMap (d : List (κ × υ)) : FMap κ υ := ⟨fun k => d.lookup k, d.map (·.1)⟩

theorem toFMap_set (d : List (κ × υ)) (k : κ) (v : υ) : toFMap (set d k v) = (toFMap d).set k v := by
  unfold toFMap FMap.set
  rw [keys_set]
  congr 1
  funext x
  exact lookup_set d k x v

theorem toFMap_update (d o : List (κ × υ)) :
    toFMap (update d o) = o.foldl (fun m p => m.set p.1 p.2) (toFMap d) := by
  unfold update
  induction o generalizing d with
  | nil => rfl
  | cons p o ih => rw [List.foldl_cons, List.foldl_cons, ih, toFMap_set]

theorem step_refines (d : List (κ × υ)) (o : Op κ υ) :
    (toFMap d).step o = (toFMap (step d o).1, (step d o).2) := by
  cases o with
  | set k v => simp only [FMap.step, step, toFMap_set]
  | update o => simp only [FMap.step, step, toFMap_update]
  | keys => rfl
  | len => simp [FMap.step, step, toFMap]
  | del k =>
    simp only [FMap.step, step]
    cases h : d.lookup k with
    | none => rw [if_neg (show k ∉ (toFMap d).order from (lookup_none_iff d k).mp h)]
    | some v =>
      rw [if_pos (show k ∈ (toFMap d).order from (lookup_isSome_iff d k).mp (by rw [h]; rfl))]
      simp only [toFMap, keys_erase, Prod.mk.injEq, FMap.mk.injEq, and_true]
      funext x
      exact (lookup_erase d k x).symm
  | read k => simp only [FMap.step, step, toFMap]; cases d.lookup k <;> rfl
  | get k v => simp only [FMap.step, step, toFMap]; cases d.lookup k <;> rfl
  | contains k =>
    simp only [FMap.step, step, toFMap, Prod.mk.injEq, true_and, Ans.bool.injEq]
    rw [Bool.eq_iff_iff, lookup_isSome_iff]
    exact decide_eq_true_iff

/-- C42. For every sequence of operations the wrapper gives the answers of a finite map with insertion
order. -/
theorem wrapper_is_map (d : List (κ × υ)) (os : List (Op κ υ)) :
    (toFMap d).run os = (toFMap (run d os).1, (run d os).2) := by
  induction os generalizing d with
  | nil => rfl
  | cons o os ih =>
    rw [FMap.run, step_refines, ih]
    rfl

/-- C42. Keys stay distinct, whatever is done. -/
theorem wrapper_keys_distinct (d : List (κ × υ)) (os : List (Op κ υ)) (h : (d.map (·.1)).Nodup) :
    ((run d os).1.map (·.1)).Nodup := by
  induction os generalizing d with
  | nil => exact h
  | cons o os ih =>
    refine ih _ ?_
    cases o with
    | set k v => exact nodup_set d k v h
    | update o => exact nodup_update d o h
    | del k =>
      simp only [step]
      cases d.lookup k with
      | none => exact h
      | some v => simp only; rw [keys_erase]; exact h.filter _
    | read k => simp only [step]; cases d.lookup k <;> exact h
    | get k v => simp only [step]; cases d.lookup k <;> exact h
    | contains k => exact h
    | keys => exact h
    | len => exact h

/-- C42. Reading or deleting an absent key raises and changes nothing; a present key is read back and,
once deleted, is gone. -/
theorem wrapper_errors (d : List (κ × υ)) (k : κ) :
    (step d (.del k)).2 = .keyError ↔ d.lookup k = none := by
  simp only [step]
  cases h : d.lookup k <;> simp

theorem wrapper_error_unchanged (d : List (κ × υ)) (o : Op κ υ) (h : (step d o).2 = .keyError) :
    (step d o).1 = d := by
  cases o <;> simp only [step] at h ⊢
  case set => cases h
  case update => cases h
  case del k => cases hl : d.lookup k with
    | none => rfl
    | some v => rw [hl] at h; cases h
  case read k => cases hl : d.lookup k <;> rfl
  case get k v => cases hl : d.lookup k <;> rfl

/-- C42. Dictionaries with distinct keys are equal in Python exactly if they have the same value for
every key, whatever the order of insertion. -/
theorem wrapper_eq [DecidableEq υ] (a b : List (κ × υ)) (ha : (a.map (·.1)).Nodup)
    (hb : (b.map (·.1)).Nodup) : beq a b = true ↔ ∀ k, a.lookup k = b.lookup k := by
  unfold beq
  rw [Bool.and_eq_true, decide_eq_true_eq, List.all_eq_true]
  simp only [decide_eq_true_eq]
  constructor
  · rintro ⟨hl, h⟩ k
    have hsub : a.map (·.1) ⊆ b.map (·.1) := by
      intro x hx
      obtain ⟨p, hp, rfl⟩ := List.mem_map.mp hx
      exact (lookup_isSome_iff b _).mp (by rw [h p hp]; rfl)
    have hperm : (a.map (·.1)).Perm (b.map (·.1)) :=
      (ha.subperm hsub).perm_of_length_le (by simp [hl])
    cases hk : a.lookup k with
    | some v => exact (h _ (mem_of_lookup hk)).symm
    | none =>
      have := (lookup_none_iff a k).mp hk
      exact ((lookup_none_iff b k).mpr (fun hm => this (hperm.mem_iff.mpr hm))).symm
  · intro h
    refine ⟨?_, fun p hp => by rw [← h, lookup_of_mem a ha hp]⟩
    have : (a.map (·.1)).Perm (b.map (·.1)) := by
      rw [List.perm_ext_iff_of_nodup ha hb]
      intro x
      rw [← lookup_isSome_iff, ← lookup_isSome_iff, h]
    simpa using this.length_eq

example : (run (υ := Nat) [("a", 1)] [.set "b" 2, .set "a" 3, .keys, .del "c", .read "a"]).2
    = [.none, .none, .keys ["a", "b"], .keyError, .value 3] := by decide

/-! ### Nested dictionaries -/

/-- The keys and nesting of a nested dictionary, and the leaves in order: every path to a leaf with
its value. -/
def paths {κ α : Type} : Nested κ α → List (List κ × α)
  | .leaf a => [([], a)]
  | .node l => go l
where
  go {κ α : Type} : List (κ × Nested κ α) → List (List κ × α)
  | [] => []
  | (k, v) :: l => (paths v).map (fun p => (k :: p.1, p.2)) ++ go l

/-- The tree of keys, empty dictionaries included. -/
def shape {κ α : Type} : Nested κ α → Nested κ Unit
  | .leaf _ => .leaf ()
  | .node l => .node (go l)
where
  go {κ α : Type} : List (κ × Nested κ α) → List (κ × Nested κ Unit)
  | [] => []
  | (k, v) :: l => (k, shape v) :: go l

mutual
theorem paths_map {κ α β : Type} (f : α → β) (d : Nested κ α) :
    paths (mapNested f d) = (paths d).map (fun p => (p.1, f p.2)) := by
  cases d with
  | leaf a => rw [mapNested, paths, paths]; rfl
  | node l => rw [mapNested, paths, paths]; exact paths_go f l
theorem paths_go {κ α β : Type} (f : α → β) (l : List (κ × Nested κ α)) :
    paths.go (mapNested.go f l) = (paths.go l).map (fun p => (p.1, f p.2)) := by
  match l with
  | [] => rw [mapNested.go, paths.go, paths.go]; rfl
  | (k, v) :: l =>
    rw [mapNested.go, paths.go, paths.go, paths_map f v, paths_go f l, List.map_append, List.map_map,
      List.map_map]
    rfl
end

mutual
theorem shape_map {κ α β : Type} (f : α → β) (d : Nested κ α) : shape (mapNested f d) = shape d := by
  cases d with
  | leaf a => rw [mapNested, shape, shape]
  | node l => rw [mapNested, shape, shape, shape_go f l]
theorem shape_go {κ α β : Type} (f : α → β) (l : List (κ × Nested κ α)) :
    shape.go (mapNested.go f l) = shape.go l := by
  match l with
  | [] => rw [mapNested.go, shape.go, shape.go]
  | (k, v) :: l => rw [mapNested.go, shape.go, shape.go, shape_map f v, shape_go f l]
end

mutual
theorem map_map {κ α β γ : Type} (f : α → β) (g : β → γ) (d : Nested κ α) :
    mapNested g (mapNested f d) = mapNested (g ∘ f) d := by
  cases d with
  | leaf a => rw [mapNested, mapNested, mapNested]; rfl
  | node l => rw [mapNested, mapNested, mapNested, map_go f g l]
theorem map_go {κ α β γ : Type} (f : α → β) (g : β → γ) (l : List (κ × Nested κ α)) :
    mapNested.go g (mapNested.go f l) = mapNested.go (g ∘ f) l := by
  match l with
  | [] => rw [mapNested.go, mapNested.go, mapNested.go]
  | (k, v) :: l => rw [mapNested.go, mapNested.go, mapNested.go, map_map f g v, map_go f g l]
end

/-- C54. Mapping keeps keys and nesting, and applies the function to each leaf exactly once, in
place. -/
theorem mapNested_spec {κ α β : Type} (f : α → β) (d : Nested κ α) :
    shape (mapNested f d) = shape d ∧ paths (mapNested f d) = (paths d).map (fun p => (p.1, f p.2)) :=
  ⟨shape_map f d, paths_map f d⟩

/-- C54. Mapping two functions one after the other is mapping their composition. -/
theorem mapNested_comp {κ α β γ : Type} (f : α → β) (g : β → γ) (d : Nested κ α) :
    mapNested g (mapNested f d) = mapNested (g ∘ f) d := map_map f g d

/-- C54. Selecting keys keeps exactly the selected keys that are there, with their values, in order. -/
theorem subset_spec {κ υ : Type} [DecidableEq κ] (d : List (κ × υ)) (ks : List κ) :
    (∀ k, (subset d ks).lookup k = if k ∈ ks then d.lookup k else none) ∧
      (subset d ks).map (·.1) = (d.map (·.1)).filter (fun k => decide (k ∈ ks)) := by
  refine ⟨?_, by unfold subset; rw [List.filter_map]; rfl⟩
  intro k
  induction d with
  | nil => simp [subset]
  | cons p d ih =>
    obtain ⟨a, b⟩ := p
    unfold subset at ih ⊢
    rw [List.filter_cons]
    by_cases ha : a ∈ ks
    · simp only [ha, decide_true, if_true, List.lookup_cons, ih]
      by_cases h : k = a
      · subst h; simp [ha]
      · rw [beq_false_of_ne h]
    · simp only [ha, decide_false, Bool.false_eq_true, if_false, ih, List.lookup_cons]
      by_cases h : k = a
      · subst h; simp [ha]
      · rw [beq_false_of_ne h]

example : paths (mapNested (· + 1) (.node [("a", .leaf 1), ("b", .node [("c", .leaf 2)])]))
    = [(["a"], 2), (["b", "c"], 3)] := by
  simp [paths_map, paths, paths.go]

example : subset [("a", 1), ("b", 2)] ["b", "z"] = [("b", 2)] := by decide

end Seyfert.PyDict
