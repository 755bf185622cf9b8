import Verif.Model.BiasFile
import Verif.Props.Redshift
import Verif.Lemmas.PyDict

/-!
C107: the files of the bias.
-/

namespace Seyfert.BiasFile

variable {V A B : Type}

instance : Std.Total (before (V := V)) := ⟨fun _ _ => le_total _ _⟩
instance : IsTrans (Str × V) before := ⟨fun _ _ _ => le_trans⟩

theorem listing_perm (d : Dict Str V) : (listing d).Perm d := List.perm_insertionSort _ _

/-- Every name keeps its value. -/
theorem listing_lookup (d : Dict Str V) (h : (d.map (·.1)).Nodup) (n : Str) : (listing d).lookup n = d.lookup n := by
  have hp := listing_perm d
  have hn : ((listing d).map (·.1)).Nodup := (hp.map _).nodup_iff.mpr h
  rcases e : d.lookup n with _ | v
  · rw [PyDict.lookup_none_iff] at e ⊢
    exact fun hm => e ((hp.map _).mem_iff.mp hm)
  · exact PyDict.lookup_of_mem _ hn (hp.mem_iff.mpr (PyDict.mem_of_lookup e))

/-- A dictionary whose names are in alphabetical order is listed in its own order. -/
theorem listing_sorted (d : Dict Str V) (h : d.Pairwise before) : listing d = d := List.Pairwise.insertionSort_eq h

theorem listing_idem (d : Dict Str V) : listing (listing d) = listing d :=
  listing_sorted _ (List.pairwise_insertionSort _ _)

/-- Two dictionaries are equal for Python when they have the same names with the same values. -/
def SameDict (d e : Option (Dict Str V)) : Prop :=
  match d, e with
  | some a, some b => a.Perm b
  | none, none => True
  | _, _ => False

/-- A bias can be saved when its probe, its model and both groups of parameters are set. What is read back is the same
bias, up to the order of the parameters, unless it has values without a grid. -/
theorem roundtrip (o : Obj V A B) :
    ((∃ c, save o = .ok c) ↔ o.probe ≠ none ∧ o.model ≠ none ∧ o.additional ≠ none ∧ o.nuisance ≠ none) ∧
    ∀ c, save o = .ok c → (load c).probe = o.probe ∧ (load c).model = o.model ∧
      SameDict (load c).additional o.additional ∧ SameDict (load c).nuisance o.nuisance ∧
      (load c).edges = o.edges ∧ (load c).grid = o.grid ∧ (o.grid ≠ none → (load c).values = o.values) := by
  obtain ⟨p, m, a, n, e, g, b⟩ := o
  unfold save
  rcases p with _ | p
  · simp
  rcases m with _ | m
  · simp
  rcases a with _ | a
  · simp
  rcases n with _ | n
  · simp
  refine ⟨⟨fun _ => by simp, fun _ => ⟨_, rfl⟩⟩, fun c hc => ?_⟩
  cases hc
  refine ⟨rfl, rfl, listing_perm a, listing_perm n, ?_, ?_, fun hg => ?_⟩
  · cases e <;> rfl
  · cases g <;> rfl
  · rcases g with _ | g
    · exact absurd rfl hg
    · cases b <;> rfl

/-- Witness: values without a grid are written but not read. -/
theorem values_lost (p m : Str) (e : Option A) (b : B) :
    ∃ c, save (⟨some p, some m, some ([] : Dict Str V), some [], e, none, some b⟩ : Obj V A B) = .ok c ∧
      c.values = some b ∧ (load c).values = none := ⟨_, rfl, rfl, rfl⟩

/-- Which error saving gives. -/
theorem save_errors (o : Obj V A B) :
    (save o = .error .typeError ↔ o.probe = none ∨ o.model = none) ∧
    (save o = .error .attributeError ↔ o.probe ≠ none ∧ o.model ≠ none ∧ (o.additional = none ∨ o.nuisance = none)) := by
  obtain ⟨p, m, a, n, e, g, b⟩ := o
  unfold save
  cases p <;> cases m <;> cases a <;> cases n <;> simp

/-- What is saved, read and saved again is the same. -/
theorem save_load_save (o : Obj V A B) (c : Content V A B) (h : save o = .ok c) (hv : o.grid ≠ none ∨ o.values = none) :
    save (load c) = .ok c := by
  obtain ⟨p, m, a, n, e, g, b⟩ := o
  unfold save at h
  rcases p with _ | p
  · cases h
  rcases m with _ | m
  · cases h
  rcases a with _ | a
  · cases h
  rcases n with _ | n
  · cases h
  cases h
  simp only [load, loadInto, save, new, listing_idem]
  rcases hv with hv | hv
  · rcases g with _ | g
    · exact absurd rfl hv
    · cases e <;> cases b <;> rfl
  · simp only at hv
    subst hv
    cases e <;> cases g <;> rfl

/-- Reading into a bias that exists: probe, model and parameters are those of the file; the edges of the bins are those of
the file if it has some, even when the bias already had others. -/
theorem load_into (o : Obj V A B) (c : Content V A B) :
    (loadInto o c).probe = some c.probe ∧ (loadInto o c).model = some c.model ∧
    (loadInto o c).nuisance = some c.nuisance ∧ (loadInto o c).additional = some c.additional ∧
    (∀ e, c.edges = some e → (loadInto o c).edges = some e) ∧ (c.edges = none → (loadInto o c).edges = o.edges) ∧
    (c.grid = none → (loadInto o c).grid = o.grid ∧ (loadInto o c).values = o.values) ∧
    (∀ g, c.grid = some g → (loadInto o c).grid = some g ∧ (loadInto o c).values = c.values.or o.values) := by
  obtain ⟨p, m, a, n, e, g, b⟩ := c
  refine ⟨rfl, rfl, rfl, rfl, fun e' h => ?_, fun h => ?_, fun h => ?_, fun g' h => ?_⟩
  · simp only at h; subst h; rfl
  · simp only at h; subst h; rfl
  · simp only at h; subst h; exact ⟨rfl, rfl⟩
  · simp only at h; subst h; exact ⟨rfl, rfl⟩

section
variable {K : Type}

/-- The piecewise bias does not depend on the order in which the file lists the parameters. -/
theorem piecewise_reload [LinearOrder K] (zero : V) (edges : List K) (pars : Dict Str V) (grid : List K)
    (hd : pars.Pairwise fun p q => Redshift.idx p ≠ Redshift.idx q) :
    Redshift.piecewise zero edges (listing pars) grid = Redshift.piecewise zero edges pars grid := by
  unfold Redshift.piecewise
  rw [Redshift.order_irrelevant pars (listing pars) (listing_perm pars).symm hd]

/-- The parameters `a0`, `a1`, and so on with the given values. -/
def numbered (a : Str) (vals : List V) : Dict Str V := vals.mapIdx fun i v => (a ++ decStr i, v)

theorem numbered_before (a : Str) (i j : Nat) (h : i < j) (hj : j < 10) (v w : V) :
    before (a ++ decStr i, v) (a ++ decStr j, w) := by
  have key : ∀ j, j < 10 → ∀ i, i < j → (decStr i).map Char.toNat < (decStr j).map Char.toNat := by decide +kernel
  unfold before
  simp only [List.map_append]
  exact le_of_lt (List.Lex.append_left _ (key j hj i h) _)

/-- Up to ten bins, numbered from zero, the constant bias read from a file gives every bin its own value. -/
theorem constant_reload_partial (a : Str) (vals : List V) (h : vals.length ≤ 10) (edges : List K) (grid : List K) :
    Redshift.constant edges (listing (numbered a vals)) grid = Redshift.constant edges (numbered a vals) grid := by
  rw [listing_sorted]
  rw [List.pairwise_iff_getElem]
  intro i j hi hj hij
  unfold numbered at hi hj ⊢
  rw [List.length_mapIdx] at hi hj
  rw [List.getElem_mapIdx, List.getElem_mapIdx]
  exact numbered_before a i j hij (by omega) _ _

/-- Witness: with eleven bins the third bin gets the value of the last one. -/
theorem constant_reload_wrong :
    Redshift.constant (List.range 12) (listing (numbered "bgph".toList "abcdefghijk".toList)) [(0 : Nat)] =
      .ok ("abkcdefghij".toList.map fun c => [c]) ∧
    Redshift.constant (List.range 12) (numbered "bgph".toList "abcdefghijk".toList) [(0 : Nat)] =
      .ok ("abcdefghijk".toList.map fun c => [c]) := by decide +kernel

end

example : save (⟨some "GCph".toList, some "constant".toList, some [], some [("b1".toList, 5), ("b0".toList, 4)], some [0, 1, 2],
    some [1], some [[4], [5]]⟩ : Obj Nat (List Nat) (List (List Nat))) =
    .ok ⟨"GCph".toList, "constant".toList, [], [("b0".toList, 4), ("b1".toList, 5)], some [0, 1, 2], some [1], some [[4], [5]]⟩ := by
  decide +kernel

end Seyfert.BiasFile
