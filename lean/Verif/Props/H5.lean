import Verif.Model.H5
import Verif.Lemmas.PyDict

/-!
C48, C72: opening and saving HDF5 files.
-/

set_option linter.unusedSectionVars false

namespace Seyfert.H5

variable {V : Type}

/-- Everything in `f` is still in `g`: groups, and data sets with their values. -/
def Kept (f g : File V) : Prop := (∀ p ∈ f.groups, p ∈ g.groups) ∧ (∀ p v, f.data.lookup p = some v → g.data.lookup p = some v)

/-- The same for a file that may not be there. -/
def KeptFs (fs fs' : Option (File V)) : Prop := ∀ f, fs = some f → ∃ g, fs' = some g ∧ Kept f g

theorem Kept.refl (f : File V) : Kept f f := ⟨fun _ h => h, fun _ _ h => h⟩
theorem Kept.trans {f g h : File V} (a : Kept f g) (b : Kept g h) : Kept f h :=
  ⟨fun p hp => b.1 p (a.1 p hp), fun p v hp => b.2 p v (a.2 p v hp)⟩
theorem KeptFs.refl (fs : Option (File V)) : KeptFs fs fs := fun f h => ⟨f, h, Kept.refl f⟩
theorem KeptFs.trans {a b c : Option (File V)} (h1 : KeptFs a b) (h2 : KeptFs b c) : KeptFs a c := by
  intro f hf
  obtain ⟨g, hg, k1⟩ := h1 f hf
  obtain ⟨h, hh, k2⟩ := h2 g hg
  exact ⟨h, hh, k1.trans k2⟩

theorem kept_createGroup {f g : File V} {p : Path} (h : f.createGroup p = .ok g) : Kept f g := by
  unfold File.createGroup at h
  split at h
  · simp at h
  · split at h
    · simp at h
    · obtain rfl := Except.ok.inj h
      exact ⟨fun q hq => List.mem_append_left _ hq, fun _ _ h => h⟩

theorem has_data {f : File V} {p : Path} {v : V} (h : f.data.lookup p = some v) : f.has p = true := by
  unfold File.has
  have : p ∈ f.data.map (·.1) := (PyDict.lookup_isSome_iff f.data p).mp (by rw [h]; rfl)
  simp only [Bool.or_eq_true, List.contains_iff_mem]
  exact Or.inr this

theorem createData_ok {f g : File V} {p : Path} {n : Str} {v : V} (h : f.createData p n v = .ok g) :
    f.has (p ++ [n]) = false ∧ g = { f with data := f.data ++ [(p ++ [n], v)] } := by
  unfold File.createData at h
  split at h
  · simp at h
  · rename_i h0
    split at h
    · simp at h
    · exact ⟨by simpa using h0, (Except.ok.inj h).symm⟩

theorem lookup_append_some (d : Dict Path V) (p q : Path) (v w : V) (h : d.lookup p = some v) :
    (d ++ [(q, w)]).lookup p = some v := by
  rw [List.lookup_append, h]
  rfl

theorem kept_createData {f g : File V} {p : Path} {n : Str} {v : V} (h : f.createData p n v = .ok g) : Kept f g := by
  obtain ⟨_, rfl⟩ := createData_ok h
  exact ⟨fun _ hq => hq, fun q w hq => lookup_append_some _ _ _ _ _ hq⟩

theorem kept_attrs (f : File V) (root : Path) (m : List (Str × V)) :
    Kept f (m.foldl (fun f p => f.setAttr root p.1 p.2) f) := by
  induction m generalizing f with
  | nil => exact Kept.refl f
  | cons p m ih => exact Kept.trans (g := f.setAttr root p.1 p.2) ⟨fun _ h => h, fun _ _ h => h⟩ (ih _)

theorem kept_apply {f g : File V} {root : Path} {op : Op V} (h : apply f root op = .ok g) : Kept f g := by
  cases op with
  | group p => exact kept_createGroup h
  | data p n v => exact kept_createData h
  | attr p n v =>
    obtain rfl := Except.ok.inj h
    exact ⟨fun _ h => h, fun _ _ h => h⟩

theorem kept_applyAll (f : File V) (root : Path) (ops : List (Op V)) : Kept f (applyAll f root ops).2 := by
  induction ops generalizing f with
  | nil => exact Kept.refl f
  | cons op ops ih =>
    rw [applyAll]
    cases h : apply f root op with
    | error e => exact Kept.refl f
    | ok g => exact (kept_apply h).trans (ih g)

theorem kept_enter (f : File V) (m : Mode) (root : Path) (me : List (Str × V)) : Kept f (enter f m root me).2 := by
  unfold enter
  split
  · split
    · exact Kept.refl f
    · exact kept_attrs f root me
  · split
    · exact Kept.refl f
    · cases h : f.createGroup root with
      | error e => exact Kept.refl f
      | ok g => exact (kept_createGroup h).trans (kept_attrs g root me)

/-! ### C48 -/

/-- Opening keeps all groups and data sets, in every mode, whether it succeeds or not: write mode is refused on an
existing file. -/
theorem open_keeps (fs : Option (File V)) (mode : Str) (root : Path) (stamp : V) (cr : List (Str × V)) :
    KeptFs fs (openFile fs mode root stamp cr).2 := by
  unfold openFile
  cases hm : parseMode mode with
  | none => exact KeptFs.refl fs
  | some m =>
    simp only
    split
    · exact KeptFs.refl fs
    · rename_i hw
      cases h : h5pyOpen fs m with
      | error e => exact KeptFs.refl fs
      | ok f =>
        intro g hg
        subst hg
        refine ⟨_, rfl, ?_⟩
        have : f = g := by
          cases m with
          | r => exact (Except.ok.inj h).symm
          | rplus => exact (Except.ok.inj h).symm
          | w => exact absurd ⟨rfl, rfl⟩ hw
          | wminus => simp [h5pyOpen] at h
          | x => simp [h5pyOpen] at h
          | a => exact (Except.ok.inj h).symm
        subst this
        exact kept_enter f m root _

/-- Write mode on an existing file is refused, and the file is left exactly as it is. -/
theorem write_refused (f : File V) (root : Path) (stamp : V) (cr : List (Str × V)) :
    openFile (some f) "w".toList root stamp cr = (.error .fileExists, some f) := rfl

/-- Reading changes nothing at all, whatever the outcome. -/
theorem load_keeps {O : Type} (fs : Option (File V)) (root : Path) (stamp : V) (cr : List (Str × V))
    (read : File V → Path → Except Err O) : (load fs root stamp cr read).2 = fs := by
  cases fs with
  | none => rfl
  | some f =>
    have hm : parseMode "r".toList = some .r := by decide
    unfold load openFile
    rw [hm]
    simp only [h5pyOpen, enter]
    by_cases h : f.has root = true
    · simp [h]
    · simp [h]

/-- Reading a missing file, or a missing group, is refused. -/
theorem load_missing {O : Type} (root : Path) (stamp : V) (cr : List (Str × V)) (read : File V → Path → Except Err O) :
    (load none root stamp cr read).1 = .error .missing ∧
    ∀ f : File V, f.has root = false → (load (some f) root stamp cr read).1 = .error .readOnly := by
  refine ⟨rfl, fun f hf => ?_⟩
  have hm : parseMode "r".toList = some .r := by decide
  unfold load openFile
  rw [hm]
  simp [h5pyOpen, enter, hf]

/-- Saving to an existing file keeps everything that is in it, whether it succeeds or not. -/
theorem save_keeps (fs : Option (File V)) (root : Path) (stamp : V) (cr : List (Str × V)) (ops : List (Op V)) :
    KeptFs fs (save fs root stamp cr ops).2 := by
  have h := open_keeps fs (if fs.isSome then "a".toList else "w".toList) root stamp cr
  unfold save
  generalize openFile fs (if fs.isSome then "a".toList else "w".toList) root stamp cr = q at h
  obtain ⟨r, fs'⟩ := q
  cases r with
  | error e => exact h
  | ok u =>
    cases fs' with
    | none => exact h
    | some f =>
      refine h.trans ?_
      intro g hg
      obtain rfl := Option.some.inj hg
      exact ⟨_, rfl, kept_applyAll f root ops⟩

/-- A successful save has written every data set of the object. -/
theorem applyAll_written (f : File V) (root : Path) (ops : List (Op V)) (h : (applyAll f root ops).1 = .ok ())
    (g : Path) (n : Str) (v : V) (hop : Op.data g n v ∈ ops) :
    (applyAll f root ops).2.data.lookup (root ++ g ++ [n]) = some v := by
  induction ops generalizing f with
  | nil => simp at hop
  | cons op ops ih =>
    rw [applyAll] at h ⊢
    cases ha : apply f root op with
    | error e => rw [ha] at h; simp at h
    | ok f' =>
      rw [ha] at h
      simp only at h ⊢
      rcases List.mem_cons.mp hop with rfl | hop
      · obtain ⟨h1, rfl⟩ := createData_ok ha
        apply (kept_applyAll _ root ops).2
        rw [List.lookup_append]
        have : f.data.lookup (root ++ g ++ [n]) = none := by
          cases hl : f.data.lookup (root ++ g ++ [n]) with
          | none => rfl
          | some w => rw [has_data hl] at h1; simp at h1
        rw [this]
        simp
      · exact ih f' h hop

theorem save_written (fs : Option (File V)) (root : Path) (stamp : V) (cr : List (Str × V)) (ops : List (Op V))
    (h : (save fs root stamp cr ops).1 = .ok ()) (g : Path) (n : Str) (v : V) (hop : Op.data g n v ∈ ops) :
    ∃ f, (save fs root stamp cr ops).2 = some f ∧ f.data.lookup (root ++ g ++ [n]) = some v := by
  unfold save at h ⊢
  generalize openFile fs (if fs.isSome then "a".toList else "w".toList) root stamp cr = q at h
  obtain ⟨r, fs'⟩ := q
  cases r with
  | error e => simp at h
  | ok u =>
    cases fs' with
    | none => simp at h
    | some f => exact ⟨_, rfl, applyAll_written f root ops h g n v hop⟩

/-- Saving something under a name that is taken is refused. -/
theorem save_taken (f : File V) (root : Path) (stamp : V) (cr : List (Str × V)) (ops : List (Op V)) (g : Path) (n : Str)
    (v w : V) (hop : Op.data g n v ∈ ops) (h : f.data.lookup (root ++ g ++ [n]) = some w) (hr : f.has root = true) :
    ∃ e, (save (some f) root stamp cr ops).1 = .error e := by
  cases hs : (save (some f) root stamp cr ops).1 with
  | error e => exact ⟨e, rfl⟩
  | ok u =>
    exfalso
    unfold save at hs
    have hm : parseMode "a".toList = some .a := by decide
    have ho : openFile (some f) (if (some f).isSome then "a".toList else "w".toList) root stamp cr =
        (.ok (), some ((metadata true .a root stamp cr).foldl (fun f p => f.setAttr root p.1 p.2) f)) := by
      unfold openFile
      simp only [Option.isSome_some, if_true, hm]
      simp [h5pyOpen, enter, hr]
    rw [ho] at hs
    simp only at hs
    have hk := (kept_attrs f root (metadata true .a root stamp cr)).2 _ _ h
    generalize (metadata true .a root stamp cr).foldl (fun f p => f.setAttr root p.1 p.2) f = f' at *
    clear h hr ho
    induction ops generalizing f' with
    | nil => simp at hop
    | cons op ops ih =>
      rw [applyAll] at hs
      cases ha : apply f' root op with
      | error e => rw [ha] at hs; simp at hs
      | ok f2 =>
        rw [ha] at hs
        rcases List.mem_cons.mp hop with rfl | hop
        · have := (createData_ok ha).1
          rw [has_data hk] at this
          simp at this
        · exact ih hop f2 hs ((kept_apply ha).2 _ _ hk)

/-- A use of the file: opening in some mode, saving an object, loading. -/
inductive Use (V : Type)
  | open_ (mode : Str) (root : Path)
  | save (root : Path) (ops : List (Op V))
  | load (root : Path)

def use (stamp : V) (cr : List (Str × V)) (fs : Option (File V)) : Use V → Option (File V)
  | .open_ m root => (openFile fs m root stamp cr).2
  | .save root ops => (Seyfert.H5.save fs root stamp cr ops).2
  | .load root => (Seyfert.H5.load (O := Unit) fs root stamp cr (fun _ _ => .ok ())).2

/-- What has once been written stays, over every history of uses of the file. -/
theorem history_keeps (stamp : V) (cr : List (Str × V)) (us : List (Use V)) (fs : Option (File V)) :
    KeptFs fs (us.foldl (use stamp cr) fs) := by
  induction us generalizing fs with
  | nil => exact KeptFs.refl fs
  | cons u us ih =>
    refine KeptFs.trans ?_ (ih _)
    cases u with
    | open_ m root => exact open_keeps fs m root stamp cr
    | save root ops => exact save_keeps fs root stamp cr ops
    | load root =>
      have := load_keeps (O := Unit) fs root stamp cr (fun _ _ => .ok ())
      have e : use stamp cr fs (.load root) = fs := this
      rw [e]
      exact KeptFs.refl fs

/-! ### C72: a failed save leaves no trace -/

/-- Saving to a new file under names that are all different succeeds. Of a failed save everything before the failing
step stays, so only this case is as claimed. -/
theorem save_new_partial (root : Path) (stamp : V) (cr : List (Str × V)) (items : List (Str × V))
    (hn : (items.map (·.1)).Nodup) :
    (save none root stamp cr (items.map fun p => Op.data [] p.1 p.2)).1 = .ok () := by
  have hm : parseMode "w".toList = some .w := by decide
  have ho : ∃ f : File V, openFile none (if (none : Option (File V)).isSome then "a".toList else "w".toList) root stamp cr =
      (.ok (), some f) ∧ f.data = [] ∧ ∀ p ∈ f.groups, p ≠ [] ∧ p.length ≤ root.length := by
    have ha : ∀ (f : File V) (me : List (Str × V)), (me.foldl (fun f p => f.setAttr root p.1 p.2) f).data = f.data ∧
        (me.foldl (fun f p => f.setAttr root p.1 p.2) f).groups = f.groups := by
      intro f me
      induction me generalizing f with
      | nil => exact ⟨rfl, rfl⟩
      | cons p me ih => exact ih (f.setAttr root p.1 p.2)
    have hb : ∀ r : Path, ∀ p ∈ begins r, p ≠ [] ∧ p.length ≤ r.length := by
      intro r
      induction r with
      | nil => simp [begins]
      | cons c r ih =>
        intro p hp
        rw [begins] at hp
        rcases List.mem_cons.mp hp with rfl | hp
        · simp
        · obtain ⟨q, hq, rfl⟩ := List.mem_map.mp hp
          have := (ih q hq).2
          simp only [ne_eq, reduceCtorEq, not_false_eq_true, List.length_cons, true_and]
          omega
    unfold openFile
    simp only [Option.isSome_none, Bool.false_eq_true, if_false, hm, false_and, h5pyOpen]
    unfold enter
    by_cases hr : (File.empty : File V).has root = true
    · rw [if_pos hr, if_neg (by decide)]
      refine ⟨_, rfl, (ha _ _).1, ?_⟩
      rw [(ha _ _).2]
      simp [File.empty]
    · rw [if_neg hr, if_neg (by decide)]
      have hc : (File.empty : File V).createGroup root = .ok { (File.empty : File V) with groups := (begins root) } := by
        unfold File.createGroup
        rw [if_neg hr, if_neg (by simp [File.empty])]
        simp [File.empty]
      rw [hc]
      refine ⟨_, rfl, (ha _ _).1, ?_⟩
      rw [(ha _ _).2]
      exact hb root
  obtain ⟨f, h1, h2, h3⟩ := ho
  unfold save
  rw [h1]
  simp only
  have key : ∀ (items : List (Str × V)) (done : List (Str × V)) (f : File V),
      ((done ++ items).map (·.1)).Nodup → f.data = done.map (fun p => (root ++ [p.1], p.2)) →
      (∀ p ∈ f.groups, p ≠ [] ∧ p.length ≤ root.length) →
      (applyAll f root (items.map fun p => Op.data [] p.1 p.2)).1 = .ok () := by
    intro items
    induction items with
    | nil => intros; rfl
    | cons p items ih =>
      intro done f hn hd hg
      rw [List.map_cons, applyAll]
      have hc : apply f root (.data [] p.1 p.2) = .ok { f with data := f.data ++ [(root ++ [p.1], p.2)] } := by
        show f.createData (root ++ []) p.1 p.2 = _
        unfold File.createData
        rw [List.append_nil, if_neg, if_neg]
        · rw [List.any_eq_true]
          rintro ⟨q, hq, hq2⟩
          have hql : ∀ r : Path, ∀ p ∈ begins r, p.length ≤ r.length := by
            intro r
            induction r with
            | nil => simp [begins]
            | cons c r ih =>
              intro p hp
              rw [begins] at hp
              rcases List.mem_cons.mp hp with rfl | hp
              · simp
              · obtain ⟨q, hq, rfl⟩ := List.mem_map.mp hp
                have := ih q hq
                simp only [List.length_cons]
                omega
          have hl := hql root q hq
          rw [hd, List.contains_iff_mem, List.map_map] at hq2
          obtain ⟨x, _, hx⟩ := List.mem_map.mp hq2
          rw [← hx] at hl
          simp at hl
          omega
        · unfold File.has
          simp only [Bool.or_eq_true, List.contains_iff_mem, List.isEmpty_iff, List.append_eq_nil_iff]
          rintro ((⟨_, h⟩ | h) | h)
          · simp at h
          · have := (hg _ h).2
            simp at this
            omega
          · rw [hd, List.map_map] at h
            obtain ⟨x, hx, hx2⟩ := List.mem_map.mp h
            have e : x.1 = p.1 := by
              have := List.append_cancel_left hx2
              exact (List.cons.inj this).1
            rw [List.map_append, List.map_cons] at hn
            have := (List.nodup_append.mp hn).2.2 x.1 (List.mem_map_of_mem hx) p.1 List.mem_cons_self
            exact this e
      rw [hc]
      simp only
      refine ih (done ++ [p]) _ (by simpa using hn) ?_ hg
      simp only [hd, List.map_append, List.map_cons, List.map_nil]
  exact key items [] f (by simpa using hn) h2 h3

/-- Witness: saving a second object to the same group fails at its first data set, after its attributes have replaced
those of the first: the file then has the attributes of one object and the data of the other. -/
theorem failed_save_mixes :
    ∃ f : File Nat, f.attrs.lookup ([], "probe".toList) = some 1 ∧ f.data.lookup ["z_grid".toList] = some 10 ∧
      (save (some f) [] 0 [] [.attr [] "probe".toList 2, .data [] "z_grid".toList 20]).1 = .error .nodeExists ∧
      ∃ g, (save (some f) [] 0 [] [.attr [] "probe".toList 2, .data [] "z_grid".toList 20]).2 = some g ∧
        g.attrs.lookup ([], "probe".toList) = some 2 ∧ g.data.lookup ["z_grid".toList] = some 10 := by
  refine ⟨⟨[], [(["z_grid".toList], 10)], [(([], "probe".toList), 1)]⟩, ?_⟩
  decide +kernel

example : (save (none : Option (File Nat)) ["a".toList, "b".toList] 0 [] [.data [] "x".toList 3]).1 = .ok () := by
  decide +kernel

/-- Opening an existing file at an existing group other than the root changes nothing, whatever the mode; at the root it
only sets the time of the update, and in reading mode not even that. -/
theorem open_existing (f : File V) (mode : Str) (root : Path) (stamp : V) (cr : List (Str × V)) (hr : f.has root = true) :
    (root ≠ [] → (openFile (some f) mode root stamp cr).2 = some f) ∧
    (mode = "r".toList → openFile (some f) mode root stamp cr = (.ok (), some f)) ∧
    (mode = "a".toList ∨ mode = "r+".toList → openFile (some f) mode [] stamp cr =
      (.ok (), some (f.setAttr [] "LastUpdate".toList stamp))) := by
  refine ⟨fun h0 => ?_, ?_, ?_⟩
  · unfold openFile
    cases hm : parseMode mode with
    | none => rfl
    | some m =>
      simp only
      cases m with
      | w => rfl
      | wminus => rfl
      | x => rfl
      | r =>
        rw [if_neg (fun h => by cases h.2)]
        simp only [h5pyOpen, enter, hr, if_true]
      | rplus =>
        rw [if_neg (fun h => by cases h.2)]
        simp only [h5pyOpen, enter, hr, if_true, metadata, Option.isSome_some, h0, and_false, if_false]
        rfl
      | a =>
        rw [if_neg (fun h => by cases h.2)]
        simp only [h5pyOpen, enter, hr, if_true, metadata, Option.isSome_some, h0, and_false, if_false, Option.getD_some]
        rfl
  · rintro rfl
    unfold openFile
    have hm : parseMode "r".toList = some .r := by decide +kernel
    rw [hm]
    simp only
    rw [if_neg (fun h => by cases h.2)]
    simp only [h5pyOpen, enter, hr, if_true]
  · have h0 : f.has [] = true := rfl
    rintro (rfl | rfl)
    · unfold openFile
      have hm : parseMode "a".toList = some .a := by decide +kernel
      rw [hm]
      simp only
      rw [if_neg (fun h => by cases h.2)]
      simp only [h5pyOpen, enter, h0, if_true, Option.getD_some]
      rfl
    · unfold openFile
      have hm : parseMode "r+".toList = some .rplus := by decide +kernel
      rw [hm]
      simp only
      rw [if_neg (fun h => by cases h.2)]
      simp only [h5pyOpen, enter, h0, if_true]
      rfl

example : (openFile (some (⟨[["a".toList]], [], []⟩ : File Nat)) "a".toList ["a".toList] 1 []).2 =
    some ⟨[["a".toList]], [], []⟩ :=
  (open_existing ⟨[["a".toList]], [], []⟩ _ _ 1 [] rfl).1 (by simp)

end Seyfert.H5
