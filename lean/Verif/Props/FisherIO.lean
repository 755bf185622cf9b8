import Verif.Model.FisherIO
import Verif.Props.Fisher

/-!
C29: Fisher files and tables.  C53: relative errors and figure of merit.
-/

set_option linter.unusedSectionVars false

namespace Seyfert.Fisher

variable {N K : Type} [LinearOrder N] [Field K] [DecidableEq K]

/-! ### C29: files -/

/-- The path a request is about. -/
def target (outdir outfile : Option Str) (name : Str) : Option Str :=
  match outfile with
  | some f => some f
  | none => outdir.map (fun d => d ++ "/".toList ++ fileName name)

theorem outPath_eq (od o : Option Str) (name : Str) : outPath od o name = target od o name := by
  cases o <;> rfl

/-- C29. Neither a directory nor a file: an error, nothing written. -/
theorem write_no_target (en : Finset N → List N) (disk : Disk N K) (ow sk : Bool) (F : FM N K) :
    writeFisher en disk none none ow sk F = (disk, .error .fisherError) := rfl

/-- C29. The file exists and overwriting was not asked for: an error unless skipping was asked for,
and in both cases nothing is written. -/
theorem write_existing (en : Finset N → List N) (disk : Disk N K) (od o : Option Str) (sk : Bool)
    (F : FM N K) {p : Str} (hp : target od o F.name = some p) (he : (disk p).isSome) :
    writeFisher en disk od o false sk F
      = (disk, if sk then .ok () else .error .fileExists) := by
  unfold writeFisher
  rw [outPath_eq, hp]
  cases sk <;> simp [he]

/-- C29. In all other cases the file then holds the matrix, whatever was there before. -/
theorem write_ok (en : Finset N → List N) (disk : Disk N K) (od o : Option Str) (ow sk : Bool)
    (F : FM N K) {p : Str} (hp : target od o F.name = some p)
    (he : disk p = none ∨ (ow = true ∧ sk = false)) :
    writeFisher en disk od o ow sk F
      = (fun q => if q = p then some (F.toFile en) else disk q, .ok ()) := by
  unfold writeFisher
  rw [outPath_eq, hp]
  rcases he with he | ⟨rfl, rfl⟩
  · simp [he]
  · simp

/-- C29. No write without overwriting changes an existing file: invariant of any history of writes. -/
theorem history_keeps_files (en : Finset N → List N)
    (ws : List (Option Str × Option Str × Bool × FM N K)) (disk : Disk N K) (p : Str)
    (f : FisherFile N K) (hp : disk p = some f) :
    (ws.foldl (fun d w => (writeFisher en d w.1 w.2.1 false w.2.2.1 w.2.2.2).1) disk) p = some f := by
  induction ws generalizing disk with
  | nil => exact hp
  | cons w ws ih =>
    rw [List.foldl_cons]
    apply ih
    obtain ⟨od, o, sk, F⟩ := w
    simp only
    cases ht : target od o F.name with
    | none =>
      cases o with
      | some g => cases ht
      | none => cases od with
        | some g => cases ht
        | none => exact hp
    | some q =>
      by_cases hq : (disk q).isSome
      · rw [write_existing en disk od o sk F ht hq]; exact hp
      · rw [write_ok en disk od o false sk F ht (Or.inl (by simpa using hq))]
        simp only
        rw [if_neg]
        · exact hp
        · rintro rfl; rw [hp] at hq; simp at hq

theorem cell_data {d : DF N K} {S : Finset N} (h : d.On S) {a b : N} (ha : a ∈ S) (hb : b ∈ S) :
    cell (d.rows.map (fun a => d.cols.map (fun b => d.val a b))) (d.rows.idxOf a) (d.rows.idxOf b)
      = d.val a b := by
  have h1 := List.idxOf_lt_length_iff.mpr ((h.mem a).mpr ha)
  have h2 := List.idxOf_lt_length_iff.mpr ((h.mem b).mpr hb)
  unfold cell
  rw [h.same]
  simp [List.getElem?_map, List.getElem?_eq_getElem h1, List.getElem?_eq_getElem h2]

theorem load_toFile {en : Finset N → List N} (hen : Iteration en) {F : FM N K} (hF : F.WF) :
    ∃ G, (F.toFile en).load = .ok G ∧ G.WF ∧ G.name = F.name ∧ SameContent F G ∧
      G.matrix.rows = F.matrix.rows ∧ G.margFlag = true ∧ G.inverse = none := by
  have hF' : F.matrix.On (F.cosmo ∪ F.nuis) := hF
  have hc : (en F.cosmo).toFinset = F.cosmo := by ext a; simp [(hen F.cosmo).2]
  have hnu : (match (F.toFile en).nuis with
      | some l => l.toFinset
      | none => ∅) = F.nuis := by
    unfold FM.toFile
    simp only
    by_cases h : (en F.nuis).length > 0
    · rw [if_pos h]; ext a; simp [(hen F.nuis).2]
    · rw [if_neg h]
      have h0 : en F.nuis = [] := List.length_eq_zero_iff.mp (by omega)
      symm
      rw [Finset.eq_empty_iff_forall_notMem]
      intro a ha
      have := ((hen F.nuis).2 a).mpr ha
      rw [h0] at this
      simp at this
  have hlen : (F.toFile en).data.length = (F.toFile en).indices.length ∧
      ∀ r ∈ (F.toFile en).data, r.length = (F.toFile en).indices.length := by
    unfold FM.toFile
    simp only [List.length_map, List.mem_map, true_and]
    rintro r ⟨a, _, rfl⟩
    rw [List.length_map, hF'.same]
  have hon : (DF.mk F.matrix.rows F.matrix.rows (fun a b =>
      cell (F.toFile en).data (F.matrix.rows.idxOf a) (F.matrix.rows.idxOf b))).On
      (F.cosmo ∪ F.nuis) := ⟨rfl, hF'.nodup, hF'.mem⟩
  refine ⟨(F.toFile en).toFM, if_pos hlen, ?_, rfl, ⟨?_, ?_, ?_⟩, rfl, rfl, rfl⟩
  · have h1 : (F.toFile en).toFM.cosmo = F.cosmo := hc
    have h2 : (F.toFile en).toFM.nuis = F.nuis := hnu
    unfold FM.WF
    rw [h1, h2]; exact hon
  · show F.cosmo = (en F.cosmo).toFinset
    rw [hc]
  · exact hnu.symm
  · intro a b
    show F.matrix.ent a b = DF.ent (DF.mk F.matrix.rows F.matrix.rows (fun a b =>
      cell (F.toFile en).data (F.matrix.rows.idxOf a) (F.matrix.rows.idxOf b))) a b
    rw [On.ent hF', On.ent hon]
    split
    · rename_i h; exact (cell_data hF' h.1 h.2).symm
    · rfl

/-- C29. What is loaded from a written file is what was written: name, parameters, entries and row
order; the nuisance flag and the cached inverse are those of a new object. -/
theorem write_load {en : Finset N → List N} (hen : Iteration en) (disk : Disk N K)
    (od o : Option Str) (ow sk : Bool) {F : FM N K} (hF : F.WF) {p : Str}
    (hp : target od o F.name = some p) (he : disk p = none ∨ (ow = true ∧ sk = false)) :
    ∃ G, loadFisher (writeFisher en disk od o ow sk F).1 p = .ok G ∧ G.WF ∧ G.name = F.name ∧
      SameContent F G ∧ G.matrix.rows = F.matrix.rows ∧ G.margFlag = true ∧ G.inverse = none := by
  rw [write_ok en disk od o ow sk F hp he]
  unfold loadFisher
  simp only [if_true]
  exact load_toFile hen hF

/-- The nuisance flag is not stored: a matrix saved with the flag off comes back with it on. -/
theorem load_forgets_flag {en : Finset N → List N} (hen : Iteration en) {F : FM N K} (hF : F.WF)
    (_ : F.margFlag = false) : ∃ G, (F.toFile en).load = .ok G ∧ G.margFlag = true := by
  obtain ⟨G, h1, _, _, _, _, h2, _⟩ := load_toFile hen hF
  exact ⟨G, h1, h2⟩

/-- C29. Saving matrices with distinct file names into a directory that has none of them: all are
written and can be loaded back, and other files stay. -/
theorem save_all {en : Finset N → List N} (hen : Iteration en) (outdir : Str) (ow : Bool)
    (Fs : List (FM N K)) (disk : Disk N K) (hF : ∀ F ∈ Fs, F.WF)
    (hd : (Fs.map (fun F => fileName F.name)).Nodup)
    (hnew : ow = true ∨ ∀ F ∈ Fs, disk (outdir ++ "/".toList ++ fileName F.name) = none) :
    (saveAll en outdir ow disk Fs).2 = .ok () ∧
    (∀ F ∈ Fs, ∃ G, loadFisher (saveAll en outdir ow disk Fs).1
      (outdir ++ "/".toList ++ fileName F.name) = .ok G ∧ G.WF ∧ G.name = F.name ∧
      SameContent F G) ∧
    (∀ q, (∀ F ∈ Fs, q ≠ outdir ++ "/".toList ++ fileName F.name) →
      (saveAll en outdir ow disk Fs).1 q = disk q) := by
  induction Fs generalizing disk with
  | nil => exact ⟨rfl, by simp, fun q _ => rfl⟩
  | cons F Fs ih =>
    rw [List.map_cons, List.nodup_cons] at hd
    have hne : ∀ G ∈ Fs, outdir ++ "/".toList ++ fileName G.name
        ≠ outdir ++ "/".toList ++ fileName F.name := by
      intro G hG h
      exact hd.1 (List.mem_map.mpr ⟨G, hG, List.append_cancel_left h⟩)
    have hw := write_ok en disk (some outdir) none ow false F
      (p := outdir ++ "/".toList ++ fileName F.name) rfl (by
        rcases hnew with h | h
        · exact Or.inr ⟨h, rfl⟩
        · exact Or.inl (h F List.mem_cons_self))
    obtain ⟨h1, h2, h3⟩ := ih (fun q => if q = outdir ++ "/".toList ++ fileName F.name then
        some (F.toFile en) else disk q) (fun G hG => hF G (List.mem_cons_of_mem _ hG)) hd.2 (by
      rcases hnew with h | h
      · exact Or.inl h
      · right
        intro G hG
        rw [if_neg (hne G hG)]
        exact h G (List.mem_cons_of_mem _ hG))
    have hs : saveAll en outdir ow disk (F :: Fs) = saveAll en outdir ow (fun q =>
        if q = outdir ++ "/".toList ++ fileName F.name then some (F.toFile en) else disk q) Fs := by
      rw [saveAll, hw]
    rw [hs]
    refine ⟨h1, ?_, ?_⟩
    · intro G hG
      rcases List.mem_cons.mp hG with rfl | hG
      · obtain ⟨R, r1, r2, r3, r4, _⟩ := load_toFile hen (hF G List.mem_cons_self)
        refine ⟨R, ?_, r2, r3, r4⟩
        unfold loadFisher
        rw [h3 _ (fun H hH => (hne H hH).symm)]
        simp only [if_true]
        exact r1
      · exact h2 G hG
    · intro q hq
      rw [h3 q (fun G hG => hq G (List.mem_cons_of_mem _ hG))]
      rw [if_neg (hq F List.mem_cons_self)]

/-- The names of the shipped data vectors and combinations
(data/fishers/selected_datavectors.txt, a_posteriori_fisher_combs.txt, plus the external one). -/
def shippedNames : List String := [
  "[WL]",
  "[GCph]",
  "[GCsp]",
  "[WL+GCph]",
  "[WL+GCph+XC(WL,GCph)]",
  "[WL+XC(WL,GCph)]",
  "[GCph+XC(WL,GCph)]",
  "[XC(WL,GCph)]",
  "[WL+GCsp]",
  "[WL+GCsp+XC(WL,GCsp)]",
  "[WL+XC(WL,GCsp)]",
  "[GCsp+XC(WL,GCsp)]",
  "[XC(WL,GCsp)]",
  "[GCph+GCsp]",
  "[GCph+GCsp+XC(GCph,GCsp)]",
  "[GCph+XC(GCph,GCsp)]",
  "[GCsp+XC(GCph,GCsp)]",
  "[XC(GCph,GCsp)]",
  "[WL+GCph+GCsp]",
  "[WL+GCph+GCsp+XC(WL,GCph)+XC(WL,GCsp)+XC(GCph,GCsp)]",
  "[WL+GCph+GCsp+XC(WL,GCph)+XC(GCph,GCsp)]",
  "[WL+GCph+GCsp+XC(WL,GCph)+XC(WL,GCsp)]",
  "[WL+GCph+GCsp+XC(WL,GCsp)+XC(GCph,GCsp)]",
  "[WL+GCph+GCsp+XC(WL,GCph)]",
  "[WL+GCph+GCsp+XC(WL,GCsp)]",
  "[WL+GCph+GCsp+XC(GCph,GCsp)]",
  "[WL+GCph+XC(WL,GCph)+XC(WL,GCsp)+XC(GCph,GCsp)]",
  "[WL+GCph+XC(WL,GCph)+XC(WL,GCsp)]",
  "[WL+GCph+XC(WL,GCph)+XC(GCph,GCsp)]",
  "[WL+GCph+XC(WL,GCsp)+XC(GCph,GCsp)]",
  "[WL+GCph+XC(WL,GCsp)]",
  "[WL+GCph+XC(GCph,GCsp)]",
  "[GCsp+XC(WL,GCph)]",
  "[GCsp(Pk)]",
  "[GCph] + [GCsp]",
  "[GCph] + [XC(GCph,GCsp)]",
  "[GCph+XC(GCph,GCsp)] + [GCsp]",
  "[GCsp+XC(GCph,GCsp)] + [GCph]",
  "[GCph+GCsp] + [XC(GCph,GCsp)]",
  "[GCph] + [GCsp] + [XC(GCph,GCsp)]",
  "[GCph] + [GCsp(Pk)]",
  "[GCph+XC(GCph,GCsp)] + [GCsp(Pk)]",
  "[GCph+GCsp+XC(GCph,GCsp)] - [GCsp]",
  "[GCph+GCsp+XC(GCph,GCsp)] - [GCsp] + [GCsp(Pk)]",
  "[WL] + [GCsp]",
  "[WL] + [XC(WL,GCsp)]",
  "[WL+XC(WL,GCsp)] + [GCsp]",
  "[GCsp+XC(WL,GCsp)] + [WL]",
  "[WL+GCsp] + [XC(WL,GCsp)]",
  "[WL] + [GCsp] + [XC(WL,GCsp)]",
  "[WL] + [GCsp(Pk)]",
  "[WL+XC(WL,GCsp)] + [GCsp(Pk)]",
  "[WL+GCsp+XC(WL,GCsp)] - [GCsp]",
  "[WL+GCsp+XC(WL,GCsp)] - [GCsp] + [GCsp(Pk)]",
  "[WL] + [GCph]",
  "[WL] + [XC(WL,GCph)]",
  "[WL+XC(WL,GCph)] + [GCph]",
  "[GCph+XC(WL,GCph)] + [WL]",
  "[WL] + [GCph] + [XC(WL,GCph)]",
  "[WL] + [GCph] + [GCsp]",
  "[GCsp] + [XC(WL,GCph)]",
  "[WL+GCph] + [GCsp]",
  "[WL+GCph+XC(WL,GCph)] + [GCsp]",
  "[WL+GCph+XC(WL,GCph)+XC(WL,GCsp)+XC(GCph,GCsp)] + [GCsp]",
  "[WL+GCph+XC(WL,GCph)+XC(GCph,GCsp)] + [GCsp]",
  "[WL+GCph+XC(WL,GCph)+XC(WL,GCsp)] + [GCsp]",
  "[WL+GCph+XC(WL,GCsp)+XC(GCph,GCsp)] + [GCsp]",
  "[WL+GCph+XC(WL,GCsp)] + [GCsp]",
  "[WL+GCph+XC(GCph,GCsp)] + [GCsp]",
  "[WL+GCph+GCsp+XC(WL,GCph)+XC(WL,GCsp)+XC(GCph,GCsp)] - [GCsp]",
  "[WL+GCph+GCsp+XC(WL,GCph)+XC(WL,GCsp)] - [GCsp]",
  "[WL+GCph+GCsp+XC(WL,GCph)+XC(GCph,GCsp)] - [GCsp]",
  "[WL+GCph+GCsp+XC(WL,GCsp)+XC(GCph,GCsp)] - [GCsp]",
  "[WL+GCph+GCsp+XC(WL,GCph)+XC(WL,GCsp)+XC(GCph,GCsp)] - [GCsp] + [GCsp(Pk)]",
  "[WL+GCph+GCsp+XC(WL,GCsp)] - [GCsp] + [GCsp(Pk)]",
  "[WL+GCph+GCsp+XC(GCph,GCsp)] - [GCsp] + [GCsp(Pk)]",
  "[WL+GCph+GCsp+XC(WL,GCph)+XC(WL,GCsp)] - [GCsp] + [GCsp(Pk)]",
  "[WL+GCph+GCsp+XC(WL,GCph)+XC(GCph,GCsp)] - [GCsp] + [GCsp(Pk)]",
  "[WL+GCph+GCsp+XC(WL,GCsp)+XC(GCph,GCsp)] - [GCsp] + [GCsp(Pk)]",
  "[WL] + [GCph] + [GCsp(Pk)]",
  "[WL+GCph+XC(WL,GCph)] + [GCsp(Pk)]",
  "[WL+GCph+XC(WL,GCph)+XC(WL,GCsp)+XC(GCph,GCsp)] + [GCsp(Pk)]",
  "[WL+GCph+XC(WL,GCsp)] + [GCsp(Pk)]",
  "[WL+GCph+XC(GCph,GCsp)] + [GCsp(Pk)]",
  "[WL+GCph+XC(WL,GCph)+XC(WL,GCsp)] + [GCsp(Pk)]",
  "[WL+GCph+XC(WL,GCph)+XC(GCph,GCsp)] + [GCsp(Pk)]",
  "[WL+GCph+XC(WL,GCsp)+XC(GCph,GCsp)] + [GCsp(Pk)]"]

/-- C29. The shipped names have pairwise different file names, so results do not collide. -/
theorem shipped_files_distinct :
    (shippedNames.map (fun s => fileName s.toList)).Nodup := by decide +kernel

/-- In general different names may share a file name, and then overwriting loses a matrix. -/
theorem file_name_collision : ("[WL]".toList : Str) ≠ "WL".toList ∧
    fileName "[WL]".toList = fileName "WL".toList := by decide +kernel

theorem collapse_sub (s : Str) : ∀ c ∈ collapse s, c ∈ s := by
  fun_induction collapse s with
  | case1 => simp
  | case2 r ih =>
    intro c hc
    exact List.mem_cons_of_mem _ (ih c hc)
  | case3 x r _ ih =>
    intro c hc
    rcases List.mem_cons.mp hc with rfl | hc
    · exact List.mem_cons_self
    · exact List.mem_cons_of_mem _ (ih c hc)

theorem collapse_plain (s : Str) (h : '_' ∉ s) : collapse s = s := by
  fun_induction collapse s with
  | case1 => rfl
  | case2 r ih => exact absurd List.mem_cons_self h
  | case3 x r _ ih => rw [ih fun hm => h (List.mem_cons_of_mem _ hm)]

theorem dropWhile_plain (s : Str) (h : '_' ∉ s) : s.dropWhile (· == '_') = s := by
  cases s with
  | nil => rfl
  | cons c s =>
    have : (c == '_') = false := beq_false_of_ne fun e => h (e ▸ List.mem_cons_self)
    simp [this]

theorem strip_plain (s : Str) (h : '_' ∉ s) : stripUnderscore s = s := by
  unfold stripUnderscore
  rw [dropWhile_plain s h, dropWhile_plain _ (by simpa using h), List.reverse_reverse]

theorem strip_sub (s : Str) : ∀ c ∈ stripUnderscore s, c ∈ s := by
  intro c hc
  unfold stripUnderscore at hc
  rw [List.mem_reverse] at hc
  have := (List.dropWhile_sublist _).subset hc
  rw [List.mem_reverse] at this
  exact (List.dropWhile_sublist _).subset this

/-- C29. A Fisher file name has no brackets, parentheses, blanks or commas, whatever the name of the matrix. -/
theorem file_name_clean (name : Str) (c : Char) (h : c ∈ fileName name) :
    c ≠ '[' ∧ c ≠ ']' ∧ c ≠ '(' ∧ c ≠ ')' ∧ c ≠ ' ' ∧ c ≠ ',' := by
  have key : ∀ x : Char, fileChar x ≠ '[' ∧ fileChar x ≠ ']' ∧ fileChar x ≠ '(' ∧ fileChar x ≠ ')' ∧
      fileChar x ≠ ' ' ∧ fileChar x ≠ ',' := by
    intro x
    unfold fileChar
    split_ifs with h1 h2
    · decide
    · decide
    · rw [not_or, not_or, not_or, not_or] at h1
      exact ⟨h1.1, h1.2.1, h1.2.2.1, h1.2.2.2.1, h1.2.2.2.2, h2⟩
  have f1 : ∀ c ∈ "fisher_".toList, c ≠ '[' ∧ c ≠ ']' ∧ c ≠ '(' ∧ c ≠ ')' ∧ c ≠ ' ' ∧ c ≠ ',' := by decide +kernel
  have f2 : ∀ c ∈ ".hdf5".toList, c ≠ '[' ∧ c ≠ ']' ∧ c ≠ '(' ∧ c ≠ ')' ∧ c ≠ ' ' ∧ c ≠ ',' := by decide +kernel
  unfold fileName at h
  rcases List.mem_append.mp h with h | h
  · rcases List.mem_append.mp h with h | h
    · exact f1 c h
    · obtain ⟨x, _, rfl⟩ := List.mem_map.mp (strip_sub _ c (collapse_sub _ c h))
      exact key x
  · exact f2 c h

/-- C29. Names without brackets, parentheses, blanks, underscores and dashes have different file names if they differ. -/
theorem file_name_injective (s t : Str) (hs : ∀ c ∈ s, c ∉ ['[', ']', '(', ')', ' ', '_', '-'])
    (ht : ∀ c ∈ t, c ∉ ['[', ']', '(', ')', ' ', '_', '-']) (h : fileName s = fileName t) : s = t := by
  have key : ∀ u : Str, (∀ c ∈ u, c ∉ ['[', ']', '(', ')', ' ', '_', '-']) →
      collapse (stripUnderscore (u.map fileChar)) = u.map fileChar := by
    intro u hu
    have : '_' ∉ u.map fileChar := by
      intro hm
      obtain ⟨x, hx, he⟩ := List.mem_map.mp hm
      have := hu x hx
      simp only [List.mem_cons, List.not_mem_nil, or_false, not_or] at this
      unfold fileChar at he
      rw [if_neg (by simp only [not_or]; exact ⟨this.1, this.2.1, this.2.2.1, this.2.2.2.1, this.2.2.2.2.1⟩)] at he
      split_ifs at he with h1
      · exact absurd he (by decide)
      · exact this.2.2.2.2.2.1 he
    rw [strip_plain _ this, collapse_plain _ this]
  unfold fileName at h
  have h := List.append_cancel_left (List.append_cancel_right h)
  rw [key s hs, key t ht] at h
  have inj : ∀ u v : Str, (∀ c ∈ u, c ∉ ['[', ']', '(', ')', ' ', '_', '-']) →
      (∀ c ∈ v, c ∉ ['[', ']', '(', ')', ' ', '_', '-']) → u.map fileChar = v.map fileChar → u = v := by
    intro u
    induction u with
    | nil => intro v _ _ h; cases v with
      | nil => rfl
      | cons => cases h
    | cons a u ih => intro v hu hv h; cases v with
      | nil => cases h
      | cons b v =>
        rw [List.map_cons, List.map_cons] at h
        injection h with h1 h2
        rw [ih v (fun c hc => hu c (List.mem_cons_of_mem _ hc)) (fun c hc => hv c (List.mem_cons_of_mem _ hc)) h2]
        have ha := hu a List.mem_cons_self
        have hb := hv b List.mem_cons_self
        simp only [List.mem_cons, List.not_mem_nil, or_false, not_or] at ha hb
        unfold fileChar at h1
        simp only [ha.1, ha.2.1, ha.2.2.1, ha.2.2.2.1, ha.2.2.2.2.1, hb.1, hb.2.1, hb.2.2.1, hb.2.2.2.1, hb.2.2.2.2.1,
          or_self, if_false] at h1
        split_ifs at h1 with c1 c2 c2
        · rw [c1, c2]
        · exact absurd h1.symm hb.2.2.2.2.2.2
        · exact absurd h1 ha.2.2.2.2.2.2
        · rw [h1]
  exact inj s t hs ht h

example : fileName "WL,GCph+GCsp".toList = "fisher_WL-GCph+GCsp.hdf5".toList := by decide +kernel

/-- C29. Tables: an existing table is never changed without overwriting, and the call reports
nothing; every other path is left alone. -/
theorem table_existing {T : Type} (files : Str → Option T) (path suffix : Str) (t : T)
    (he : (files path).isSome) : writeTable files path suffix false t = (files, .ok ()) := by
  have : files path ≠ none := by rintro h; rw [h] at he; simp at he
  simp [writeTable, this]

theorem table_written {T : Type} (files : Str → Option T) (path : Str) (ow : Bool) (t : T)
    (suffix : Str) (hs : suffix = ".csv".toList ∨ suffix = ".xlsx".toList)
    (he : files path = none ∨ ow = true) :
    (writeTable files path suffix ow t).2 = .ok () ∧
      (writeTable files path suffix ow t).1 path = some t ∧
      ∀ q, q ≠ path → (writeTable files path suffix ow t).1 q = files q := by
  have h : (files path).isNone ∨ ((files path).isSome ∧ ow = true) := by
    cases hf : files path with
    | none => exact Or.inl rfl
    | some x => rcases he with h | h
                · rw [hf] at h; cases h
                · exact Or.inr ⟨rfl, h⟩
  unfold writeTable
  rw [if_pos h, if_pos hs]
  exact ⟨rfl, by simp, fun q hq => by simp [hq]⟩

theorem table_bad_suffix {T : Type} (files : Str → Option T) (path suffix : Str) (ow : Bool) (t : T)
    (hs : suffix ≠ ".csv".toList ∧ suffix ≠ ".xlsx".toList) :
    (writeTable files path suffix ow t).1 = files := by
  unfold writeTable
  split
  · rw [if_neg (by tauto)]
  · rfl

example : ∃ G, loadFisher (writeFisher (fun s => s.sort (· ≤ ·)) (fun _ => none) (some "out".toList)
    none false false exF).1 ("out/fisher_WL.hdf5".toList) = .ok G ∧ SameContent exF G := by
  obtain ⟨G, h, _, _, h', _⟩ := write_load sortedIteration (fun _ => none) (some "out".toList) none
    false false exF_WF (p := "out/fisher_WL.hdf5".toList) (by decide +kernel) (Or.inl rfl)
  exact ⟨G, h, h'⟩

example : (saveAll (fun s => s.sort (· ≤ ·)) "out".toList false (fun _ => none) [exF, exG]).2 = .ok () :=
  (save_all sortedIteration _ false [exF, exG] _ (by
    intro F hF
    rcases List.mem_cons.mp hF with rfl | hF
    · exact exF_WF
    · rw [List.mem_singleton.mp hF]; exact exG_WF) (by decide +kernel)
    (Or.inr fun _ _ => rfl)).1

/-! ### C53: figure of merit and relative errors -/

/-- C53. The figure of merit is one over the root of the determinant of the block of the two
parameters in the inverse. -/
theorem fom_det (sq : K → K) {F : FM N K} {I : DF N K} (hI : F.inverse = some I) {S : Finset N}
    (hon : I.On S) {p q : N} (hp : p ∈ S) (hq : q ∈ S) :
    F.fom sq p q = .ok (1 / sq (block {p, q} I.val).det) := by
  unfold FM.fom
  rw [hI]
  simp only
  have hm : ∀ a ∈ S, a ∈ I.rows ∧ a ∈ I.cols := fun a ha =>
    ⟨(hon.mem a).mpr ha, by rw [hon.same]; exact (hon.mem a).mpr ha⟩
  rw [if_pos ⟨hm p hp, hm q hq⟩]
  congr 3
  by_cases hpq : p = q
  · subst hpq
    rw [if_pos rfl]
    have : ({p, p} : Finset N) = {p} := by simp
    rw [this]
    let u : Unique ({p} : Finset N) :=
      ⟨⟨⟨p, by simp⟩⟩, fun x => Subtype.ext (Finset.mem_singleton.mp x.2)⟩
    rw [Matrix.det_unique]
    rfl
  · rw [if_neg hpq]
    let e : Fin 2 ≃ ({p, q} : Finset N) :=
      { toFun := fun i => if i = 0 then ⟨p, by simp⟩ else ⟨q, by simp⟩
        invFun := fun x => if (x : N) = p then 0 else 1
        left_inv := fun i => by fin_cases i <;> simp [Ne.symm hpq]
        right_inv := fun x => by
          obtain ⟨x, hx⟩ := x
          simp only [Finset.mem_insert, Finset.mem_singleton] at hx
          rcases hx with rfl | rfl
          · simp
          · simp [Ne.symm hpq] }
    rw [← Matrix.det_submatrix_equiv_self e, Matrix.det_fin_two]
    simp [block, e]

/-- C53. The figure of merit does not depend on the order of the two parameters nor on the order of
rows and columns. -/
theorem fom_invariant (sq : K → K) {F G : FM N K} {I J : DF N K} (hI : F.inverse = some I)
    (hJ : G.inverse = some J) {S : Finset N} (hon : I.On S) (hon' : J.On S)
    (hent : ∀ a b, I.ent a b = J.ent a b) {p q : N} (hp : p ∈ S) (hq : q ∈ S) :
    F.fom sq p q = G.fom sq q p := by
  rw [fom_det sq hI hon hp hq, fom_det sq hJ hon' hq hp]
  have hb : block {p, q} I.val = block {p, q} J.val := by
    ext a b
    have hs : ∀ x : ({p, q} : Finset N), (x : N) ∈ S := by
      rintro ⟨x, hx⟩
      simp only [Finset.mem_insert, Finset.mem_singleton] at hx
      rcases hx with rfl | rfl
      · exact hp
      · exact hq
    have := hent a b
    rw [On.ent hon, On.ent hon', if_pos ⟨hs a, hs b⟩, if_pos ⟨hs a, hs b⟩] at this
    exact this
  rw [hb, Finset.pair_comm]

section
variable {K : Type} [Field K] [LinearOrder K] [IsStrictOrderedRing K]

/-- C53. A relative error is the error over the magnitude of the fiducial, or the error itself for a
zero fiducial. -/
theorem relErr_spec (fids errs : List (N × K)) {p : N} {v e : K} (hv : fids.lookup p = some v)
    (he : errs.lookup p = some e) (hpos : 0 ≤ e) :
    relErr fids errs p = some (if v = 0 then e else e / |v|) := by
  unfold relErr relDen
  rw [he, hv]
  simp only [Option.map_some]
  by_cases h : v = 0
  · simp [h, abs_of_nonneg hpos]
  · simp only [if_neg h, if_pos h, abs_div, abs_of_nonneg hpos, ne_eq]

/-- C53. Never negative, whatever the signs. -/
theorem relErr_nonneg (fids errs : List (N × K)) (p : N) {x : K} (h : relErr fids errs p = some x) :
    0 ≤ x := by
  unfold relErr at h
  split at h
  · cases h; exact abs_nonneg _
  · cases h

/-- C53. An entry is a number exactly for parameters that have both an error and a fiducial. -/
theorem relErr_some_iff (fids errs : List (N × K)) (p : N) :
    (relErr fids errs p).isSome ↔ (errs.lookup p).isSome ∧ (fids.lookup p).isSome := by
  unfold relErr relDen
  cases errs.lookup p <;> cases fids.lookup p <;> simp

theorem relFom_spec (f : K) (h : 0 ≤ f) : relFom f = f := by
  unfold relFom; rw [div_one, abs_of_nonneg h]

example : relErr [(0, (-1 : ℚ)), (1, 0)] [(0, 1/10), (1, 1/5)] 0 = some (1/10) ∧
    relErr [(0, (-1 : ℚ)), (1, 0)] [(0, 1/10), (1, 1/5)] 1 = some (1/5) := by
  constructor
  · rw [relErr_spec (v := -1) (e := 1/10) _ _ rfl rfl (by norm_num)]; norm_num
  · rw [relErr_spec (v := 0) (e := 1/5) _ _ rfl rfl (by norm_num)]; norm_num
end

end Seyfert.Fisher
