import Verif.Model.Workspace
import Verif.Lemmas.PyDict

/-!
Input files of a run (C78) and links to directories of other runs (C79).
-/

set_option linter.unusedSectionVars false

namespace Seyfert.Work

variable {V : Type}

/-! ### Input files -/

/-- A path directly inside the directory of input files of a run. -/
def InInputs (run p : Path) : Prop := ∃ x : Str, p = run ++ [inputDirName, x]

/-- The last of the given sources with a base name. -/
def lastSource (srcs : List (Str × Path)) (b : Str) : Option Path :=
  ((srcs.filter (fun s => decide (name s.2 = b))).getLast?).map (·.2)

theorem name_append (run : Path) (a x : Str) : name (run ++ [a, x]) = x := by
  have : run ++ [a, x] = (run ++ [a]) ++ [x] := by simp
  unfold name
  rw [this, List.getLast?_concat]; rfl

theorem inInputs_iff (run p : Path) : InInputs run p ↔ p = run ++ [inputDirName, name p] := by
  constructor
  · rintro ⟨x, hx⟩
    rw [hx, name_append]
  · exact fun h => ⟨_, h⟩

theorem write_same (fs : Path → Option V) (p : Path) (v : V) : write fs p v p = some v := by
  unfold write; rw [if_pos rfl]

theorem write_ne (fs : Path → Option V) {p q : Path} (v : V) (h : q ≠ p) : write fs p v q = fs q := by
  unfold write; rw [if_neg h]

theorem lastSource_cons_none {srcs : List (Str × Path)} {s : Str × Path} {b : Str}
    (h : lastSource srcs b = none) :
    lastSource (s :: srcs) b = if name s.2 = b then some s.2 else none := by
  unfold lastSource at *
  rw [Option.map_eq_none_iff, List.getLast?_eq_none_iff] at h
  rw [List.filter_cons, h]
  by_cases e : name s.2 = b
  · simp [e]
  · simp [e]

theorem lastSource_cons_some {srcs : List (Str × Path)} {s : Str × Path} {b : Str} {p : Path}
    (h : lastSource srcs b = some p) : lastSource (s :: srcs) b = some p := by
  unfold lastSource at *
  rw [List.filter_cons]
  by_cases e : name s.2 = b
  · simp only [e, decide_true, if_true]
    rw [List.getLast?_cons]
    obtain ⟨x, hx, hp⟩ := Option.map_eq_some_iff.mp h
    rw [hx]; simpa using hp
  · simpa [e] using h

theorem copy_outside (run : Path) (srcs : List (Str × Path)) :
    ∀ (fs : Path → Option V) (d : List (Str × Loc)) (q : Path), ¬ InInputs run q →
      (copyInputs run fs d srcs).1 q = fs q := by
  induction srcs with
  | nil => intro fs d q _; rfl
  | cons s rest ih =>
    intro fs d q hq
    obtain ⟨task, src⟩ := s
    unfold copyInputs
    cases e : fs src with
    | none => rfl
    | some v =>
      by_cases hs : src = run ++ [inputDirName, name src]
      · simp only [if_pos hs]
      · simp only [if_neg hs]
        rw [ih _ _ q hq, write_ne]
        rintro rfl
        exact hq ⟨_, rfl⟩

theorem copy_ok_iff (run : Path) (srcs : List (Str × Path)) :
    ∀ (fs : Path → Option V) (d : List (Str × Loc)),
      (∃ m, (copyInputs run fs d srcs).2 = .ok m) ↔
        ∀ s ∈ srcs, (fs s.2).isSome ∧ ¬ InInputs run s.2 := by
  induction srcs with
  | nil => intro fs d; simp [copyInputs]
  | cons s rest ih =>
    intro fs d
    obtain ⟨task, src⟩ := s
    unfold copyInputs
    cases e : fs src with
    | none => simp [e]
    | some v =>
      by_cases hs : src = run ++ [inputDirName, name src]
      · simp only [if_pos hs]
        constructor
        · rintro ⟨m, hm⟩; cases hm
        · intro h
          exact absurd ((inInputs_iff _ _).mpr hs) (h _ List.mem_cons_self).2
      · simp only [if_neg hs]
        rw [ih]
        have hout : ¬ InInputs run src := fun h => hs ((inInputs_iff _ _).mp h)
        constructor
        · intro h x hx
          rcases List.mem_cons.mp hx with rfl | hx
          · exact ⟨by simp [e], hout⟩
          · obtain ⟨h1, h2⟩ := h x hx
            rw [write_ne _ _ (fun hh => h2 ⟨_, hh⟩)] at h1
            exact ⟨h1, h2⟩
        · intro h x hx
          obtain ⟨h1, h2⟩ := h x (List.mem_cons_of_mem _ hx)
          rw [write_ne _ _ (fun hh => h2 ⟨_, hh⟩)]
          exact ⟨h1, h2⟩

theorem copy_spec (run : Path) (srcs : List (Str × Path)) :
    ∀ (fs : Path → Option V) (d m : List (Str × Loc)), (copyInputs run fs d srcs).2 = .ok m →
      m = PyDict.update d (srcs.map fun s => (s.1, Loc.rel [inputDirName, name s.2])) ∧
      ∀ b, (copyInputs run fs d srcs).1 (run ++ [inputDirName, b]) =
        match lastSource srcs b with
        | some p => fs p
        | none => fs (run ++ [inputDirName, b]) := by
  induction srcs with
  | nil =>
    intro fs d m h
    simp only [copyInputs, Except.ok.injEq] at h
    exact ⟨h.symm, fun b => rfl⟩
  | cons s rest ih =>
    intro fs d m h
    have hall := (copy_ok_iff run _ fs d).mp ⟨m, h⟩
    obtain ⟨task, src⟩ := s
    unfold copyInputs at h ⊢
    cases e : fs src with
    | none => rw [e] at h; cases h
    | some v =>
      rw [e] at h
      have hs : ¬ src = run ++ [inputDirName, name src] :=
        fun hh => (hall _ List.mem_cons_self).2 ((inInputs_iff _ _).mpr hh)
      simp only [if_neg hs] at h ⊢
      obtain ⟨h1, h2⟩ := ih _ _ m h
      refine ⟨h1, fun b => ?_⟩
      rw [h2 b]
      cases hl : lastSource rest b with
      | some p =>
        rw [lastSource_cons_some hl]
        have hp : ∃ s ∈ rest, s.2 = p := by
          unfold lastSource at hl
          obtain ⟨x, hx, hxp⟩ := Option.map_eq_some_iff.mp hl
          exact ⟨x, (List.mem_filter.mp (List.mem_of_getLast? hx)).1, hxp⟩
        obtain ⟨x, hx, rfl⟩ := hp
        exact write_ne _ _ (fun hh => (hall x (List.mem_cons_of_mem _ hx)).2 ⟨_, hh⟩)
      | none =>
        rw [lastSource_cons_none hl]
        by_cases hb : name src = b
        · simp only [if_pos hb]
          rw [← hb, write_same, e]
        · simp only [if_neg hb]
          rw [write_ne]
          intro hh
          have := congrArg name hh
          rw [name_append, name_append] at this
          exact hb this.symm

/-- Setting up the input files succeeds exactly when every given file is there and none of them
already lies in the directory of input files of the run. -/
theorem inputs_ok_iff (run : Path) (srcs : List (Str × Path)) (params : V) (dataDir : Path)
    (d : Disk V) :
    (createInputs run srcs params dataDir d).2 = none ↔
      ∀ s ∈ srcs, (d.file s.2).isSome ∧ ¬ InInputs run s.2 := by
  rw [← copy_ok_iff run srcs d.file []]
  unfold createInputs
  cases h : copyInputs run d.file [] srcs with
  | mk fs r =>
    cases r with
    | error e => simp
    | ok m => simp

/-- Nothing outside the directory of input files is changed, whether or not the call succeeds; after
a failure the dictionary of the run is the old one. -/
theorem inputs_frame (run : Path) (srcs : List (Str × Path)) (params : V) (dataDir : Path)
    (d : Disk V) :
    (∀ q, ¬ InInputs run q → (createInputs run srcs params dataDir d).1.file q = d.file q) ∧
    ((createInputs run srcs params dataDir d).2 ≠ none →
      (createInputs run srcs params dataDir d).1.dict = d.dict) := by
  have ho := copy_outside run srcs d.file []
  unfold createInputs
  cases h : copyInputs run d.file [] srcs with
  | mk fs r =>
    rw [h] at ho
    cases r with
    | error e => exact ⟨ho, fun _ => rfl⟩
    | ok m =>
      refine ⟨fun q hq => ?_, fun hh => absurd rfl hh⟩
      rw [← ho q hq]
      exact write_ne _ _ (fun hh => hq ⟨_, hh⟩)

/-- What the tasks of the run read, exactly: a task gets the content the last given file with the
same base name had, or the physical parameters when that name is `params.json`. -/
theorem inputs_exact (run : Path) (srcs : List (Str × Path)) (params : V) (dataDir : Path)
    (d : Disk V) (hk : (srcs.map (·.1)).Nodup)
    (hp : "params".toList ∉ srcs.map (·.1)) (hd : "input_data_dir".toList ∉ srcs.map (·.1))
    (hok : (createInputs run srcs params dataDir d).2 = none) :
    let d' := (createInputs run srcs params dataDir d).1
    (∀ s ∈ srcs, inputPath run d' s.1 = some (run ++ [inputDirName, name s.2]) ∧
      inputContent run d' s.1 = if name s.2 = paramsName then some params
        else (lastSource srcs (name s.2)).bind d.file) ∧
    inputPath run d' "params".toList = some (run ++ [inputDirName, paramsName]) ∧
    inputContent run d' "params".toList = some params ∧
    inputPath run d' "input_data_dir".toList = some dataDir := by
  have hc : ∃ m, (copyInputs run d.file [] srcs).2 = .ok m :=
    (copy_ok_iff run srcs d.file []).mpr ((inputs_ok_iff run srcs params dataDir d).mp hok)
  obtain ⟨m, hm⟩ := hc
  obtain ⟨h1, h2⟩ := copy_spec run srcs d.file [] m hm
  have hne : ("params".toList : Str) ≠ "input_data_dir".toList := by decide +kernel
  have hnd : ((srcs.map fun s => (s.1, Loc.rel [inputDirName, name s.2])).map (·.1)).Nodup := by
    simpa [List.map_map, Function.comp_def] using hk
  have hm' : m = srcs.map fun s => (s.1, Loc.rel [inputDirName, name s.2]) := by
    rw [h1]; exact PyDict.ofItems_nodup _ hnd
  have heq : createInputs run srcs params dataDir d =
      ({ file := write (copyInputs run d.file [] srcs).1 (run ++ [inputDirName, paramsName]) params
         dict := some (PyDict.set (PyDict.set m "params".toList (.rel [inputDirName, paramsName]))
          "input_data_dir".toList (.abs dataDir)) }, none) := by
    unfold createInputs
    cases h : copyInputs run d.file [] srcs with
    | mk fs r =>
      rw [h] at hm
      simp only at hm
      subst hm
      rfl
  intro d'
  have hd' : d' = _ := congrArg Prod.fst heq
  have pathp : inputPath run d' "params".toList = some (run ++ [inputDirName, paramsName]) := by
    rw [hd']
    unfold inputPath
    simp only [Option.bind_some]
    rw [PyDict.lookup_set, if_neg hne, PyDict.lookup_set, if_pos rfl]
    rfl
  refine ⟨fun s hs => ?_, pathp, ?_, ?_⟩
  · have n1 : s.1 ≠ "params".toList := fun hh => hp (hh ▸ List.mem_map_of_mem hs)
    have n2 : s.1 ≠ "input_data_dir".toList := fun hh => hd (hh ▸ List.mem_map_of_mem hs)
    have hlk : m.lookup s.1 = some (Loc.rel [inputDirName, name s.2]) := by
      subst hm'
      exact PyDict.lookup_of_mem _ hnd
        (List.mem_map_of_mem (f := fun s : Str × Path => (s.1, Loc.rel [inputDirName, name s.2])) hs)
    have path : inputPath run d' s.1 = some (run ++ [inputDirName, name s.2]) := by
      rw [hd']
      unfold inputPath
      simp only [Option.bind_some]
      rw [PyDict.lookup_set, if_neg n2, PyDict.lookup_set, if_neg n1, hlk]
      rfl
    refine ⟨path, ?_⟩
    unfold inputContent
    rw [path, Option.bind_some]
    by_cases hb : name s.2 = paramsName
    · rw [if_pos hb, hd', hb]; exact write_same _ _ _
    · rw [if_neg hb, hd']
      show write _ _ _ _ = _
      rw [write_ne, h2]
      · cases hl : lastSource srcs (name s.2) with
        | some p => rfl
        | none =>
          unfold lastSource at hl
          rw [Option.map_eq_none_iff, List.getLast?_eq_none_iff, List.filter_eq_nil_iff] at hl
          exact absurd (by simp) (hl s hs)
      · intro hh
        have := congrArg name hh
        rw [name_append, name_append] at this
        exact hb this
  · unfold inputContent
    rw [pathp, hd']
    exact write_same _ _ _
  · rw [hd']
    unfold inputPath
    simp only [Option.bind_some]
    rw [PyDict.lookup_set, if_pos rfl]
    rfl

theorem lastSource_nodup {srcs : List (Str × Path)} (hb : (srcs.map (fun s => name s.2)).Nodup)
    {s : Str × Path} (hs : s ∈ srcs) : lastSource srcs (name s.2) = some s.2 := by
  induction srcs with
  | nil => cases hs
  | cons x rest ih =>
    rw [List.map_cons, List.nodup_cons] at hb
    rcases List.mem_cons.mp hs with rfl | hs
    · have : lastSource rest (name s.2) = none := by
        unfold lastSource
        rw [Option.map_eq_none_iff, List.getLast?_eq_none_iff, List.filter_eq_nil_iff]
        intro y hy
        have : name y.2 ≠ name s.2 := fun hh => hb.1 (hh ▸ List.mem_map_of_mem (f := fun s : Str × Path => name s.2) hy)
        simpa using this
      rw [lastSource_cons_none this, if_pos rfl]
    · exact lastSource_cons_some (ih hb.2 hs)

/-- Every task of a run reads what the file given for it contained when the run was set up, whatever
happens to the original later.  Missing for the full claim: two given files with one base name, or one
called `params.json`, see `inputs_collide` and `inputs_exact`. -/
theorem inputs_kept_partial (run : Path) (srcs : List (Str × Path)) (params : V) (dataDir : Path)
    (d : Disk V) (hk : (srcs.map (·.1)).Nodup)
    (hp : "params".toList ∉ srcs.map (·.1)) (hd : "input_data_dir".toList ∉ srcs.map (·.1))
    (hb : (srcs.map (fun s => name s.2)).Nodup) (hpn : ∀ s ∈ srcs, name s.2 ≠ paramsName)
    (hok : (createInputs run srcs params dataDir d).2 = none)
    (later : Path → Option V)
    (hlater : ∀ q, InInputs run q → later q = (createInputs run srcs params dataDir d).1.file q) :
    ∀ s ∈ srcs, inputContent run
      ({ (createInputs run srcs params dataDir d).1 with file := later } : Disk V) s.1 =
        d.file s.2 := by
  intro s hs
  obtain ⟨h1, h2⟩ := (inputs_exact run srcs params dataDir d hk hp hd hok).1 s hs
  rw [if_neg (hpn s hs), lastSource_nodup hb hs, Option.bind_some] at h2
  rw [← h2]
  unfold inputContent
  have hpath : inputPath run
      ({ (createInputs run srcs params dataDir d).1 with file := later } : Disk V) s.1 =
      some (run ++ [inputDirName, name s.2]) := h1
  rw [hpath, h1, Option.bind_some, Option.bind_some]
  exact hlater _ ⟨_, rfl⟩

/-- Two different files given under one base name: the task named first reads the file of the one
named last. -/
theorem inputs_collide (run : Path) (t₁ t₂ : Str) (p₁ p₂ : Path) (params : V) (dataDir : Path)
    (d : Disk V) (ht : t₁ ≠ t₂) (hk : ∀ t ∈ [t₁, t₂], t ≠ "params".toList ∧ t ≠ "input_data_dir".toList)
    (hn : name p₁ = name p₂) (hnp : name p₁ ≠ paramsName)
    (he : ∀ p ∈ [p₁, p₂], (d.file p).isSome ∧ ¬ InInputs run p) :
    (createInputs run [(t₁, p₁), (t₂, p₂)] params dataDir d).2 = none ∧
    inputContent run (createInputs run [(t₁, p₁), (t₂, p₂)] params dataDir d).1 t₁ = d.file p₂ := by
  have hok : (createInputs run [(t₁, p₁), (t₂, p₂)] params dataDir d).2 = none := by
    rw [inputs_ok_iff]
    intro s hs
    rcases List.mem_cons.mp hs with rfl | hs
    · exact he _ List.mem_cons_self
    · rcases List.mem_cons.mp hs with rfl | hs
      · exact he _ (List.mem_cons_of_mem _ List.mem_cons_self)
      · cases hs
  have h1 := hk t₁ List.mem_cons_self
  have h2 := hk t₂ (List.mem_cons_of_mem _ List.mem_cons_self)
  refine ⟨hok, ?_⟩
  have := ((inputs_exact run [(t₁, p₁), (t₂, p₂)] params dataDir d (by simp [ht])
    (by simpa using ⟨h1.1.symm, h2.1.symm⟩) (by simpa using ⟨h1.2.symm, h2.2.symm⟩) hok).1
    (t₁, p₁) List.mem_cons_self).2
  rw [if_neg hnp] at this
  rw [this]
  have : lastSource [(t₁, p₁), (t₂, p₂)] (name p₁) = some p₂ := by
    apply lastSource_cons_some
    rw [lastSource_cons_none (by rfl), if_pos hn.symm]
  rw [this]; rfl

/-- Setting a run up again while one of the given files is missing leaves the old dictionary pointing
at files already replaced: the run then mixes old and new inputs. -/
theorem inputs_mixed (run : Path) (t₁ t₂ : Str) (p₁ p₂ : Path) (params params' : V) (dataDir : Path)
    (d : Disk V) (v : V) (fs : Path → Option V) (ht : t₁ ≠ t₂)
    (hk : ∀ t ∈ [t₁, t₂], t ≠ "params".toList ∧ t ≠ "input_data_dir".toList)
    (hn : name p₁ ≠ name p₂) (hnp : ∀ p ∈ [p₁, p₂], name p ≠ paramsName)
    (he : ∀ p ∈ [p₁, p₂], (d.file p).isSome ∧ ¬ InInputs run p)
    (hfs : ∀ q, InInputs run q →
      fs q = (createInputs run [(t₁, p₁), (t₂, p₂)] params dataDir d).1.file q)
    (h1 : fs p₁ = some v) (h2 : fs p₂ = none) :
    let d₁ := (createInputs run [(t₁, p₁), (t₂, p₂)] params dataDir d).1
    let r := createInputs run [(t₁, p₁), (t₂, p₂)] params' dataDir ({ d₁ with file := fs } : Disk V)
    r.2 = some .fileNotFound ∧ inputContent run r.1 t₁ = some v ∧
      inputContent run r.1 t₂ = d.file p₂ ∧ inputContent run r.1 "params".toList = some params := by
  intro d₁ r
  have e1 := he p₁ List.mem_cons_self
  have e2 := he p₂ (List.mem_cons_of_mem _ List.mem_cons_self)
  have k1 := hk t₁ List.mem_cons_self
  have k2 := hk t₂ (List.mem_cons_of_mem _ List.mem_cons_self)
  have n1 := hnp p₁ List.mem_cons_self
  have n2 := hnp p₂ (List.mem_cons_of_mem _ List.mem_cons_self)
  have hok : (createInputs run [(t₁, p₁), (t₂, p₂)] params dataDir d).2 = none := by
    rw [inputs_ok_iff]
    intro s hs
    rcases List.mem_cons.mp hs with rfl | hs
    · exact e1
    · rcases List.mem_cons.mp hs with rfl | hs
      · exact e2
      · cases hs
  have hex := inputs_exact run [(t₁, p₁), (t₂, p₂)] params dataDir d (by simp [ht])
    (by simpa using ⟨k1.1.symm, k2.1.symm⟩) (by simpa using ⟨k1.2.symm, k2.2.symm⟩) hok
  have a1 := hex.1 (t₁, p₁) List.mem_cons_self
  have a2 := hex.1 (t₂, p₂) (List.mem_cons_of_mem _ List.mem_cons_self)
  have hs1 : ¬ p₁ = run ++ [inputDirName, name p₁] := fun hh => e1.2 ⟨_, hh⟩
  have hr : r = (({ d₁ with file := write fs (run ++ [inputDirName, name p₁]) v } : Disk V),
      some .fileNotFound) := by
    show createInputs _ _ _ _ _ = _
    unfold createInputs copyInputs
    simp only [h1, if_neg hs1]
    unfold copyInputs
    rw [write_ne _ _ (fun hh => e2.2 ⟨_, hh⟩), h2]
  have p1 : inputPath run r.1 t₁ = some (run ++ [inputDirName, name p₁]) := by
    rw [hr]; exact a1.1
  have p2 : inputPath run r.1 t₂ = some (run ++ [inputDirName, name p₂]) := by
    rw [hr]; exact a2.1
  have pp : inputPath run r.1 "params".toList = some (run ++ [inputDirName, paramsName]) := by
    rw [hr]; exact hex.2.1
  have ne : ∀ {a b : Str}, a ≠ b → run ++ [inputDirName, a] ≠ run ++ [inputDirName, b] := by
    intro a b hab hh
    have := congrArg name hh
    rw [name_append, name_append] at this
    exact hab this
  refine ⟨by rw [hr], ?_, ?_, ?_⟩
  · unfold inputContent
    rw [p1, hr]; exact write_same _ _ _
  · have b2 := a2.2
    rw [if_neg n2, lastSource_nodup (by simpa using hn)
      (List.mem_cons_of_mem _ List.mem_cons_self)] at b2
    unfold inputContent at b2 ⊢
    rw [a2.1] at b2
    rw [p2, hr]
    show write _ _ _ _ = _
    rw [write_ne _ _ (ne hn.symm), hfs _ ⟨_, rfl⟩]
    exact b2
  · have b3 := hex.2.2.1
    unfold inputContent at b3 ⊢
    rw [hex.2.1] at b3
    rw [pp, hr]
    show write _ _ _ _ = _
    rw [write_ne _ _ (ne n1.symm), hfs _ ⟨_, rfl⟩]
    exact b3

/-- Two runs set up from the same files, with the same content, read the same inputs. -/
theorem inputs_deterministic (run : Path) (srcs : List (Str × Path)) (params : V) (dataDir : Path)
    (d₁ d₂ : Disk V) (hk : (srcs.map (·.1)).Nodup)
    (hp : "params".toList ∉ srcs.map (·.1)) (hd : "input_data_dir".toList ∉ srcs.map (·.1))
    (hsame : ∀ s ∈ srcs, d₁.file s.2 = d₂.file s.2) :
    (createInputs run srcs params dataDir d₁).2 = none ↔
      (createInputs run srcs params dataDir d₂).2 = none ∧
      ∀ s ∈ srcs, inputContent run (createInputs run srcs params dataDir d₁).1 s.1 =
        inputContent run (createInputs run srcs params dataDir d₂).1 s.1 := by
  have hiff : (createInputs run srcs params dataDir d₁).2 = none ↔
      (createInputs run srcs params dataDir d₂).2 = none := by
    rw [inputs_ok_iff, inputs_ok_iff]
    exact forall₂_congr fun s hs => by rw [hsame s hs]
  constructor
  · intro h
    refine ⟨hiff.mp h, fun s hs => ?_⟩
    rw [((inputs_exact run srcs params dataDir d₁ hk hp hd h).1 s hs).2,
      ((inputs_exact run srcs params dataDir d₂ hk hp hd (hiff.mp h)).1 s hs).2]
    congr 1
    cases hl : lastSource srcs (name s.2) with
    | none => rfl
    | some p =>
      unfold lastSource at hl
      obtain ⟨x, hx, rfl⟩ := Option.map_eq_some_iff.mp hl
      exact hsame x (List.mem_filter.mp (List.mem_of_getLast? hx)).1
  · exact fun h => hiff.mpr h.1

/-- A run with two input files, one of them in another directory. -/
def exampleDisk : Disk Nat where
  file p := if p = ["home".toList, "a.json".toList] then some 1
    else if p = ["home".toList, "x".toList, "b.json".toList] then some 2
    else if p = ["home".toList, "y".toList, "b.json".toList] then some 3 else none
  dict := none

example : let r := createInputs ["run".toList] [("forecast".toList, ["home".toList, "a.json".toList]),
      ("Angular".toList, ["home".toList, "x".toList, "b.json".toList])] 7 ["data".toList] exampleDisk
    r.2 = none ∧ inputContent ["run".toList] r.1 "forecast".toList = some 1 ∧
      inputContent ["run".toList] r.1 "Angular".toList = some 2 ∧
      inputContent ["run".toList] r.1 "params".toList = some 7 := by decide +kernel

example : let r := createInputs ["run".toList] [
        ("Angular".toList, ["home".toList, "x".toList, "b.json".toList]),
        ("Fisher".toList, ["home".toList, "y".toList, "b.json".toList])] 7 ["data".toList] exampleDisk
    r.2 = none ∧ inputContent ["run".toList] r.1 "Angular".toList = some 3 := by decide +kernel

/-- The sources of a concrete run. -/
def exSrcs : List (Str × Path) := [("forecast".toList, ["home".toList, "a.json".toList]),
  ("Angular".toList, ["home".toList, "x".toList, "b.json".toList])]

theorem exOk : (createInputs ["run".toList] exSrcs 7 ["data".toList] exampleDisk).2 = none := by decide +kernel

/-- Concrete case of `inputs_exact`. -/
example : inputPath ["run".toList] (createInputs ["run".toList] exSrcs 7 ["data".toList] exampleDisk).1 "input_data_dir".toList =
    some ["data".toList] :=
  (inputs_exact _ exSrcs 7 _ exampleDisk (by decide +kernel) (by decide +kernel) (by decide +kernel) exOk).2.2.2

/-- Concrete case of `inputs_kept_partial`: all files outside the inputs of the run are deleted later. -/
example : inputContent ["run".toList] ({ (createInputs ["run".toList] exSrcs 7 ["data".toList] exampleDisk).1 with
      file := fun q => if q.length = 3 then (createInputs ["run".toList] exSrcs 7 ["data".toList] exampleDisk).1.file q else none } :
      Disk Nat) "Angular".toList = some 2 :=
  inputs_kept_partial _ exSrcs 7 _ exampleDisk (by decide +kernel) (by decide +kernel) (by decide +kernel) (by decide +kernel)
    (by decide +kernel) exOk _ (fun q hq => by obtain ⟨x, rfl⟩ := hq; exact if_pos rfl) _ (.tail _ (.head _))

/-- Concrete case of `inputs_collide`. -/
example : inputContent ["run".toList] (createInputs ["run".toList]
      [("Angular".toList, ["home".toList, "x".toList, "b.json".toList]),
        ("Fisher".toList, ["home".toList, "y".toList, "b.json".toList])] 7 ["data".toList] exampleDisk).1 "Angular".toList = some 3 :=
  (inputs_collide ["run".toList] "Angular".toList "Fisher".toList ["home".toList, "x".toList, "b.json".toList]
    ["home".toList, "y".toList, "b.json".toList] 7 ["data".toList] exampleDisk (by decide +kernel) (by decide +kernel)
    (by decide +kernel) (by decide +kernel) (by
      have h : ∀ p ∈ [["home".toList, "x".toList, "b.json".toList], ["home".toList, "y".toList, "b.json".toList]],
          (exampleDisk.file p).isSome = true ∧ ¬ p = ["run".toList] ++ [inputDirName, name p] := by decide +kernel
      exact fun p hp => ⟨(h p hp).1, fun hi => (h p hp).2 ((inInputs_iff _ _).mp hi)⟩)).2

/-! ### Links to directories of other runs -/

/-- A tree in which nothing of another one has been changed. -/
def Extends (t t' : Tree) : Prop := ∀ p n, t p = some n → t' p = some n

theorem Extends.refl (t : Tree) : Extends t t := fun _ _ h => h

theorem Extends.trans {t₁ t₂ t₃ : Tree} (h₁ : Extends t₁ t₂) (h₂ : Extends t₂ t₃) : Extends t₁ t₃ :=
  fun p n h => h₂ p n (h₁ p n h)

theorem Extends.exists {t t' : Tree} (h : Extends t t') {p : Path} (hp : existsAt t p = true) :
    existsAt t' p = true := by
  unfold existsAt at *
  cases e : t p with
  | none => rw [e] at hp; cases hp
  | some n =>
    rw [e] at hp
    rw [h p n e]
    cases n with
    | link q =>
      simp only at hp ⊢
      obtain ⟨m, hm⟩ := Option.isSome_iff_exists.mp hp
      rw [h q m hm]; rfl
    | file => rfl
    | dir => rfl

theorem symlink_extends (t : Tree) (src dst : Path) : Extends t (createSymlink t src dst).1 := by
  unfold createSymlink
  split
  · split
    · exact Extends.refl t
    · rename_i h
      intro p n hp
      show write t dst _ p = _
      rw [write_ne _ _ (by rintro rfl; rw [h] at hp; cases hp)]
      exact hp
  · exact Extends.refl t

theorem symlink_only (t : Tree) (src dst : Path) {p : Path} (hp : p ≠ dst) :
    (createSymlink t src dst).1 p = t p := by
  unfold createSymlink
  split
  · split
    · rfl
    · exact write_ne _ _ hp
  · rfl

theorem symlink_ok {t : Tree} {src dst : Path} (h : (createSymlink t src dst).2 = none) :
    existsAt t src = true ∧ t dst = none ∧ (createSymlink t src dst).1 = write t dst (.link src) := by
  unfold createSymlink at h ⊢
  by_cases he : existsAt t src = true
  · simp only [if_pos he] at h ⊢
    cases hd : t dst with
    | some n => rw [hd] at h; cases h
    | none => exact ⟨he, rfl, rfl⟩
  · rw [if_neg he] at h; cases h

theorem symlink_succeeds {t : Tree} {src dst : Path} (h1 : existsAt t src = true)
    (h2 : t dst = none) : createSymlink t src dst = (write t dst (.link src), none) := by
  unfold createSymlink
  rw [if_pos h1, h2]

theorem linkAll_extends (run : Path) (linkDelta : Bool) (ext : List (Str × Path)) :
    ∀ t : Tree, Extends t (linkAll run linkDelta t ext).1 := by
  induction ext with
  | nil => exact fun t => Extends.refl t
  | cons x rest ih =>
    intro t
    obtain ⟨key, e⟩ := x
    unfold linkAll
    split
    · exact ih t
    · have h1 := symlink_extends t e (run ++ [key])
      split
      · rename_i h; rw [h] at h1; exact h1
      · rename_i t' h
        rw [h] at h1
        split
        · have h2 := symlink_extends t' (e.dropLast ++ [deltaName]) (run ++ [deltaName])
          split
          · rename_i h'; rw [h'] at h2; exact h1.trans h2
          · rename_i h'; rw [h'] at h2; exact (h1.trans h2).trans (ih _)
        · exact h1.trans (ih _)

/-- Linking to directories of other runs never removes or replaces anything, also when it fails. -/
theorem link_never_replaces (run : Path) (linkDelta : Bool) (ext : List (Str × Path)) (t : Tree) :
    Extends t (linkExternal run linkDelta ext t).1 := by
  unfold linkExternal
  split
  · exact Extends.refl t
  · exact linkAll_extends run linkDelta ext t

/-- A name that is not the name of a task: an error, and nothing is linked. -/
theorem link_unknown_task (run : Path) (linkDelta : Bool) (ext : List (Str × Path)) (t : Tree)
    (h : ∃ p ∈ ext, p.1 ∉ taskNames) : linkExternal run linkDelta ext t = (t, some .keyError) := by
  unfold linkExternal
  rw [if_pos]
  obtain ⟨p, hp, hn⟩ := h
  exact List.any_eq_true.mpr ⟨p, hp, by simpa [List.contains_iff_mem] using hn⟩

theorem linkAll_only (run : Path) (linkDelta : Bool) (ext : List (Str × Path)) :
    ∀ (t : Tree) (p : Path), (∀ x ∈ ext, p ≠ run ++ [x.1]) →
      (linkDelta = true → (∃ x ∈ ext, x.1 = "Angular".toList) → p ≠ run ++ [deltaName]) →
      (linkAll run linkDelta t ext).1 p = t p := by
  induction ext with
  | nil => exact fun _ _ _ _ => rfl
  | cons x rest ih =>
    intro t p hp hd
    have ih' : ∀ t : Tree, (linkAll run linkDelta t rest).1 p = t p := fun t =>
      ih t p (fun y hy => hp y (List.mem_cons_of_mem _ hy))
        (fun hl ⟨y, hy, he⟩ => hd hl ⟨y, List.mem_cons_of_mem _ hy, he⟩)
    obtain ⟨key, e⟩ := x
    have h1 := symlink_only t e (dst := run ++ [key]) (hp _ List.mem_cons_self)
    unfold linkAll
    split
    · exact ih' t
    · split
      · rename_i h; rw [h] at h1; exact h1
      · rename_i t' h
        rw [h] at h1
        simp only at h1
        split
        · rename_i hk
          have h2 := symlink_only t' (e.dropLast ++ [deltaName]) (dst := run ++ [deltaName])
            (hd hk.2 ⟨_, List.mem_cons_self, hk.1⟩)
          split
          · rename_i h'; rw [h'] at h2; exact h2.trans h1
          · rename_i h'; rw [h'] at h2; exact (ih' _).trans (h2.trans h1)
        · exact (ih' _).trans h1

theorem key_ne_delta {k : Str} (h : k ∈ taskNames) : k ≠ deltaName := by
  have : ∀ k ∈ taskNames, k ≠ deltaName := by decide +kernel
  exact this k h

theorem snoc_inj {run : Path} {a b : Str} (h : run ++ [a] = run ++ [b]) : a = b := by
  have := List.append_cancel_left h
  simpa using this

theorem exists_link {t : Tree} {p q : Path} (h1 : t p = some (.link q)) (h2 : existsAt t q = true) :
    existsAt t p = true := by
  unfold existsAt
  rw [h1]
  unfold existsAt at h2
  cases e : t q with
  | none => rw [e] at h2; cases h2
  | some n => show (t q).isSome = true; rw [e]; rfl

theorem exists_none {t : Tree} {p : Path} (h : t p = none) : ¬ existsAt t p = true := by
  unfold existsAt; rw [h]; simp

theorem linkAll_spec (run : Path) (linkDelta : Bool) (ext : List (Str × Path)) :
    ∀ t : Tree, (ext.map (·.1)).Nodup → (∀ x ∈ ext, x.1 ∈ taskNames) →
      (linkAll run linkDelta t ext).2 = none →
      ∀ x ∈ ext, existsAt (linkAll run linkDelta t ext).1 (run ++ [x.1]) = true ∧
        (t (run ++ [x.1]) = none →
          (linkAll run linkDelta t ext).1 (run ++ [x.1]) = some (.link x.2) ∧
          (x.1 = "Angular".toList → linkDelta = true →
            (linkAll run linkDelta t ext).1 (run ++ [deltaName]) =
              some (.link (x.2.dropLast ++ [deltaName])))) := by
  induction ext with
  | nil => intro t _ _ _ x hx; cases hx
  | cons y rest ih =>
    intro t hk hn hok
    obtain ⟨key, e⟩ := y
    rw [List.map_cons, List.nodup_cons] at hk
    have hkey : key ∈ taskNames := hn _ List.mem_cons_self
    have hn' : ∀ x ∈ rest, x.1 ∈ taskNames := fun x hx => hn x (List.mem_cons_of_mem _ hx)
    have hne : ∀ x ∈ rest, run ++ [x.1] ≠ run ++ [key] := fun x hx hh =>
      hk.1 (List.mem_map.mpr ⟨x, hx, snoc_inj hh⟩)
    have hnd : ∀ k ∈ taskNames, run ++ [k] ≠ run ++ [deltaName] := fun k hk' hh =>
      key_ne_delta hk' (snoc_inj hh)
    unfold linkAll at hok ⊢
    by_cases hex : existsAt t (run ++ [key]) = true
    · simp only [if_pos hex] at hok ⊢
      intro x hx
      rcases List.mem_cons.mp hx with rfl | hx
      · exact ⟨(linkAll_extends run linkDelta rest t).exists hex, fun h => absurd hex (exists_none h)⟩
      · exact ih t hk.2 hn' hok x hx
    · simp only [if_neg hex] at hok ⊢
      cases hs : createSymlink t e (run ++ [key]) with
      | mk t' r =>
      rw [hs] at hok
      cases r with
      | some err => cases hok
      | none =>
      simp only at hok ⊢
      obtain ⟨s1, s2, s3⟩ := symlink_ok (by rw [hs] : (createSymlink t e (run ++ [key])).2 = none)
      have e1 : Extends t t' := by have := symlink_extends t e (run ++ [key]); rw [hs] at this; exact this
      rw [hs] at s3
      simp only at s3
      have l1 : t' (run ++ [key]) = some (.link e) := by rw [s3]; exact write_same _ _ _
      have x1 : existsAt t' (run ++ [key]) = true := exists_link l1 (e1.exists s1)
      by_cases ha : key = "Angular".toList ∧ linkDelta = true
      · simp only [if_pos ha] at hok ⊢
        cases hs' : createSymlink t' (e.dropLast ++ [deltaName]) (run ++ [deltaName]) with
        | mk t'' r' =>
        rw [hs'] at hok
        cases r' with
        | some err => cases hok
        | none =>
        simp only at hok ⊢
        obtain ⟨d1, d2, d3⟩ := symlink_ok
          (by rw [hs'] : (createSymlink t' (e.dropLast ++ [deltaName]) (run ++ [deltaName])).2 = none)
        have e2 : Extends t' t'' := by
          have := symlink_extends t' (e.dropLast ++ [deltaName]) (run ++ [deltaName])
          rw [hs'] at this; exact this
        rw [hs'] at d3
        simp only at d3
        have l2 : t'' (run ++ [deltaName]) = some (.link (e.dropLast ++ [deltaName])) := by
          rw [d3]; exact write_same _ _ _
        have e3 := linkAll_extends run linkDelta rest t''
        intro x hx
        rcases List.mem_cons.mp hx with rfl | hx
        · exact ⟨e3.exists (e2.exists x1), fun _ => ⟨e3 _ _ (e2 _ _ l1), fun _ _ => e3 _ _ l2⟩⟩
        · obtain ⟨g1, g2⟩ := ih t'' hk.2 hn' hok x hx
          refine ⟨g1, fun hnone => g2 ?_⟩
          rw [d3, write_ne _ _ (hnd _ (hn' x hx)), s3, write_ne _ _ (hne x hx)]
          exact hnone
      · simp only [if_neg ha] at hok ⊢
        have e3 := linkAll_extends run linkDelta rest t'
        intro x hx
        rcases List.mem_cons.mp hx with rfl | hx
        · exact ⟨e3.exists x1, fun _ => ⟨e3 _ _ l1, fun h1 h2 => absurd ⟨h1, h2⟩ ha⟩⟩
        · obtain ⟨g1, g2⟩ := ih t' hk.2 hn' hok x hx
          refine ⟨g1, fun hnone => g2 ?_⟩
          rw [s3, write_ne _ _ (hne x hx)]
          exact hnone

/-- A successful call: every requested task directory is there afterwards; where there was nothing it
is a link to the given directory, and then the delta file of that run is linked too if asked for. -/
theorem link_success (run : Path) (linkDelta : Bool) (ext : List (Str × Path)) (t : Tree)
    (hk : (ext.map (·.1)).Nodup) (hok : (linkExternal run linkDelta ext t).2 = none) :
    ∀ x ∈ ext, existsAt (linkExternal run linkDelta ext t).1 (run ++ [x.1]) = true ∧
      (t (run ++ [x.1]) = none →
        (linkExternal run linkDelta ext t).1 (run ++ [x.1]) = some (.link x.2) ∧
        (x.1 = "Angular".toList → linkDelta = true →
          (linkExternal run linkDelta ext t).1 (run ++ [deltaName]) =
            some (.link (x.2.dropLast ++ [deltaName])))) := by
  unfold linkExternal at hok ⊢
  by_cases h : ext.any (fun p => !taskNames.contains p.1) = true
  · rw [if_pos h] at hok; cases hok
  · simp only [if_neg h] at hok ⊢
    apply linkAll_spec run linkDelta ext t hk _ hok
    intro x hx
    by_contra hc
    exact h (List.any_eq_true.mpr ⟨x, hx, by simpa [List.contains_iff_mem] using hc⟩)

/-- Only the requested task directories, and the delta file for an angular one, can be new. -/
theorem link_only (run : Path) (linkDelta : Bool) (ext : List (Str × Path)) (t : Tree) (p : Path)
    (h1 : ∀ x ∈ ext, p ≠ run ++ [x.1])
    (h2 : linkDelta = true → (∃ x ∈ ext, x.1 = "Angular".toList) → p ≠ run ++ [deltaName]) :
    (linkExternal run linkDelta ext t).1 p = t p := by
  unfold linkExternal
  split
  · rfl
  · exact linkAll_only run linkDelta ext t p h1 h2

theorem linkAll_succeeds (run : Path) (linkDelta : Bool) (ext : List (Str × Path)) :
    ∀ t : Tree, (ext.map (·.1)).Nodup → (∀ x ∈ ext, x.1 ∈ taskNames) →
      (∀ x ∈ ext, existsAt t (run ++ [x.1]) = true ∨
        (t (run ++ [x.1]) = none ∧ existsAt t x.2 = true ∧
          (x.1 = "Angular".toList → linkDelta = true →
            existsAt t (x.2.dropLast ++ [deltaName]) = true ∧ t (run ++ [deltaName]) = none))) →
      (linkAll run linkDelta t ext).2 = none := by
  induction ext with
  | nil => intro t _ _ _; rfl
  | cons y rest ih =>
    intro t hk hn hall
    obtain ⟨key, e⟩ := y
    rw [List.map_cons, List.nodup_cons] at hk
    have hn' : ∀ x ∈ rest, x.1 ∈ taskNames := fun x hx => hn x (List.mem_cons_of_mem _ hx)
    have hne : ∀ x ∈ rest, run ++ [x.1] ≠ run ++ [key] := fun x hx hh =>
      hk.1 (List.mem_map.mpr ⟨x, hx, snoc_inj hh⟩)
    have hnd : ∀ k ∈ taskNames, run ++ [k] ≠ run ++ [deltaName] := fun k hk' hh =>
      key_ne_delta hk' (snoc_inj hh)
    -- the remaining requests are still fine in a larger tree that agrees on their directories
    have step : ∀ t' : Tree, Extends t t' → (∀ x ∈ rest, t' (run ++ [x.1]) = t (run ++ [x.1])) →
        ((∃ x ∈ rest, x.1 = "Angular".toList) → t' (run ++ [deltaName]) = t (run ++ [deltaName])) →
        (linkAll run linkDelta t' rest).2 = none := by
      intro t' he hs hd
      apply ih t' hk.2 hn'
      intro x hx
      rcases hall x (List.mem_cons_of_mem _ hx) with h | ⟨h1, h2, h3⟩
      · exact Or.inl (he.exists h)
      · refine Or.inr ⟨by rw [hs x hx]; exact h1, he.exists h2, fun ha hl => ?_⟩
        obtain ⟨h4, h5⟩ := h3 ha hl
        exact ⟨he.exists h4, by rw [hd ⟨x, hx, ha⟩]; exact h5⟩
    unfold linkAll
    by_cases hex : existsAt t (run ++ [key]) = true
    · rw [if_pos hex]
      exact step t (Extends.refl t) (fun _ _ => rfl) (fun _ => rfl)
    · rw [if_neg hex]
      rcases hall _ List.mem_cons_self with h | ⟨h1, h2, h3⟩
      · exact absurd h hex
      · simp only at h1 h2 h3
        have e1 := symlink_extends t e (run ++ [key])
        rw [symlink_succeeds h2 h1] at e1 ⊢
        simp only at e1 ⊢
        by_cases ha : key = "Angular".toList ∧ linkDelta = true
        · simp only [if_pos ha]
          obtain ⟨h4, h5⟩ := h3 ha.1 ha.2
          have hkd : run ++ [deltaName] ≠ run ++ [key] :=
            (hnd key (hn _ List.mem_cons_self)).symm
          have e2 := symlink_extends (write t (run ++ [key]) (.link e)) (e.dropLast ++ [deltaName])
            (run ++ [deltaName])
          rw [symlink_succeeds (e1.exists h4) (by rw [write_ne _ _ hkd]; exact h5)] at e2 ⊢
          simp only at e2 ⊢
          apply step _ (e1.trans e2)
          · intro x hx
            rw [write_ne _ _ (hnd _ (hn' x hx)), write_ne _ _ (hne x hx)]
          · rintro ⟨x, hx, hxa⟩
            exact absurd (List.mem_map.mpr ⟨x, hx, hxa.trans ha.1.symm⟩) hk.1
        · simp only [if_neg ha]
          apply step _ e1
          · exact fun x hx => write_ne _ _ (hne x hx)
          · exact fun _ => write_ne _ _ (hnd key (hn _ List.mem_cons_self)).symm

/-- When it succeeds: every requested task directory is there already, or nothing is there, not even a
dangling link, and the given directory exists (with its delta file next to it, if that is to be linked
as well). -/
theorem link_succeeds (run : Path) (linkDelta : Bool) (ext : List (Str × Path)) (t : Tree)
    (hk : (ext.map (·.1)).Nodup) (hn : ∀ x ∈ ext, x.1 ∈ taskNames)
    (hall : ∀ x ∈ ext, existsAt t (run ++ [x.1]) = true ∨
      (t (run ++ [x.1]) = none ∧ existsAt t x.2 = true ∧
        (x.1 = "Angular".toList → linkDelta = true →
          existsAt t (x.2.dropLast ++ [deltaName]) = true ∧ t (run ++ [deltaName]) = none))) :
    (linkExternal run linkDelta ext t).2 = none := by
  unfold linkExternal
  rw [if_neg]
  · exact linkAll_succeeds run linkDelta ext t hk hn hall
  · intro h
    obtain ⟨x, hx, hc⟩ := List.any_eq_true.mp h
    have := hn x hx
    simp [this] at hc

/-- Linking twice: the second call succeeds and changes nothing. -/
theorem link_twice (run : Path) (linkDelta : Bool) (ext : List (Str × Path)) (t : Tree)
    (hk : (ext.map (·.1)).Nodup) (hok : (linkExternal run linkDelta ext t).2 = none) :
    linkExternal run linkDelta ext (linkExternal run linkDelta ext t).1 =
      ((linkExternal run linkDelta ext t).1, none) := by
  have hs := link_success run linkDelta ext t hk hok
  have hnone : ¬ ext.any (fun p => !taskNames.contains p.1) = true := by
    intro h
    unfold linkExternal at hok
    rw [if_pos h] at hok; cases hok
  generalize (linkExternal run linkDelta ext t).1 = t' at hs
  unfold linkExternal
  rw [if_neg hnone]
  have : ∀ l : List (Str × Path), (∀ x ∈ l, existsAt t' (run ++ [x.1]) = true) →
      linkAll run linkDelta t' l = (t', none) := by
    intro l
    induction l with
    | nil => exact fun _ => rfl
    | cons x rest ih =>
      intro h
      unfold linkAll
      rw [if_pos (h x List.mem_cons_self)]
      exact ih fun y hy => h y (List.mem_cons_of_mem _ hy)
  exact this ext fun x hx => (hs x hx).1

/-- A given directory that does not exist is an error when there is nothing to fall back on. -/
theorem link_missing (run : Path) (linkDelta : Bool) (key : Str) (e : Path) (t : Tree)
    (hkey : key ∈ taskNames) (h1 : existsAt t (run ++ [key]) = false) (h2 : existsAt t e = false) :
    linkExternal run linkDelta [(key, e)] t = (t, some .fileNotFound) := by
  unfold linkExternal
  rw [if_neg (by simp [hkey])]
  unfold linkAll createSymlink
  rw [if_neg (by rw [h1]; simp), if_neg (by rw [h2]; simp)]

/-- Where the call is not repeatable: the angular directory is given but its run has no delta file.
The first call fails, having linked the directory; the next one, even with the delta file in place,
succeeds without linking it. -/
theorem link_delta_lost (run e : Path) (t : Tree) (h1 : t (run ++ ["Angular".toList]) = none)
    (h2 : existsAt t e = true) (h3 : t (e.dropLast ++ [deltaName]) = none)
    (h4 : e.dropLast ≠ run) (h5 : t (run ++ [deltaName]) = none) :
    let r := linkExternal run true [("Angular".toList, e)] t
    let t₁ := write r.1 (e.dropLast ++ [deltaName]) .file
    let r' := linkExternal run true [("Angular".toList, e)] t₁
    r.2 = some .fileNotFound ∧ r.1 (run ++ ["Angular".toList]) = some (.link e) ∧
      r'.2 = none ∧ r'.1 (run ++ [deltaName]) = none ∧
      existsAt r'.1 (e.dropLast ++ [deltaName]) = true := by
  have hkn : ¬ ([("Angular".toList, e)] : List (Str × Path)).any
      (fun p => !taskNames.contains p.1) = true := by
    have : taskNames.contains "Angular".toList = true := by decide +kernel
    simp only [List.any_cons, List.any_nil, this]
    decide
  have hda : ("Angular".toList : Str) ≠ deltaName := by decide +kernel
  have hne1 : e.dropLast ++ [deltaName] ≠ run ++ ["Angular".toList] := by
    intro hh
    have := congrArg List.getLast? hh
    rw [List.getLast?_concat, List.getLast?_concat] at this
    exact hda (Option.some.inj this).symm
  have hne2 : run ++ [deltaName] ≠ e.dropLast ++ [deltaName] := fun hh =>
    h4 (List.append_cancel_right hh).symm
  have hne3 : run ++ [deltaName] ≠ run ++ ["Angular".toList] := fun hh => hda (snoc_inj hh).symm
  have hr : linkExternal run true [("Angular".toList, e)] t =
      (write t (run ++ ["Angular".toList]) (.link e), some .fileNotFound) := by
    unfold linkExternal
    rw [if_neg hkn]
    unfold linkAll
    rw [if_neg (exists_none h1), symlink_succeeds h2 h1]
    simp only [and_self, if_true]
    unfold createSymlink
    rw [if_neg (exists_none (by rw [write_ne _ _ hne1]; exact h3))]
  intro r t₁ r'
  have hr1 : r = (write t (run ++ ["Angular".toList]) (.link e), some .fileNotFound) := hr
  have ext1 : Extends t t₁ := by
    intro p n hp
    show write r.1 _ _ p = _
    rw [write_ne _ _ (by rintro rfl; rw [h3] at hp; cases hp), hr1]
    show write t _ _ p = _
    rw [write_ne _ _ (by rintro rfl; rw [h1] at hp; cases hp)]
    exact hp
  have a1 : t₁ (run ++ ["Angular".toList]) = some (.link e) := by
    show write r.1 _ _ _ = _
    rw [write_ne _ _ hne1.symm, hr1]
    exact write_same _ _ _
  have hr' : r' = (t₁, none) := by
    show linkExternal _ _ _ _ = _
    unfold linkExternal
    rw [if_neg hkn]
    unfold linkAll
    rw [if_pos (exists_link a1 (ext1.exists h2))]
    rfl
  refine ⟨by rw [hr1], by rw [hr1]; exact write_same _ _ _, by rw [hr'], ?_, ?_⟩
  · rw [hr']
    show write r.1 _ _ _ = _
    rw [write_ne _ _ hne2, hr1]
    show write t _ _ _ = _
    rw [write_ne _ _ hne3]
    exact h5
  · rw [hr']
    unfold existsAt
    show (match write r.1 (e.dropLast ++ [deltaName]) .file (e.dropLast ++ [deltaName]) with
      | none => false | some (.link q) => (t₁ q).isSome | some _ => true) = true
    rw [write_same]

/-- The directory given for the power spectra is not used at all: whatever it is, the run looks the
same, and a run directory without power spectra stays without. -/
theorem power_dir_ignored (run p p' : Path) (cl der : Option Path) (t : Tree) :
    prepareDirs run (some p) cl der t = prepareDirs run (some p') cl der t ∧
    (prepareDirs run (some p) cl der t).1 (run ++ ["PowerSpectrum".toList]) =
      t (run ++ ["PowerSpectrum".toList]) := by
  refine ⟨rfl, ?_⟩
  unfold prepareDirs
  apply link_only
  · have h1 : ("PowerSpectrum".toList : Str) ≠ "Angular".toList := by decide +kernel
    have h2 : ("PowerSpectrum".toList : Str) ≠ "Derivative".toList := by decide +kernel
    intro x hx hh
    rcases List.mem_append.mp hx with hx | hx
    · obtain ⟨c, hc⟩ := Option.mem_toList.mp hx |> Option.map_eq_some_iff.mp
      exact h1 ((snoc_inj hh).trans (congrArg Prod.fst hc.2).symm)
    · obtain ⟨c, hc⟩ := Option.mem_toList.mp hx |> Option.map_eq_some_iff.mp
      exact h2 ((snoc_inj hh).trans (congrArg Prod.fst hc.2).symm)
  · intro h; cases h

/-- The angular and derivative directories given are linked, when the run directory is new. -/
theorem given_dirs_linked (run : Path) (pmm cl der : Option Path) (t : Tree)
    (hnew : ∀ k, t (run ++ [k]) = none)
    (hok : (prepareDirs run pmm cl der t).2 = none) :
    (∀ p, cl = some p →
      (prepareDirs run pmm cl der t).1 (run ++ ["Angular".toList]) = some (.link p)) ∧
    (∀ p, der = some p →
      (prepareDirs run pmm cl der t).1 (run ++ ["Derivative".toList]) = some (.link p)) ∧
    (cl = none → (prepareDirs run pmm cl der t).1 (run ++ ["Angular".toList]) = none) ∧
    (der = none → (prepareDirs run pmm cl der t).1 (run ++ ["Derivative".toList]) = none) ∧
    (pmm = none →
      (prepareDirs run pmm cl der t).1 (run ++ ["PowerSpectrum".toList]) = some .dir) := by
  have hap : ("Angular".toList : Str) ≠ "PowerSpectrum".toList := by decide +kernel
  have hdp : ("Derivative".toList : Str) ≠ "PowerSpectrum".toList := by decide +kernel
  have had : ("Angular".toList : Str) ≠ "Derivative".toList := by decide +kernel
  -- the tree after the power spectrum directory
  have hmid : ∃ t' : Tree, Extends t t' ∧ t' (run ++ ["Angular".toList]) = none ∧
      t' (run ++ ["Derivative".toList]) = none ∧
      (pmm = none → t' (run ++ ["PowerSpectrum".toList]) = some .dir) ∧
      prepareDirs run pmm cl der t = linkExternal run false
        ((cl.map (fun p => ("Angular".toList, p))).toList ++
          (der.map (fun p => ("Derivative".toList, p))).toList) t' := by
    cases pmm with
    | some p => exact ⟨t, Extends.refl t, hnew _, hnew _, (fun h => nomatch h), rfl⟩
    | none =>
      refine ⟨write t (run ++ ["PowerSpectrum".toList]) .dir, ?_, ?_, ?_, ?_, ?_⟩
      · intro p n hp
        rw [write_ne _ _ (by rintro rfl; rw [hnew] at hp; cases hp)]
        exact hp
      · rw [write_ne _ _ (fun hh => hap (snoc_inj hh))]; exact hnew _
      · rw [write_ne _ _ (fun hh => hdp (snoc_inj hh))]; exact hnew _
      · exact fun _ => write_same _ _ _
      · unfold prepareDirs mkdirOk
        simp only [hnew]
  obtain ⟨t', he, h1, h2, h3, heq⟩ := hmid
  rw [heq] at hok ⊢
  have hnd : (((cl.map (fun p => ("Angular".toList, p))).toList ++
      (der.map (fun p => ("Derivative".toList, p))).toList : List (Str × Path)).map (·.1)).Nodup := by
    cases cl <;> cases der <;> simp
  have hs := link_success run false _ t' hnd hok
  have ho := link_only run false ((cl.map (fun p => ("Angular".toList, p))).toList ++
      (der.map (fun p => ("Derivative".toList, p))).toList) t'
  have hx := link_never_replaces run false ((cl.map (fun p => ("Angular".toList, p))).toList ++
      (der.map (fun p => ("Derivative".toList, p))).toList) t'
  refine ⟨?_, ?_, ?_, ?_, fun h => hx _ _ (h3 h)⟩
  · rintro p rfl
    exact ((hs ("Angular".toList, p) (by simp)).2 h1).1
  · rintro p rfl
    exact ((hs ("Derivative".toList, p) (by simp)).2 h2).1
  · rintro rfl
    rw [ho _ _ (fun h => by cases h)]
    · exact h1
    · intro x hx' hh
      simp only [Option.map_none, Option.toList_none, List.nil_append] at hx'
      obtain ⟨c, hc⟩ := Option.mem_toList.mp hx' |> Option.map_eq_some_iff.mp
      exact had ((snoc_inj hh).trans (congrArg Prod.fst hc.2).symm)
  · rintro rfl
    rw [ho _ _ (fun h => by cases h)]
    · exact h2
    · intro x hx' hh
      simp only [Option.map_none, Option.toList_none, List.append_nil] at hx'
      obtain ⟨c, hc⟩ := Option.mem_toList.mp hx' |> Option.map_eq_some_iff.mp
      exact had ((snoc_inj hh).trans (congrArg Prod.fst hc.2).symm).symm

/-- A file in the place of the directory of power spectra, or a link to nothing: the preparation fails and changes nothing.
A directory, or a link to one, is kept. -/
theorem prepare_occupied (run : Path) (cl der : Option Path) (t : Tree) :
    (t (run ++ ["PowerSpectrum".toList]) = some .file → prepareDirs run none cl der t = (t, some .fileExists)) ∧
    (∀ q, t (run ++ ["PowerSpectrum".toList]) = some (.link q) → t q ≠ some .dir →
      prepareDirs run none cl der t = (t, some .fileExists)) ∧
    (t (run ++ ["PowerSpectrum".toList]) = some .dir → prepareDirs run none cl der t = prepareDirs run (some []) cl der t) ∧
    ∀ q, t (run ++ ["PowerSpectrum".toList]) = some (.link q) → t q = some .dir →
      prepareDirs run none cl der t = prepareDirs run (some []) cl der t := by
  unfold prepareDirs mkdirOk
  refine ⟨fun h => ?_, fun q h hq => ?_, fun h => ?_, fun q h hq => ?_⟩
  · simp only [h]
  · simp only [h, if_neg hq]
  · simp only [h]
  · simp only [h, if_pos hq]

/-- A finished run `old` and an empty run directory `new`. -/
def exampleTree : Tree := fun p =>
  if p = ["old".toList] ∨ p = ["old".toList, "Angular".toList] ∨ p = ["new".toList] ∨
    p = ["old".toList, "Derivative".toList] then some .dir
  else if p = ["old".toList, deltaName] then some .file else none

example : let r := linkExternal ["new".toList] true [("Angular".toList,
        ["old".toList, "Angular".toList])] exampleTree
    r.2 = none ∧ r.1 ["new".toList, "Angular".toList] = some (.link ["old".toList, "Angular".toList]) ∧
      r.1 ["new".toList, deltaName] = some (.link ["old".toList, deltaName]) := by decide +kernel

example : (linkExternal ["new".toList] true
      [("Angular".toList, ["old".toList, "Fisher".toList])] exampleTree).2 = some .fileNotFound := by
  decide +kernel

example : let r := (prepareDirs ["new".toList] none none (some ["old".toList, "Derivative".toList])
        exampleTree)
    r.2 = none ∧ r.1 ["new".toList, "PowerSpectrum".toList] = some .dir ∧
      r.1 ["new".toList, "Derivative".toList] =
        some (.link ["old".toList, "Derivative".toList]) := by decide +kernel

/-- A directory given for a concrete run. -/
def exExt : List (Str × Path) := [("Angular".toList, ["old".toList, "Angular".toList])]

theorem exLinked : (linkExternal ["new".toList] true exExt exampleTree).2 = none :=
  link_succeeds _ _ exExt _ (by decide +kernel) (by decide +kernel) (by decide +kernel)

/-- Concrete case of `link_success`. -/
example : (linkExternal ["new".toList] true exExt exampleTree).1 ["new".toList, deltaName] = some (.link ["old".toList, deltaName]) :=
  ((link_success ["new".toList] true exExt exampleTree (by decide +kernel) exLinked _ (.head _)).2 (by decide +kernel)).2 rfl rfl

/-- Concrete case of `link_only`: the directory of derivatives. -/
example : (linkExternal ["new".toList] true exExt exampleTree).1 ["new".toList, "Derivative".toList] = none :=
  (link_only ["new".toList] true exExt exampleTree _ (by decide +kernel) (fun _ _ => by decide +kernel)).trans (by decide +kernel)

/-- Concrete case of `link_twice`. -/
example : (linkExternal ["new".toList] true exExt (linkExternal ["new".toList] true exExt exampleTree).1).2 = none :=
  congrArg Prod.snd (link_twice ["new".toList] true exExt exampleTree (by decide +kernel) exLinked)

/-- Concrete case of `link_unknown_task`. -/
example : (linkExternal ["new".toList] true [("Plots".toList, ["old".toList])] exampleTree).2 = some .keyError :=
  congrArg Prod.snd (link_unknown_task _ _ _ _ ⟨_, .head _, by decide +kernel⟩)

/-- Concrete case of `link_missing`. -/
example : (linkExternal ["new".toList] true [("Fisher".toList, ["old".toList, "Fisher".toList])] exampleTree).2 = some .fileNotFound :=
  congrArg Prod.snd (link_missing _ _ _ _ _ (by decide +kernel) (by decide +kernel) (by decide +kernel))

/-- Concrete case of `link_delta_lost`: the other run has no noise file yet. -/
example : let t : Tree := fun p => if p = ["old".toList, "Angular".toList] then some .dir else none
    (linkExternal ["new".toList] true exExt t).2 = some .fileNotFound :=
  (link_delta_lost ["new".toList] ["old".toList, "Angular".toList] _ (by decide +kernel) (by decide +kernel) (by decide +kernel)
    (by decide +kernel) (by decide +kernel)).1

end Seyfert.Work
