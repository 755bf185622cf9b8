import Verif.Lemmas.RunSeyfert
import Verif.Props.Runner

/-!
C126: a forecast submitted as a batch job by `run_seyfert` is the forecast it would have run itself.
-/

namespace Seyfert.RunS

open Orch (Pth pname stem)
open OrchIn (toPath suffix)

/-! ### The table of options -/

theorem options_nodup : (options.map (·.1)).Nodup := by decide +kernel

theorem options_safe : ∀ p ∈ options, ∀ c ∈ p.1, safeChar c = true := by decide +kernel

theorem options_flag : ∀ p ∈ options, p.2 = .flag → p.1 = "test_batch".toList ∨ p.1 = "is_batch_job".toList := by
  decide +kernel

theorem options_paths : ∀ p ∈ options, p.2 = .paths → p.1 = "forecast_config".toList := by decide +kernel

theorem option_execution : options.lookup "execution".toList = some .text := by decide +kernel
theorem option_workdir : options.lookup "workdir".toList = some .path := by decide +kernel
theorem option_forecast : options.lookup "forecast_config".toList = some .paths := by decide +kernel
theorem option_job : options.lookup "is_batch_job".toList = some .flag := by decide +kernel

theorem default_keys (cfg data : Pth) : (defaults cfg data).map (·.1) = options.map (·.1) := rfl

theorem norm_child {p : Pth} (h : Norm p) {n : Str} (hn : n ≠ [] ∧ n ≠ ['.'] ∧ '/' ∉ n) : Norm (p ++ [n]) := by
  obtain ⟨r, hr, hc⟩ := h
  refine ⟨r ++ [n], ?_, ?_⟩
  · rcases hr with rfl | rfl
    · exact Or.inl rfl
    · exact Or.inr rfl
  · intro c hc'
    rcases List.mem_append.mp hc' with h | h
    · exact hc c h
    · rw [List.mem_singleton.mp h]; exact hn

theorem norm_nil : Norm [] := ⟨[], Or.inl rfl, by intro c hc; cases hc⟩

theorem default_forall {cfg data : Pth} (hc : Norm cfg) (hd : Norm data) :
    List.Forall₂ (fun o d => o.1 = d.1 ∧ (d.2 = Val.none ∨ HasKind o.2 d.2)) options (defaults cfg data) := by
  refine .cons ⟨rfl, Or.inr ⟨_, rfl, norm_child hc (by decide)⟩⟩ <| .cons ⟨rfl, Or.inr ⟨_, rfl, norm_child hc (by decide)⟩⟩ <|
    .cons ⟨rfl, Or.inr ⟨_, rfl, norm_child hc (by decide)⟩⟩ <| .cons ⟨rfl, Or.inr ⟨_, rfl, norm_child hc (by decide)⟩⟩ <|
    .cons ⟨rfl, Or.inr ⟨_, rfl, norm_child hc (by decide)⟩⟩ <| .cons ⟨rfl, Or.inl rfl⟩ <| .cons ⟨rfl, Or.inl rfl⟩ <|
    .cons ⟨rfl, Or.inl rfl⟩ <| .cons ⟨rfl, Or.inl rfl⟩ <| .cons ⟨rfl, Or.inr ⟨_, rfl⟩⟩ <| .cons ⟨rfl, Or.inr ⟨_, rfl⟩⟩ <|
    .cons ⟨rfl, Or.inr ⟨_, rfl⟩⟩ <| .cons ⟨rfl, Or.inl rfl⟩ <| .cons ⟨rfl, Or.inr ⟨_, rfl, norm_nil⟩⟩ <|
    .cons ⟨rfl, Or.inl rfl⟩ <| .cons ⟨rfl, Or.inr ⟨_, rfl, hd⟩⟩ <| .cons ⟨rfl, Or.inr (Or.inl ⟨_, rfl⟩)⟩ <|
    .cons ⟨rfl, Or.inr (Or.inl ⟨_, rfl⟩)⟩ .nil

theorem forall_lookup {R : Kind → Val → Prop} {l : List (Str × Kind)} {d : Dict Str Val}
    (h : List.Forall₂ (fun o e => o.1 = e.1 ∧ R o.2 e.2) l d) {k : Str} {kind : Kind} (hk : l.lookup k = some kind) :
    ∃ v, d.lookup k = some v ∧ R kind v := by
  induction h with
  | nil => cases hk
  | @cons a b l d hab _ ih =>
    obtain ⟨a1, a2⟩ := a
    obtain ⟨b1, b2⟩ := b
    obtain ⟨h1, h2⟩ := hab
    dsimp only at h1 h2
    subst h1
    rw [List.lookup_cons] at hk ⊢
    by_cases e : (k == a1) = true
    · rw [e] at hk ⊢
      cases hk
      exact ⟨b2, rfl, h2⟩
    · have e' : (k == a1) = false := by simpa using e
      rw [e'] at hk ⊢
      exact ih hk

/-! ### Arguments from the command line -/

theorem parse_assign {defs args : Dict Str Val} {argv : List Str} (h : parse defs argv = .ok args) :
    assign defs (group argv).2 = .ok args := by
  unfold parse at h
  dsimp only at h
  split at h
  · cases h
  · split at h
    · cases h
    · rename_i d hd
      split at h
      · cases h; exact hd
      · cases h

/-- Every option has a value, of its kind or absent by default, and nothing else does. -/
theorem parse_values {cfg data : Pth} (hc : Norm cfg) (hd : Norm data) {args : Dict Str Val} {argv : List Str}
    (h : parse (defaults cfg data) argv = .ok args) (k : Str) :
    (options.lookup k = none ∧ args.lookup k = none ∧ (defaults cfg data).lookup k = none) ∨
    ∃ kind v, options.lookup k = some kind ∧ args.lookup k = some v ∧
      ((v = .none ∧ (defaults cfg data).lookup k = some .none) ∨ HasKind kind v) := by
  cases ho : options.lookup k with
  | none =>
    have hdn : (defaults cfg data).lookup k = none := by
      rw [PyDict.lookup_none_iff, default_keys]
      exact (PyDict.lookup_none_iff options k).mp ho
    rcases assign_values (parse_assign h) k with e | ⟨kind, v, h1, -, -⟩
    · exact Or.inl ⟨rfl, e.trans hdn, hdn⟩
    · rw [ho] at h1; cases h1
  | some kind =>
    right
    rcases assign_values (parse_assign h) k with e | ⟨kind', v, h1, h2, h3⟩
    · obtain ⟨v, hv, hk⟩ := forall_lookup (R := fun o d => d = Val.none ∨ HasKind o d) (default_forall hc hd) ho
      refine ⟨kind, v, rfl, e.trans hv, ?_⟩
      rcases hk with rfl | hk
      · exact Or.inl ⟨rfl, hv⟩
      · exact Or.inr hk
    · rw [ho] at h1; cases h1
      exact ⟨kind, v, rfl, h3, Or.inr h2⟩

theorem parse_keys {cfg data : Pth} {args : Dict Str Val} {argv : List Str}
    (h : parse (defaults cfg data) argv = .ok args) : args.map (·.1) = options.map (·.1) := by
  rw [assign_keys (parse_assign h), default_keys]
  intro k kind hk
  rw [default_keys]
  exact (PyDict.lookup_isSome_iff options k).mp (by rw [hk]; rfl)

/-! ### Texts of paths -/

theorem mem_joinStr_of (sep : Str) (l : List Str) {s : Str} (hs : s ∈ l) {x : Char} (hx : x ∈ s) : x ∈ joinStr sep l := by
  induction l with
  | nil => cases hs
  | cons a l ih =>
    cases l with
    | nil =>
      rw [List.mem_singleton] at hs
      subst hs
      simpa [joinStr] using hx
    | cons b l =>
      rw [joinStr_cons_cons]
      rcases List.mem_cons.mp hs with rfl | hs
      · simp [hx]
      · simp [ih hs]

theorem comp_safe {p : Pth} (h : ∀ c ∈ pathText p, safeChar c = true) : ∀ s ∈ p, ∀ x ∈ s, safeChar x = true := by
  intro s hs x hx
  apply h
  unfold pathText
  rw [if_neg (by rintro rfl; cases hs)]
  by_cases e : p = [[]]
  · subst e
    rw [List.mem_singleton] at hs
    subst hs
    cases hx
  · rw [if_neg e]
    exact mem_joinStr_of _ _ hs hx

theorem pathText_safe {p : Pth} (h : ∀ s ∈ p, ∀ x ∈ s, safeChar x = true) : ∀ c ∈ pathText p, safeChar c = true := by
  intro c hc
  unfold pathText at hc
  split at hc
  · revert c; decide
  · split at hc
    · revert c; decide
    · rcases mem_joinStr _ _ _ hc with h' | ⟨s, hs, hx⟩
      · have : ∀ c ∈ "/".toList, safeChar c = true := by decide
        exact this c h'
      · exact h s hs c hx

theorem stem_mem {n : Str} {x : Char} (h : x ∈ stem n) : x ∈ n := by
  unfold stem at h
  split at h
  · split at h
    · exact List.mem_of_mem_take h
    · exact h
  · exact h

theorem pname_mem {p : Pth} {x : Char} (h : x ∈ pname p) : ∃ s ∈ p, x ∈ s := by
  unfold pname at h
  cases hp : p.getLast? with
  | none => rw [hp] at h; cases h
  | some s => rw [hp] at h; exact ⟨s, List.mem_of_getLast? hp, h⟩

theorem stamp_mem {t : Names.DateTime} {x : Char} (h : x ∈ Names.stampStr '-' t) :
    isDigit x = true ∨ x = '-' ∨ x = 'T' := by
  unfold Names.stampStr at h
  simp only [List.mem_append, List.mem_cons] at h
  rcases h with ((((h | rfl | h) | rfl | h) | rfl | h) | rfl | h) | rfl | h
  all_goals first
    | exact Or.inl (padDec_digits _ _ _ h)
    | simp

/-- The directory and the versions are plain texts, the installed directories proper paths. -/
structure SafeWorld (w : World) : Prop where
  cwd : ∃ r, w.cwd = [] :: r ∧ ∀ c ∈ r, c ≠ [] ∧ c ≠ ['.'] ∧ '/' ∉ c ∧ ∀ x ∈ c, safeChar x = true
  cfg : Norm w.cfg
  data : Norm w.data
  version : ∀ x ∈ w.version, safeChar x = true ∧ x ≠ '/'

theorem resolve_abs {w : World} (hw : SafeWorld w) {p : Pth} (hp : Norm p) (hs : ∀ s ∈ p, ∀ x ∈ s, safeChar x = true) :
    ∃ r, resolve w.cwd p = [] :: r ∧ ∀ c ∈ r, c ≠ [] ∧ c ≠ ['.'] ∧ '/' ∉ c ∧ ∀ x ∈ c, safeChar x = true := by
  obtain ⟨r0, hr0, h0⟩ := hw.cwd
  obtain ⟨r, hr, hc⟩ := hp
  rcases hr with rfl | rfl
  · refine ⟨r0 ++ p, ?_, ?_⟩
    · unfold resolve
      split
      · exact absurd rfl (hc [] (by simp)).1
      · rw [hr0]; rfl
    · intro c hm
      rcases List.mem_append.mp hm with h | h
      · exact h0 c h
      · exact ⟨(hc c h).1, (hc c h).2.1, (hc c h).2.2, hs c h⟩
  · exact ⟨r, rfl, fun c h => ⟨(hc c h).1, (hc c h).2.1, (hc c h).2.2, hs c (by simp [h])⟩⟩

theorem dir_comp {w : World} (hw : SafeWorld w) {c : Pth} (hc : Norm c) (hs : ∀ s ∈ c, ∀ x ∈ s, safeChar x = true)
    (t : Names.DateTime) :
    let n := Names.runDirName ("run_".toList ++ stem (pname c)) w.version t
    n ≠ [] ∧ n ≠ ['.'] ∧ '/' ∉ n ∧ ∀ x ∈ n, safeChar x = true := by
  intro n
  have hr : "run_".toList = ['r', 'u', 'n', '_'] := by decide
  have hn : n = 'r' :: ('u' :: 'n' :: '_' :: (stem (pname c) ++ ('_' :: w.version ++ '_' :: Names.stampStr '-' t))) := by
    show Names.runDirName _ _ _ = _
    unfold Names.runDirName
    rw [hr]
    simp
  have hm : ∀ x ∈ n, x ≠ '/' ∧ safeChar x = true := by
    intro x hx
    rw [hn] at hx
    simp only [List.mem_cons, List.mem_append] at hx
    rcases hx with rfl | rfl | rfl | rfl | h | (rfl | h) | rfl | h
    · decide
    · decide
    · decide
    · decide
    · obtain ⟨s, hsm, hxs⟩ := pname_mem (stem_mem h)
      refine ⟨?_, hs s hsm x hxs⟩
      rintro rfl
      obtain ⟨r, hr, hcc⟩ := hc
      rcases hr with rfl | rfl
      · exact (hcc s hsm).2.2 hxs
      · rcases List.mem_cons.mp hsm with rfl | hsm
        · cases hxs
        · exact (hcc s hsm).2.2 hxs
    · decide
    · exact ⟨(hw.version x h).2, (hw.version x h).1⟩
    · decide
    · rcases stamp_mem h with h | rfl | rfl
      · constructor
        · rintro rfl; revert h; decide
        · unfold safeChar; rw [h]; simp
      · decide
      · decide
  refine ⟨by rw [hn]; simp, by rw [hn]; simp, fun h => (hm _ h).1 rfl, fun x hx => (hm x hx).2⟩

theorem abs_text {r : Pth} (h : ∀ c ∈ r, c ≠ [] ∧ c ≠ ['.'] ∧ '/' ∉ c ∧ ∀ x ∈ c, safeChar x = true) :
    Norm ([] :: r) ∧ Plain (pathText ([] :: r)) := by
  refine ⟨⟨r, Or.inr rfl, fun c hc => ⟨(h c hc).1, (h c hc).2.1, (h c hc).2.2.1⟩⟩, ?_⟩
  have hh : ∃ s, pathText ([] :: r) = '/' :: s := by
    cases r with
    | nil => exact ⟨[], by decide⟩
    | cons a r =>
      refine ⟨joinStr "/".toList (a :: r), ?_⟩
      unfold pathText
      rw [if_neg (by simp), if_neg (by simp), joinStr_cons_cons]
      rfl
  obtain ⟨s, e⟩ := hh
  refine ⟨by rw [e]; simp, by rw [e]; rfl, ?_⟩
  apply pathText_safe
  intro s hs x hx
  rcases List.mem_cons.mp hs with rfl | hs
  · cases hx
  · exact (h s hs).2.2.2 x hx

/-! ### A job is the forecast -/

/-- The values the job reads from its command line. -/
def readBack (k : Str) (v : Val) : Val :=
  match options.lookup k with
  | some .flag => .text v.str
  | some .paths => match v with
    | .path p => .paths [p]
    | _ => v
  | _ => v

theorem sortAll_one (c : Pth) : sortAll [c] = [c] := by
  unfold sortAll Orch.sortConfigs
  split <;> rfl

theorem isValue_option (k : Str) : isValue ("--".toList ++ k) = false := by
  show (('-' :: k).all isDigit) = false
  rfl

/-- C126. Whole numbers, also negative ones, are values which pass through the command line of a job. -/
theorem whole_numbers_pass (i : Int) : Plain (Val.int i).str := by
  have hd : ∀ n, ∀ c ∈ decStr n, safeChar c = true := by
    intro n c hc
    unfold safeChar
    rw [decStr_digits _ c hc]
    simp
  show Plain (intText i)
  cases i with
  | negSucc n =>
    show Plain ('-' :: decStr (n + 1))
    refine ⟨by simp, ?_, ?_⟩
    · obtain ⟨c, r, e⟩ := List.exists_cons_of_ne_nil (decStr_ne_nil (n + 1))
      have hc := decStr_digits (n + 1)
      rw [e] at hc ⊢
      exact List.all_eq_true.mpr hc
    · intro x hx
      rcases List.mem_cons.mp hx with rfl | hx
      · decide
      · exact hd _ x hx
  | ofNat n =>
    show Plain (decStr n)
    refine ⟨decStr_ne_nil _, ?_, hd n⟩
    obtain ⟨c, r, e⟩ := List.exists_cons_of_ne_nil (decStr_ne_nil n)
    have hc := decStr_digits n
    rw [e] at hc ⊢
    have hne : c ≠ '-' := by
      rintro rfl
      exact absurd (hc '-' (by simp)) (by decide)
    unfold isValue
    split
    · next h => exact absurd (List.cons.inj h).1 hne
    · rfl

/-- Options in which a job may differ from the forecast run by the program itself. -/
def Technical (k : Str) : Prop := k = "execution".toList ∨ k = "test_batch".toList ∨ k = "is_batch_job".toList

/-- C126, for one configuration: the command submitted for it, run by the batch system, runs one forecast, with the
arguments, the directory included, which the forecast would have had at that time in the program itself. -/
theorem job_is_forecast_partial (w : World) (hw : SafeWorld w) (argv : List Str) (args : Dict Str Val)
    (hp : parse (defaults w.cfg w.data) argv = .ok args)
    (hs : ∀ k v, args.lookup k = some v → v ≠ .none → k ≠ "forecast_config".toList → Plain v.str)
    (hj : args.lookup "is_batch_job".toList = some (.bool false))
    (t : Names.DateTime) (c : Pth) (hc : Norm c) (hcp : Plain (pathText c)) (hx : suffix (pname c) ≠ ".txt".toList) :
    ∃ f j g, forecastArgs w args t c = .ok f ∧ jobArgs w args t c = .ok j ∧
      (∀ now, runJob w (command j) now = some (.ok (.ran [g]))) ∧
      ∀ k, ¬ Technical k → g.lookup k = f.lookup k := by
  -- the working directory
  obtain ⟨p, hpw, hpn⟩ : ∃ p, args.lookup "workdir".toList = some (.path p) ∧ Norm p := by
    rcases parse_values hw.cfg hw.data hp "workdir".toList with ⟨h, -, -⟩ | ⟨kind, v, h1, h2, h3⟩
    · rw [option_workdir] at h; cases h
    · rw [option_workdir] at h1; cases h1
      rcases h3 with ⟨-, h3⟩ | ⟨p, rfl, hpn⟩
      · exact absurd h3 (by
          intro e
          have : (defaults w.cfg w.data).lookup "workdir".toList = some (.path []) := rfl
          rw [this] at e; cases e)
      · exact ⟨p, h2, hpn⟩
  have hps : ∀ s ∈ p, ∀ x ∈ s, safeChar x = true :=
    comp_safe (hs _ _ hpw (by simp) (by decide)).2.2
  obtain ⟨r, hr, hrc⟩ := resolve_abs hw hpn hps
  have hcs := comp_safe hcp.2.2
  have hn := dir_comp hw hc hcs t
  dsimp only at hn
  generalize hN : Names.runDirName ("run_".toList ++ stem (pname c)) w.version t = n at hn
  have hdir : ∀ x ∈ r ++ [n], x ≠ [] ∧ x ≠ ['.'] ∧ '/' ∉ x ∧ ∀ y ∈ x, safeChar y = true := by
    intro x hx
    rcases List.mem_append.mp hx with h | h
    · exact hrc x h
    · rw [List.mem_singleton.mp h]; exact hn
  obtain ⟨dn, dp⟩ := abs_text hdir
  have hbase : base w args = .ok ([] :: r) := by unfold base; rw [hpw]; dsimp only; rw [hr]
  have hfd : Runner.forecastDir ([] :: r) false w.version (stem (pname c)) t = [] :: (r ++ [n]) := by
    unfold Runner.forecastDir
    simp only [Bool.false_eq_true, if_false]
    rw [hN]; rfl
  generalize hD : ([] :: (r ++ [n]) : Pth) = dir at *
  -- the two dictionaries
  refine ⟨PyDict.set (PyDict.set args "forecast_config".toList (.path c)) "workdir".toList (.path dir),
    PyDict.set (PyDict.set (PyDict.set args "forecast_config".toList (.path c)) "workdir".toList (.path dir))
      "is_batch_job".toList (.bool true), ?_⟩
  have hf : forecastArgs w args t c = .ok (PyDict.set (PyDict.set args "forecast_config".toList (.path c)) "workdir".toList (.path dir)) := by
    unfold forecastArgs
    rw [hbase, hj]
    dsimp only [Val.truthy]
    rw [hfd]
  have hjob : jobArgs w args t c = .ok (PyDict.set (PyDict.set (PyDict.set args "forecast_config".toList (.path c)) "workdir".toList (.path dir))
      "is_batch_job".toList (.bool true)) := by
    unfold jobArgs
    rw [hbase]
    dsimp only
    rw [hfd]
  generalize hL : PyDict.set (PyDict.set (PyDict.set (PyDict.set args "forecast_config".toList (.path c)) "workdir".toList (.path dir))
      "is_batch_job".toList (.bool true)) "execution".toList (.text "interactive".toList) = l
  -- keys of the written dictionary
  have memk : ∀ k kind, options.lookup k = some kind → k ∈ args.map (·.1) := by
    intro k kind hk
    rw [parse_keys hp]
    exact (PyDict.lookup_isSome_iff options k).mp (by rw [hk]; rfl)
  have hk1 : (PyDict.set args "forecast_config".toList (.path c)).map (·.1) = args.map (·.1) := by
    rw [PyDict.keys_set, if_pos (memk _ _ option_forecast)]
  have hk2 : (PyDict.set (PyDict.set args "forecast_config".toList (.path c)) "workdir".toList (.path dir)).map (·.1) = args.map (·.1) := by
    rw [PyDict.keys_set, if_pos (by rw [hk1]; exact memk _ _ option_workdir), hk1]
  have hk3 : (PyDict.set (PyDict.set (PyDict.set args "forecast_config".toList (.path c)) "workdir".toList (.path dir))
      "is_batch_job".toList (.bool true)).map (·.1) = args.map (·.1) := by
    rw [PyDict.keys_set, if_pos (by rw [hk2]; exact memk _ _ option_job), hk2]
  have hkl : l.map (·.1) = options.map (·.1) := by
    rw [← hL, PyDict.keys_set, if_pos (by rw [hk3]; exact memk _ _ option_execution), hk3, parse_keys hp]
  have hll : ∀ k, l.lookup k = if k = "execution".toList then some (.text "interactive".toList)
      else if k = "is_batch_job".toList then some (.bool true)
      else if k = "workdir".toList then some (.path dir)
      else if k = "forecast_config".toList then some (.path c) else args.lookup k := by
    intro k
    rw [← hL, PyDict.lookup_set, PyDict.lookup_set, PyDict.lookup_set, PyDict.lookup_set]
  have hnd : (l.map (·.1)).Nodup := by rw [hkl]; exact options_nodup
  have kindOf : ∀ q ∈ l, ∃ kind, options.lookup q.1 = some kind := by
    intro q hq
    have : q.1 ∈ options.map (·.1) := by rw [← hkl]; exact List.mem_map_of_mem hq
    exact Option.isSome_iff_exists.mp ((PyDict.lookup_isSome_iff options q.1).mpr this)
  have hval : ∀ q ∈ l, q.2 ≠ .none → Plain q.2.str ∧
      ∃ kind, options.lookup q.1 = some kind ∧ convert kind [q.2.str] = .ok (readBack q.1 q.2) := by
    intro q hq hqn
    obtain ⟨k, v⟩ := q
    have hlk : l.lookup k = some v := PyDict.lookup_of_mem l hnd hq
    rw [hll k] at hlk
    dsimp only at hqn ⊢
    unfold readBack
    by_cases e1 : k = "execution".toList
    · rw [if_pos e1] at hlk
      cases hlk
      rw [e1, option_execution]
      refine ⟨⟨by decide, by decide, by decide +kernel⟩, _, rfl, rfl⟩
    rw [if_neg e1] at hlk
    by_cases e2 : k = "is_batch_job".toList
    · rw [if_pos e2] at hlk
      cases hlk
      rw [e2, option_job]
      refine ⟨⟨by decide, by decide, by decide +kernel⟩, _, rfl, rfl⟩
    rw [if_neg e2] at hlk
    by_cases e3 : k = "workdir".toList
    · rw [if_pos e3] at hlk
      cases hlk
      rw [e3, option_workdir]
      exact ⟨dp, _, rfl, convert_str ⟨_, rfl, dn⟩ (Or.inl rfl)⟩
    rw [if_neg e3] at hlk
    by_cases e4 : k = "forecast_config".toList
    · rw [if_pos e4] at hlk
      cases hlk
      rw [e4, option_forecast]
      refine ⟨hcp, _, rfl, ?_⟩
      show Except.ok (Val.paths [toPath (pathText c)]) = _
      rw [toPath_pathText c hc]
    rw [if_neg e4] at hlk
    refine ⟨hs k v hlk hqn e4, ?_⟩
    rcases parse_values hw.cfg hw.data hp k with ⟨-, h, -⟩ | ⟨kind, v', h1, h2, h3⟩
    · rw [hlk] at h; cases h
    · rw [hlk] at h2
      cases h2
      rw [h1]
      refine ⟨kind, rfl, ?_⟩
      rcases h3 with ⟨h3, -⟩ | h3
      · exact absurd h3 hqn
      · cases kind with
        | path => exact convert_str h3 (by simp)
        | int => exact convert_str h3 (by simp)
        | text => exact convert_str h3 (by simp)
        | flag => rfl
        | paths => exact absurd (options_paths (k, .paths) (PyDict.mem_of_lookup h1) rfl) e4
  -- the words
  have hcmd := shell_command l (fun q hq x hx => by
    obtain ⟨kind, hk⟩ := kindOf q hq
    exact options_safe _ (PyDict.mem_of_lookup hk) x hx) (fun q hq hqn => (hval q hq hqn).1)
  obtain ⟨d', hd1, hd2⟩ := assign_words readBack (defaults w.cfg w.data) l hnd (fun q hq hqn => (hval q hq hqn).2)
  have hgroup : group ((optWords l).flatMap fun g => g.1 :: g.2) = ([], optWords l) := by
    apply group_words
    intro g hg
    obtain ⟨q, hq, hqg⟩ := List.mem_filterMap.mp hg
    by_cases e : q.2 = .none
    · rw [if_pos e] at hqg; cases hqg
    · rw [if_neg e] at hqg
      cases hqg
      refine ⟨isValue_option _, ?_⟩
      intro t ht
      rw [List.mem_singleton.mp ht]
      exact (hval q hq e).1.2.1
  have hreq : ∀ k v, l.lookup k = some v → v ≠ .none → "--".toList ++ k ∈ (optWords l).map (·.1) := by
    intro k v hkv hv
    have hm := PyDict.mem_of_lookup hkv
    refine List.mem_map.mpr ⟨("--".toList ++ k, [v.str]), ?_, rfl⟩
    exact List.mem_filterMap.mpr ⟨(k, v), hm, by rw [if_neg hv]⟩
  have hle : l.lookup "execution".toList = some (.text "interactive".toList) := by rw [hll, if_pos rfl]
  have hlj : l.lookup "is_batch_job".toList = some (.bool true) := by
    rw [hll, if_neg (by decide), if_pos rfl]
  have hlw : l.lookup "workdir".toList = some (.path dir) := by
    rw [hll, if_neg (by decide), if_neg (by decide), if_pos rfl]
  have hlf : l.lookup "forecast_config".toList = some (.path c) := by
    rw [hll, if_neg (by decide), if_neg (by decide), if_neg (by decide), if_pos rfl]
  have hparse : parse (defaults w.cfg w.data) ((optWords l).flatMap fun g => g.1 :: g.2) = .ok d' := by
    unfold parse
    dsimp only
    rw [hgroup]
    dsimp only
    rw [if_neg (by simp), hd1]
    dsimp only
    rw [if_pos]
    constructor
    · exact hreq "execution".toList _ hle (by simp)
    · exact hreq "forecast_config".toList _ hlf (by simp)
  have he : d'.lookup "execution".toList = some (.text "interactive".toList) := by
    rw [hd2, hle]; dsimp only; rw [if_neg (by simp)]; unfold readBack; rw [option_execution]
  have hjb : d'.lookup "is_batch_job".toList = some (.text "True".toList) := by
    rw [hd2, hlj]; dsimp only; rw [if_neg (by simp)]; unfold readBack; rw [option_job]; rfl
  have hwd : d'.lookup "workdir".toList = some (.path dir) := by
    rw [hd2, hlw]; dsimp only; rw [if_neg (by simp)]; unfold readBack; rw [option_workdir]
  have hfc : d'.lookup "forecast_config".toList = some (.paths [c]) := by
    rw [hd2, hlf]; dsimp only; rw [if_neg (by simp)]; unfold readBack; rw [option_forecast]
  refine ⟨PyDict.set (PyDict.set d' "forecast_config".toList (.path c)) "workdir".toList (.path dir), hf, hjob, ?_, ?_⟩
  · intro now
    unfold runJob
    have : command (PyDict.set (PyDict.set (PyDict.set args "forecast_config".toList (.path c)) "workdir".toList (.path dir))
      "is_batch_job".toList (.bool true)) = "run_seyfert ".toList ++ joinStr " ".toList (l.filterMap item) := by
      unfold command; rw [hL]
    rw [this, hcmd]
    dsimp only
    unfold call
    rw [hparse]
    dsimp only
    unfold main
    have hcfg : configsOf w d' = .ok [c] := by
      unfold configsOf
      rw [hfc]
      dsimp only
      have : OrchIn.pathsOf w.text [c] = .ok [c] := by
        unfold OrchIn.pathsOf
        rw [if_neg]
        simp only [List.all_cons, List.all_nil, Bool.and_true, decide_eq_true_eq]
        exact hx
      rw [this]
      dsimp only
      rw [sortAll_one]
    rw [hcfg]
    dsimp only
    rw [he]
    dsimp only
    rw [if_pos rfl]
    have hb' : base w d' = .ok dir := by
      unfold base
      rw [hwd]
      dsimp only
      rw [← hD]
      rfl
    have hfa : forecastArgs w d' (now 0) c = .ok (PyDict.set (PyDict.set d' "forecast_config".toList (.path c)) "workdir".toList (.path dir)) := by
      unfold forecastArgs
      rw [hb', hjb]
      rfl
    rw [eachFrom, hfa]
    rfl
  · intro k hk
    rw [PyDict.lookup_set, PyDict.lookup_set, PyDict.lookup_set, PyDict.lookup_set]
    by_cases e3 : k = "workdir".toList
    · rw [if_pos e3, if_pos e3]
    rw [if_neg e3, if_neg e3]
    by_cases e4 : k = "forecast_config".toList
    · rw [if_pos e4, if_pos e4]
    rw [if_neg e4, if_neg e4, hd2, hll, if_neg (fun e => hk (Or.inl e)), if_neg (fun e => hk (Or.inr (Or.inr e))), if_neg e3,
      if_neg e4]
    rcases parse_values hw.cfg hw.data hp k with ⟨-, h, h'⟩ | ⟨kind, v, h1, h2, h3⟩
    · rw [h]; exact h'
    · rw [h2]
      dsimp only
      rcases h3 with ⟨rfl, h3⟩ | h3
      · rw [if_pos rfl, h3]
      · rw [if_neg (hasKind_ne_none h3)]
        unfold readBack
        rw [h1]
        cases kind with
        | path => rfl
        | int => rfl
        | text => rfl
        | flag =>
          rcases options_flag (k, .flag) (PyDict.mem_of_lookup h1) rfl with e | e
          · exact absurd (Or.inr (Or.inl e)) hk
          · exact absurd (Or.inr (Or.inr e)) hk
        | paths => exact absurd (options_paths (k, .paths) (PyDict.mem_of_lookup h1) rfl) e4

/-! ### The configurations -/

theorem listed_norm (s : Str) : ∀ p ∈ OrchIn.listed s, Norm p := by
  intro p hp
  obtain ⟨l, _, rfl⟩ := List.mem_map.mp hp
  exact norm_toPath _

theorem readLists_norm {text : Pth → Option Str} : ∀ {ps cs : List Pth}, OrchIn.readLists text ps = .ok cs →
    ∀ c ∈ cs, Norm c := by
  intro ps
  induction ps with
  | nil => intro cs h; cases h; intro c hc; cases hc
  | cons p ps ih =>
    intro cs h
    rw [OrchIn.readLists] at h
    split at h
    · cases h
    · split at h
      · cases h
      · rename_i l hl
        cases h
        intro c hc
        rcases List.mem_append.mp hc with h' | h'
        · exact listed_norm _ c h'
        · exact ih hl c h'

theorem sortAll_perm (fs : List Pth) : (sortAll fs).Perm fs := by
  unfold sortAll
  split
  · rename_i ha
    unfold Orch.sortConfigs
    rw [if_pos ha]
    exact List.perm_insertionSort _ _
  · exact List.perm_insertionSort _ _

/-- Every configuration given, or listed in the given files, is taken exactly as often as it was given, and in the order
of the numbers of bins if the names tell these. -/
theorem configs_once (w : World) (args : Dict Str Val) (cs : List Pth) (h : configsOf w args = .ok cs) :
    ∃ l ps, args.lookup "forecast_config".toList = some (.paths l) ∧ OrchIn.pathsOf w.text l = .ok ps ∧ cs.Perm ps ∧
      ((∀ p ∈ ps, (Orch.binsOf (pname p)).isSome) →
        cs.Pairwise fun a b => (Orch.binsOf (pname a)).getD 0 ≤ (Orch.binsOf (pname b)).getD 0) := by
  unfold configsOf at h
  split at h
  · rename_i l hl
    split at h
    · rename_i ps hps
      cases h
      refine ⟨l, ps, hl, hps, sortAll_perm ps, ?_⟩
      intro hb
      have ha : ps.all (fun f => (Orch.binsOf (pname f)).isSome) = true := List.all_eq_true.mpr hb
      unfold sortAll Orch.sortConfigs
      rw [if_pos ha, if_pos ha]
      exact List.pairwise_insertionSort (r := fun a b => (Orch.binsOf (pname a)).getD 0 ≤ (Orch.binsOf (pname b)).getD 0) _
    · cases h
  · cases h

example : configsOf ⟨[[]], [[]], [[]], [], fun _ => none⟩ [("forecast_config".toList,
      .paths [["12_sp_bins.json".toList], ["4_sp_bins.json".toList], ["12_sp_bins.json".toList]])] =
    .ok [["4_sp_bins.json".toList], ["12_sp_bins.json".toList], ["12_sp_bins.json".toList]] := by decide +kernel

/-- The configurations are proper paths. -/
theorem configs_norm {w : World} (hw : SafeWorld w) {argv : List Str} {args : Dict Str Val}
    (hp : parse (defaults w.cfg w.data) argv = .ok args) {cs : List Pth} (h : configsOf w args = .ok cs) :
    ∀ c ∈ cs, Norm c := by
  obtain ⟨l, ps, h1, h2, h3, -⟩ := configs_once w args cs h
  intro c hc
  have hc' := h3.mem_iff.mp hc
  unfold OrchIn.pathsOf at h2
  split at h2
  · exact readLists_norm h2 c hc'
  · cases h2
    rcases parse_values hw.cfg hw.data hp "forecast_config".toList with ⟨h, -, -⟩ | ⟨kind, v, k1, k2, k3⟩
    · rw [option_forecast] at h; cases h
    · rw [option_forecast] at k1; cases k1
      rw [h1] at k2; cases k2
      rcases k3 with ⟨k3, -⟩ | ⟨l', k3, k4⟩
      · cases k3
      · cases k3; exact k4 c hc'

/-! ### All forecasts -/

theorem eachFrom_forall {A B : Type} {f : Names.DateTime → Pth → Except Err A} {g : Names.DateTime → Pth → Except Err B}
    {R : Pth → A → B → Prop} (now : Nat → Names.DateTime) : ∀ (cs : List Pth) (n : Nat),
    (∀ c ∈ cs, ∀ t, ∃ a b, f t c = .ok a ∧ g t c = .ok b ∧ R c a b) →
    ∃ as bs, eachFrom f now n cs = .ok as ∧ eachFrom g now n cs = .ok bs ∧
      List.Forall₂ (fun c ab => R c ab.1 ab.2) cs (as.zip bs) ∧ as.length = cs.length ∧ bs.length = cs.length := by
  intro cs
  induction cs with
  | nil => intro n _; exact ⟨[], [], rfl, rfl, .nil, rfl, rfl⟩
  | cons c cs ih =>
    intro n h
    obtain ⟨a, b, h1, h2, h3⟩ := h c (by simp) (now n)
    obtain ⟨as, bs, k1, k2, k3, k4, k5⟩ := ih (n + 1) (fun c' hc' => h c' (List.mem_cons_of_mem _ hc'))
    refine ⟨a :: as, b :: bs, ?_, ?_, ?_, ?_, ?_⟩
    · rw [eachFrom, h1]; dsimp only; rw [k1]
    · rw [eachFrom, h2]; dsimp only; rw [k2]
    · exact .cons h3 k3
    · simp [k4]
    · simp [k5]

/-- C126: called for the batch system, the program submits one job for every configuration; called with the same options
to do the work itself, it runs one forecast for each. The jobs run the same forecasts: with the same configuration, the
same files and the same directories as those run at the same times. -/
theorem batch_is_interactive_partial (w : World) (hw : SafeWorld w) (argvB : List Str) (argsB argsI : Dict Str Val)
    (hpB : parse (defaults w.cfg w.data) argvB = .ok argsB)
    (hB : argsB.lookup "execution".toList = some (.text "batch".toList))
    (hI : argsI.lookup "execution".toList = some (.text "interactive".toList))
    (same : ∀ k, k ≠ "execution".toList → argsI.lookup k = argsB.lookup k)
    (hs : ∀ k v, argsB.lookup k = some v → v ≠ .none → k ≠ "forecast_config".toList → Plain v.str)
    (hj : argsB.lookup "is_batch_job".toList = some (.bool false))
    (ht : argsB.lookup "test_batch".toList = some (.bool false))
    (now : Nat → Names.DateTime) (cs : List Pth) (hc : configsOf w argsB = .ok cs)
    (hcs : ∀ c ∈ cs, Plain (pathText c) ∧ suffix (pname c) ≠ ".txt".toList) :
    ∃ cmds fs, main w argsB now = .ok (.submitted cmds) ∧ main w argsI now = .ok (.ran fs) ∧
      cmds.length = cs.length ∧ fs.length = cs.length ∧
      List.Forall₂ (fun c cf => cf.2.lookup "forecast_config".toList = some (.path c) ∧
        ∃ g, (∀ later, runJob w cf.1 later = some (.ok (.ran [g]))) ∧ ∀ k, ¬ Technical k → g.lookup k = cf.2.lookup k)
        cs (cmds.zip fs) := by
  have hcI : configsOf w argsI = .ok cs := by
    unfold configsOf at hc ⊢
    rw [same _ (by decide)]
    exact hc
  have key : ∀ c ∈ cs, ∀ t, ∃ a b, (jobArgs w argsB t c).map command = .ok a ∧ forecastArgs w argsI t c = .ok b ∧
      (b.lookup "forecast_config".toList = some (.path c) ∧ ∃ g, (∀ later, runJob w a later = some (.ok (.ran [g]))) ∧
        ∀ k, ¬ Technical k → g.lookup k = b.lookup k) := by
    intro c hcm t
    obtain ⟨f, j, g, h1, h2, h3, h4⟩ := job_is_forecast_partial w hw argvB argsB hpB hs hj t c (configs_norm hw hpB hc c hcm)
      (hcs c hcm).1 (hcs c hcm).2
    -- the forecast of the program itself
    have hf : ∃ b, forecastArgs w argsI t c = .ok b ∧ b.lookup "forecast_config".toList = some (.path c) ∧
        ∀ k, k ≠ "execution".toList → b.lookup k = f.lookup k := by
      unfold forecastArgs at h1 ⊢
      have hb : base w argsI = base w argsB := by unfold base; rw [same _ (by decide)]
      rw [hb, same _ (by decide)]
      split at h1
      · rename_i b v hb' hv
        cases h1
        refine ⟨_, rfl, ?_, ?_⟩
        · rw [PyDict.lookup_set, if_neg (by decide), PyDict.lookup_set, if_pos rfl]
        · intro k hk
          rw [PyDict.lookup_set, PyDict.lookup_set, PyDict.lookup_set, PyDict.lookup_set, same k hk]
      · cases h1
    obtain ⟨b, hb1, hb2, hb3⟩ := hf
    refine ⟨command j, b, ?_, hb1, hb2, g, h3, ?_⟩
    · rw [h2]; rfl
    · intro k hk
      rw [h4 k hk, hb3 k (fun e => hk (Or.inl e))]
  obtain ⟨cmds, fs, k1, k2, k3, k4, k5⟩ := eachFrom_forall now cs 0 key
  refine ⟨cmds, fs, ?_, ?_, k4, k5, k3⟩
  · unfold main
    rw [hc]
    dsimp only
    rw [hB]
    dsimp only
    rw [if_neg (by decide), if_pos rfl, k1]
    dsimp only
    rw [ht]
    rfl
  · unfold main
    rw [hcI]
    dsimp only
    rw [hI]
    dsimp only
    rw [if_pos rfl, k2]

/-- The directories of the forecasts of one call are different when they begin at different seconds. -/
theorem own_directories (w : World) (args : Dict Str Val) (hv : Names.Version w.version)
    (hj : args.lookup "is_batch_job".toList = some (.bool false)) (now : Nat → Names.DateTime)
    (hval : ∀ n, (now n).valid = true) (hinj : ∀ m n, now m = now n → m = n) (fs : List (Dict Str Val))
    (h : main w args now = .ok (.ran fs)) :
    fs.Pairwise fun f g => f.lookup "workdir".toList ≠ g.lookup "workdir".toList := by
  have key : ∀ (cs : List Pth) (n : Nat) (fs : List (Dict Str Val)), eachFrom (forecastArgs w args) now n cs = .ok fs →
      (∀ f ∈ fs, ∃ m, n ≤ m ∧ ∃ b c, base w args = .ok b ∧ f.lookup "workdir".toList =
        some (.path (Runner.forecastDir b false w.version (stem (pname c)) (now m)))) ∧
      fs.Pairwise fun f g => f.lookup "workdir".toList ≠ g.lookup "workdir".toList := by
    intro cs
    induction cs with
    | nil => intro n fs h; cases h; exact ⟨(fun f hf => absurd hf (by simp)), List.Pairwise.nil⟩
    | cons c cs ih =>
      intro n fs h
      rw [eachFrom] at h
      split at h
      · cases h
      · rename_i a ha
        split at h
        · cases h
        · rename_i l hl
          cases h
          obtain ⟨i1, i2⟩ := ih _ _ hl
          have hdir : ∃ b, base w args = .ok b ∧ a.lookup "workdir".toList =
              some (.path (Runner.forecastDir b false w.version (stem (pname c)) (now n))) := by
            unfold forecastArgs at ha
            split at ha
            · rename_i b v hb hvv
              rw [hj] at hvv
              cases hvv
              cases ha
              exact ⟨b, hb, by rw [PyDict.lookup_set, if_pos rfl]; rfl⟩
            · cases ha
          obtain ⟨b, hb, hd⟩ := hdir
          constructor
          · intro f hf
            rcases List.mem_cons.mp hf with rfl | hf
            · exact ⟨n, le_refl n, b, c, hb, hd⟩
            · obtain ⟨m, hm, r⟩ := i1 f hf
              exact ⟨m, by omega, r⟩
          · refine .cons ?_ i2
            intro g hg e
            obtain ⟨m, hm, b', c', hb', hd'⟩ := i1 g hg
            rw [hb] at hb'
            cases hb'
            rw [hd, hd'] at e
            have e' := Val.path.inj (Option.some.inj e)
            have := (Runner.forecast_dirs_partial b w.version _ _ hv _ _ (hval n) (hval m) e').2
            have := hinj _ _ this
            omega
  unfold main at h
  split at h
  · cases h
  · split at h
    · split at h
      · split at h
        · rename_i l hl
          cases h
          exact (key _ _ _ hl).2
        · cases h
      · split at h
        · split at h
          · split at h <;> cases h
          · cases h
        · split at h <;> cases h
    · cases h

/-- Without execution nothing is run or submitted, and any other word than the three is refused. -/
theorem modes (w : World) (args : Dict Str Val) (now : Nat → Names.DateTime) (cs : List Pth) (hc : configsOf w args = .ok cs)
    (m : Str) (hm : args.lookup "execution".toList = some (.text m)) :
    (m = "no".toList → main w args now = .ok .nothing) ∧
    (m ∉ ["interactive".toList, "batch".toList, "no".toList] → main w args now = .error .badMode) := by
  constructor
  · rintro rfl
    unfold main
    rw [hc]; dsimp only; rw [hm]; dsimp only
    rw [if_neg (by decide), if_neg (by decide), if_pos rfl]
  · intro hn
    simp only [List.mem_cons, List.not_mem_nil, or_false, not_or] at hn
    unfold main
    rw [hc]; dsimp only; rw [hm]; dsimp only
    rw [if_neg hn.1, if_neg hn.2.1, if_neg hn.2.2]

/-! ### A case, and where the claim fails -/

/-- An installation. -/
def exWorld : World where
  cwd := [[], "w".toList]
  cfg := [[], "s".toList]
  data := [[], "d".toList]
  version := "1.3.8".toList
  text := fun p => if p = ["b.txt".toList] then some "x.json\ny.json".toList else none

def exNow : Nat → Names.DateTime := fun n => ⟨2021, 2, 28, 23, 59, n⟩

example : SafeWorld exWorld where
  cwd := ⟨["w".toList], rfl, by decide +kernel⟩
  cfg := ⟨["s".toList], Or.inr rfl, by decide +kernel⟩
  data := ⟨["d".toList], Or.inr rfl, by decide +kernel⟩
  version := by decide +kernel

def exBatch : List Str :=
  ["--execution", "batch", "--memory", "4096", "--angular_dir", "old//cl/", "--forecast_config", "b_8_sp_bins.json",
    "a_4_sp_bins.json", "--workdir", "runs"].map (·.toList)

/-- The hypotheses of `batch_is_interactive_partial` are met by a call with two configurations. -/
example : ∃ args, parse (defaults exWorld.cfg exWorld.data) exBatch = .ok args ∧
    args.lookup "execution".toList = some (.text "batch".toList) ∧
    args.lookup "is_batch_job".toList = some (.bool false) ∧ args.lookup "test_batch".toList = some (.bool false) ∧
    args.lookup "angular_dir".toList = some (.path ["old".toList, "cl".toList]) ∧
    (∀ p ∈ args, p.2 ≠ .none → p.1 ≠ "forecast_config".toList → p.2.str ≠ [] ∧ isValue p.2.str = true ∧ ∀ c ∈ p.2.str, safeChar c = true) ∧
    configsOf exWorld args = .ok [["a_4_sp_bins.json".toList], ["b_8_sp_bins.json".toList]] := by
  refine ⟨(parse (defaults exWorld.cfg exWorld.data) exBatch).toOption.getD [], ?_⟩
  decide +kernel

instance : DecidableEq (List (Option (List (Option Val × Option Val)))) := inferInstance

/-- What the jobs submitted by a call do: the configurations and directories of their forecasts, `none` for a job that
fails. -/
def jobForecasts (w : World) (argv : List Str) (now : Nat → Names.DateTime) :
    Option (List (Option (List (Option Val × Option Val)))) :=
  match call w argv now with
  | .ok (.submitted l) => some (l.map fun cmd => match runJob w cmd now with
    | some (.ok (.ran fs)) => some (fs.map fun f => (f.lookup "forecast_config".toList, f.lookup "workdir".toList))
    | _ => none)
  | _ => none

/-- With a space in the path of a configuration, the job either fails, or runs two forecasts, of two other files, in one
directory. -/
theorem space_breaks_job :
    jobForecasts exWorld (["--execution", "batch", "--workdir", "/r", "--forecast_config", "wl only.json"].map (·.toList)) exNow =
      some [none] ∧
    jobForecasts exWorld (["--execution", "batch", "--workdir", "/r", "--forecast_config", "my cfg/wl.json"].map (·.toList)) exNow =
      some [some [
        (some (.path ["cfg".toList, "wl.json".toList]), some (.path [[], "r".toList, "run_wl_1.3.8_2021-02-28T23-59-00".toList])),
        (some (.path ["my".toList]), some (.path [[], "r".toList, "run_wl_1.3.8_2021-02-28T23-59-00".toList]))]] := by
  decide +kernel

/-- The forecasts run by a call. -/
def ownForecasts (w : World) (argv : List Str) (now : Nat → Names.DateTime) : Option (List (Option Val × Option Val)) :=
  match call w argv now with
  | .ok (.ran fs) => some (fs.map fun f => (f.lookup "forecast_config".toList, f.lookup "workdir".toList))
  | _ => none

/-- A configuration whose name ends in `.txt`, given with others, is a forecast of its own for the program, but a list of
configurations for the job, which runs all of them in one directory. -/
theorem text_becomes_list :
    ownForecasts exWorld (["--execution", "interactive", "--workdir", "/r", "--forecast_config", "a.json", "b.txt"].map (·.toList))
        exNow =
      some [(some (.path ["a.json".toList]), some (.path [[], "r".toList, "run_a_1.3.8_2021-02-28T23-59-00".toList])),
        (some (.path ["b.txt".toList]), some (.path [[], "r".toList, "run_b_1.3.8_2021-02-28T23-59-01".toList]))] ∧
    jobForecasts exWorld (["--execution", "batch", "--workdir", "/r", "--forecast_config", "a.json", "b.txt"].map (·.toList)) exNow =
      some [some [(some (.path ["a.json".toList]), some (.path [[], "r".toList, "run_a_1.3.8_2021-02-28T23-59-00".toList]))],
        some [(some (.path ["x.json".toList]), some (.path [[], "r".toList, "run_b_1.3.8_2021-02-28T23-59-01".toList])),
          (some (.path ["y.json".toList]), some (.path [[], "r".toList, "run_b_1.3.8_2021-02-28T23-59-01".toList]))]] := by
  decide +kernel

/-- A flag given the word `False` is on: nothing is submitted, and forecasts are not given directories of their own. -/
theorem false_is_true :
    (∀ args now cs l, configsOf exWorld args = .ok cs → args.lookup "execution".toList = some (.text "batch".toList) →
      args.lookup "test_batch".toList = some (.text "False".toList) → main exWorld args now ≠ .ok (.submitted l)) ∧
    ownForecasts exWorld (["--execution", "interactive", "--workdir", "/r", "--forecast_config", "a.json", "c.json",
        "--is_batch_job", "False"].map (·.toList)) exNow =
      some [(some (.path ["a.json".toList]), some (.path [[], "r".toList])),
        (some (.path ["c.json".toList]), some (.path [[], "r".toList]))] := by
  constructor
  · intro args now cs l hc he ht h
    unfold main at h
    rw [hc] at h
    dsimp only at h
    rw [he] at h
    dsimp only at h
    rw [if_neg (by decide), if_pos rfl, ht] at h
    split at h
    · rw [if_pos (by decide)] at h
      cases h
    · cases h
  · decide +kernel

end Seyfert.RunS
