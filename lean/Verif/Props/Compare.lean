import Verif.Model.Compare
import Verif.Lemmas.PyDict
import Verif.Lemmas.PyStr
import Verif.Lemmas.PyNum
import Verif.Lemmas.Names
import Verif.Props.Names
import Verif.Props.Numeric

/-!
C96: comparison of two runs. C97 (first part): stored results are found again.
-/

set_option linter.unusedSectionVars false

namespace Seyfert.Compare

open Seyfert.Names (jobDir parseJobDir GoodName central runDirName DateTime stampStr)

/-! ### Version of a run -/

theorem match_second {a x : Char} {s : Str} (h : x ≠ '.') : matchVersion (a :: x :: s) = none := by
  match s with
  | [] => rfl
  | [_] => rfl
  | [_, _] => rfl
  | b :: d :: c :: rest =>
    have : (x == '.') = false := by simpa using h
    simp [matchVersion, this]

theorem match_first {a : Char} {s : Str} (h : isDigit a = false) : matchVersion (a :: s) = none := by
  match s with
  | [] => rfl
  | [_] => rfl
  | [_, _] => rfl
  | [_, _, _] => rfl
  | x :: b :: d :: c :: rest => simp [matchVersion, h]

theorem search_cons_none {c : Char} {s : Str} (h : matchVersion (c :: s) = none) :
    searchVersion (c :: s) = searchVersion s := by
  rw [searchVersion, h]; rfl

/-- Text without a dot is passed over. -/
theorem search_skip (p s : Str) (hp : '.' ∉ p) : searchVersion (p ++ '_' :: s) = searchVersion s := by
  induction p with
  | nil => exact search_cons_none (match_first (by decide))
  | cons c p ih =>
    have hne : matchVersion (c :: (p ++ '_' :: s)) = none := by
      cases p with
      | nil => exact match_second (by decide)
      | cons x p => exact match_second (fun e => hp (by simp [e]))
    rw [List.cons_append, search_cons_none hne]
    exact ih (fun h => hp (List.mem_cons_of_mem _ h))

theorem search_nodot (s : Str) (h : '.' ∉ s) : searchVersion s = none := by
  induction s with
  | nil => rfl
  | cons c s ih =>
    have hne : matchVersion (c :: s) = none := by
      cases s with
      | nil => rfl
      | cons x s => exact match_second (fun e => h (by simp [e]))
    rw [search_cons_none hne]
    exact ih (fun h' => h (List.mem_cons_of_mem _ h'))

theorem match_here {a b c x : Char} (ha : isDigit a = true) (hb : isDigit b = true) (hc : isDigit c = true) (rest : Str)
    (hx : isLower x = false) : matchVersion (a :: '.' :: b :: '.' :: c :: x :: rest) = some [a, '.', b, '.', c] := by
  simp [matchVersion, ha, hb, hc, hx]

theorem stamp_nodot (t : DateTime) : '.' ∉ stampStr '-' t := by
  have hd : ∀ w n, '.' ∉ padDec w n := fun w n h => absurd (padDec_digits w n _ h) (by decide)
  unfold stampStr
  simp only [List.mem_append, List.mem_cons, not_or]
  refine ⟨⟨⟨⟨⟨hd _ _, by decide, hd _ _⟩, by decide, hd _ _⟩, by decide, hd _ _⟩, by decide, hd _ _⟩, by decide, hd _ _⟩

/-- The version of a run is read from the name of its directory, if the chosen name has no dot. -/
theorem version_found (ident : Str) (hi : '.' ∉ ident) {a b c : Char} (ha : isDigit a = true) (hb : isDigit b = true)
    (hc : isDigit c = true) (t : DateTime) :
    searchVersion (runDirName ident [a, '.', b, '.', c] t) = some [a, '.', b, '.', c] := by
  have : runDirName ident [a, '.', b, '.', c] t = ident ++ '_' :: (a :: '.' :: b :: '.' :: c :: '_' :: stampStr '-' t) := by
    simp [runDirName]
  rw [this, search_skip _ _ hi, searchVersion, match_here ha hb hc _ (by decide)]
  rfl

/-- Witness: a version in the chosen name is taken for the version of the run. -/
theorem version_of_name (p : Str) (hp : '.' ∉ p) {a b c : Char} (ha : isDigit a = true) (hb : isDigit b = true)
    (hc : isDigit c = true) (version : Str) (t : DateTime) :
    searchVersion (runDirName (p ++ '_' :: [a, '.', b, '.', c]) version t) = some [a, '.', b, '.', c] := by
  have : runDirName (p ++ '_' :: [a, '.', b, '.', c]) version t =
      p ++ '_' :: (a :: '.' :: b :: '.' :: c :: '_' :: (version ++ '_' :: stampStr '-' t)) := by
    simp [runDirName]
  rw [this, search_skip _ _ hp, searchVersion, match_here ha hb hc _ (by decide)]
  rfl

/-- Witness: a version under development, `1.2.3dev`, is refused: the expression takes the `d` for a part of the
version. -/
theorem dev_refused (ident : Str) (hi : '.' ∉ ident) {a b c : Char} (ha : isDigit a = true) (hb : isDigit b = true)
    (hc : isDigit c = true) (t : DateTime) :
    runReader (runDirName ident [a, '.', b, '.', c, 'd', 'e', 'v'] t) = .error .invalidVersion := by
  have : runDirName ident [a, '.', b, '.', c, 'd', 'e', 'v'] t =
      ident ++ '_' :: (a :: '.' :: b :: '.' :: c :: 'd' :: ('e' :: 'v' :: '_' :: stampStr '-' t)) := by
    simp [runDirName]
  have hm : matchVersion (a :: '.' :: b :: '.' :: c :: 'd' :: ('e' :: 'v' :: '_' :: stampStr '-' t)) =
      some [a, '.', b, '.', c, 'd'] := by
    have : isLower 'd' = true := by decide
    simp [matchVersion, ha, hb, hc, this]
  unfold runReader
  rw [this, search_skip _ _ hi, searchVersion, hm]
  rfl

/-- Witness: of a first number with two digits only the second digit is read. -/
theorem major_misread (ident : Str) (hi : '.' ∉ ident) {x a b c : Char} (hx : isDigit a = true) (hb : isDigit b = true)
    (hc : isDigit c = true) (t : DateTime) :
    searchVersion (runDirName ident [x, a, '.', b, '.', c] t) = some [a, '.', b, '.', c] := by
  have : runDirName ident [x, a, '.', b, '.', c] t =
      ident ++ '_' :: (x :: a :: '.' :: b :: '.' :: c :: '_' :: stampStr '-' t) := by
    simp [runDirName]
  rw [this, search_skip _ _ hi, search_cons_none (match_second (by rintro rfl; exact absurd hx (by decide))),
    searchVersion, match_here hx hb hc _ (by decide)]
  rfl

/-- Witness: with a second number of two digits there is no version, and an exception. -/
theorem minor_refused (ident : Str) (hi : '.' ∉ ident) {a b b' c : Char} (hb : isDigit b = true) (hb' : isDigit b' = true)
    (t : DateTime) :
    runReader (runDirName ident [a, '.', b, b', '.', c] t) = .error .attributeError := by
  have e : runDirName ident [a, '.', b, b', '.', c] t =
      ident ++ '_' :: (a :: '.' :: b :: b' :: '.' :: c :: '_' :: stampStr '-' t) := by
    simp [runDirName]
  have nb' : b' ≠ '.' := by rintro rfl; exact absurd hb' (by decide)
  have h1 : matchVersion (a :: '.' :: b :: b' :: '.' :: c :: '_' :: stampStr '-' t) = none := by
    have : (b' == '.') = false := by simpa using nb'
    simp [matchVersion, this]
  have h3 : matchVersion (b' :: '.' :: c :: '_' :: stampStr '-' t) = none := by
    cases stampStr '-' t with
    | nil => rfl
    | cons y ys => simp [matchVersion]
  unfold runReader
  rw [e, search_skip _ _ hi, search_cons_none h1, search_cons_none (match_first (by decide)),
    search_cons_none (match_second nb'), search_cons_none h3, search_cons_none (match_first (by decide))]
  have : searchVersion (c :: '_' :: stampStr '-' t) = none := by
    rw [search_cons_none (match_second (by decide)), search_cons_none (match_first (by decide))]
    exact search_nodot _ (stamp_nodot t)
  rw [this]

/-- A run is read with the reader of its version. -/
theorem reader_spec {a b c : Char} (ha : isDigit a = true) (hb : isDigit b = true) (hc : isDigit c = true) :
    (cosmoReader [a, '.', b, '.', c] = .ok .v104 ↔ 100 * digitVal a + 10 * digitVal b + digitVal c < 110) ∧
    (cosmoReader [a, '.', b, '.', c] = .ok .v110 ↔ 100 * digitVal a + 10 * digitVal b + digitVal c = 110) ∧
    (cosmoReader [a, '.', b, '.', c] = .ok .current ↔ 110 < 100 * digitVal a + 10 * digitVal b + digitVal c) ∧
    (clsReader [a, '.', b, '.', c] = .ok .v104 ↔ 100 * digitVal a + 10 * digitVal b + digitVal c < 110) ∧
    (clsReader [a, '.', b, '.', c] = .ok .current ↔ 110 ≤ 100 * digitVal a + 10 * digitVal b + digitVal c) := by
  have h1 := digitVal_lt ha
  have h2 := digitVal_lt hb
  have h3 := digitVal_lt hc
  generalize hx : digitVal a = x at *
  generalize hy : digitVal b = y at *
  generalize hz : digitVal c = z at *
  have hp : parseVersion [a, '.', b, '.', c] = some ((x, y, z), .none) := by
    rw [← hx, ← hy, ← hz]; rfl
  have ho : isOlder ((x, y, z), .none) = decide (100 * x + 10 * y + z < 110) := by
    unfold isOlder
    simp only
    split
    · symm; rw [decide_eq_true_eq]; omega
    split
    · symm; rw [decide_eq_false_iff_not]; omega
    split
    · symm; rw [decide_eq_true_eq]; omega
    split
    · symm; rw [decide_eq_false_iff_not]; omega
    split
    · symm; rw [decide_eq_false_iff_not]; omega
    · rw [show decide (Suffix.none = Suffix.pre) = false from rfl]
      symm; rw [decide_eq_false_iff_not]; omega
  have hs : isSame ((x, y, z), .none) = decide (100 * x + 10 * y + z = 110) := by
    unfold isSame
    rw [decide_eq_decide]
    simp only [Prod.mk.injEq, and_true]
    omega
  unfold cosmoReader clsReader
  rw [hp]
  simp only [ho, hs]
  by_cases l1 : 100 * x + 10 * y + z < 110
  · simp only [l1, decide_true, if_true, true_iff]
    refine ⟨trivial, ?_, ?_, trivial, ?_⟩
    · constructor
      · intro h; cases h
      · intro h; omega
    · constructor
      · intro h; cases h
      · intro h; omega
    · constructor
      · intro h; cases h
      · intro h; omega
  · simp only [l1, decide_false, Bool.false_eq_true, if_false]
    by_cases l2 : 100 * x + 10 * y + z = 110
    · simp only [l2, decide_true, if_true]
      refine ⟨?_, ?_, ?_, ?_, ?_⟩ <;> simp
    · simp only [l2, decide_false, Bool.false_eq_true, if_false]
      refine ⟨?_, ?_, ?_, ?_, ?_⟩ <;> simp <;> omega

/-- Versions with a letter. Those before a release, with `a`, `b` or `c`, count as older than the release, `r` as later, and
other letters are refused. -/
theorem reader_letter {a b c x : Char} (ha : isDigit a = true) (hb : isDigit b = true) (hc : isDigit c = true) :
    (x = 'a' ∨ x = 'b' ∨ x = 'c' → cosmoReader [a, '.', b, '.', c, x] =
      if 100 * digitVal a + 10 * digitVal b + digitVal c ≤ 110 then .ok .v104 else .ok .current) ∧
    (x = 'r' → cosmoReader [a, '.', b, '.', c, x] =
      if 100 * digitVal a + 10 * digitVal b + digitVal c < 110 then .ok .v104 else .ok .current) ∧
    (x ≠ 'a' → x ≠ 'b' → x ≠ 'c' → x ≠ 'r' → cosmoReader [a, '.', b, '.', c, x] = .error .invalidVersion) := by
  have h1 := digitVal_lt ha
  have h2 := digitVal_lt hb
  have h3 := digitVal_lt hc
  have hp : ∀ s, parseVersion [a, '.', b, '.', c, x] = some ((digitVal a, digitVal b, digitVal c), s) → s ≠ .none →
      cosmoReader [a, '.', b, '.', c, x] = if isOlder ((digitVal a, digitVal b, digitVal c), s) then .ok .v104
        else .ok .current := by
    intro s hs hne
    unfold cosmoReader
    rw [hs]
    simp only
    rw [show isSame ((digitVal a, digitVal b, digitVal c), s) = false from by
      unfold isSame
      rw [decide_eq_false_iff_not]
      intro h
      exact hne (congrArg Prod.snd h)]
    simp only [Bool.false_eq_true, if_false]
  refine ⟨fun hx => ?_, fun hx => ?_, fun n1 n2 n3 n4 => ?_⟩
  · rw [hp .pre (by unfold parseVersion; simp only; rw [if_pos hx]) (by decide)]
    congr 1
    rw [eq_iff_iff]
    unfold isOlder
    generalize digitVal a = u at *
    generalize digitVal b = v at *
    generalize digitVal c = w at *
    simp only
    split_ifs <;> simp <;> omega
  · rw [hp .post (by unfold parseVersion; simp only; rw [hx]; rfl) (by decide)]
    congr 1
    rw [eq_iff_iff]
    unfold isOlder
    generalize digitVal a = u at *
    generalize digitVal b = v at *
    generalize digitVal c = w at *
    simp only
    split_ifs <;> simp <;> omega
  · unfold cosmoReader
    rw [show parseVersion [a, '.', b, '.', c, x] = none from by
      unfold parseVersion
      simp only
      rw [if_neg (by rintro (h | h | h); exacts [n1 h, n2 h, n3 h]), if_neg n4]]

/-- Witness: the files of version `1.1.0a` are read in the format of older versions. -/
theorem prerelease_older : cosmoReader "1.1.0a".toList = .ok .v104 ∧ cosmoReader "1.1.0".toList = .ok .v110 ∧
    cosmoReader "1.1.0r".toList = .ok .current ∧ cosmoReader "1.1.0d".toList = .error .invalidVersion := by
  refine ⟨rfl, rfl, rfl, rfl⟩

/-! ### The fiducial spectra are not compared -/

theorem contains_iff (w s : Str) : contains w s = true ↔ w <:+: s := by
  induction s with
  | nil =>
    rw [contains]
    constructor
    · intro h
      rw [List.isEmpty_iff] at h
      rw [h]
    · intro h
      rw [List.isEmpty_iff]
      exact List.infix_nil.mp h
  | cons c s ih =>
    rw [contains, Bool.or_eq_true, ih, List.isPrefixOf_iff_prefix, List.infix_cons_iff]

theorem match_infix {s : Str} {q : Str × Int} (h : Names.matchJobDir s = some q) : q.1 <:+: s := by
  unfold Names.matchJobDir at h
  obtain ⟨r, hr, h⟩ := Option.bind_eq_some_iff.mp h
  split at h
  · cases h
  obtain ⟨t, ht, h⟩ := Option.bind_eq_some_iff.mp h
  have hq : q.1 = (Names.spanChars Names.isAlnum r).1 := by
    unfold Names.stepAfter at h
    split at h
    · split at h
      · cases h; rfl
      · cases h
    · cases h
  have e := (stripPrefix_eq_some _ _ _).mp hr
  have e2 := (stripPrefix_eq_some _ _ _).mp ht
  have e3 : r = (Names.spanChars Names.isAlnum r).1 ++ (Names.spanChars Names.isAlnum r).2 :=
    (Names.spanChars_spec _ r).1.symm
  refine ⟨"dvar_".toList, (Names.spanChars Names.isAlnum r).2, ?_⟩
  rw [hq, e]
  rw [List.append_assoc, ← e3]

theorem parse_infix {s : Str} {q : Str × Int} (h : parseJobDir s = some q) : q.1 <:+: s := by
  induction s with
  | nil => exact match_infix h
  | cons c s ih =>
    rw [parseJobDir] at h
    cases hm : Names.matchJobDir (c :: s) with
    | some q' =>
      rw [hm] at h
      cases h
      exact match_infix hm
    | none =>
      rw [hm] at h
      exact (ih h).trans (List.suffix_cons c s).isInfix

theorem central_not_collected (listing : List Str) (all : List Str) (h : variationParams listing = some all) :
    central ∉ all := by
  induction listing generalizing all with
  | nil =>
    rw [variationParams] at h
    cases h
    simp
  | cons d rest ih =>
    rw [variationParams] at h
    split at h
    · exact ih _ h
    rename_i hc
    split at h
    · cases h
    rename_i q hq
    obtain ⟨r, hr, rfl⟩ := Option.map_eq_some_iff.mp h
    intro hm
    rcases List.mem_cons.mp hm with e | hm
    · exact hc ((contains_iff _ _).mpr (e ▸ parse_infix hq))
    · exact ih _ hr hm

theorem loop_keys (pars listing : List Str) (acc r : List ((Str × Int) × Str))
    (h : loadLoop pars listing acc = some r) (hacc : ∀ q ∈ acc.map (·.1), q.1 ∈ pars) :
    ∀ q ∈ r.map (·.1), q.1 ∈ pars := by
  induction listing generalizing acc with
  | nil =>
    rw [loadLoop] at h
    cases h
    exact hacc
  | cons d rest ih =>
    rw [loadLoop] at h
    split at h
    · cases h
    rename_i q hq
    split at h
    · rename_i hp
      refine ih _ h fun k hk => ?_
      rw [PyDict.keys_set] at hk
      split at hk
      · exact hacc k hk
      · rcases List.mem_append.mp hk with hk | hk
        · exact hacc k hk
        · rw [List.mem_singleton.mp hk]; exact hp
    · exact ih _ h hacc

/-- The fiducial spectra are never loaded, so a comparison of spectra never sees them. -/
theorem fiducial_not_loaded (listing : List Str) (params : Option (List Str)) (r : List ((Str × Int) × Str))
    (h : loadSpectra listing params = .ok r) (step : Int) : r.lookup (central, step) = none := by
  rw [PyDict.lookup_none_iff]
  intro hm
  unfold loadSpectra at h
  split at h
  · cases h
  rename_i all hall
  have hc := central_not_collected listing all hall
  split at h
  · rename_i ps
    split at h
    · rename_i hsub
      split at h
      · cases h
      rename_i r' hr
      cases h
      exact hc (hsub _ (loop_keys _ _ _ _ hr (by simp) _ hm))
    · cases h
  · split at h
    · cases h
    rename_i r' hr
    cases h
    exact hc (loop_keys _ _ _ _ hr (by simp) _ hm)

theorem variationParams_jobs (jobs : List (Str × Int)) (hg : ∀ q ∈ jobs, GoodName q.1 ∧ q.2.natAbs < 10)
    (hc : ∀ q ∈ jobs, contains central (jobDir q.1 q.2) = decide (q.1 = central)) :
    variationParams (jobs.map fun q => jobDir q.1 q.2) = some ((jobs.filter fun q => q.1 ≠ central).map (·.1)) := by
  induction jobs with
  | nil => rfl
  | cons q jobs ih =>
    have ih := ih (fun p hp => hg p (List.mem_cons_of_mem _ hp)) (fun p hp => hc p (List.mem_cons_of_mem _ hp))
    have hq := hg q List.mem_cons_self
    rw [List.map_cons, variationParams, hc q List.mem_cons_self, List.filter_cons]
    by_cases e : q.1 = central
    · simp only [e, decide_true, if_true, ne_eq, not_true_eq_false, decide_false, Bool.false_eq_true, if_false]
      exact ih
    · simp only [e, decide_false, Bool.false_eq_true, if_false, ne_eq, not_false_eq_true, decide_true, if_true]
      rw [Names.jobDir_roundtrip_partial q.1 hq.1 q.2 hq.2, ih]
      rfl

theorem loadLoop_jobs (pars : List Str) (jobs : List (Str × Int)) (hg : ∀ q ∈ jobs, GoodName q.1 ∧ q.2.natAbs < 10)
    (acc : List ((Str × Int) × Str)) :
    loadLoop pars (jobs.map fun q => jobDir q.1 q.2) acc =
      some (PyDict.update acc ((jobs.filter fun q => q.1 ∈ pars).map fun q => (q, jobDir q.1 q.2))) := by
  induction jobs generalizing acc with
  | nil => rfl
  | cons q jobs ih =>
    have hq := hg q List.mem_cons_self
    rw [List.map_cons, loadLoop, Names.jobDir_roundtrip_partial q.1 hq.1 q.2 hq.2]
    simp only
    rw [List.filter_cons]
    split
    · rename_i h
      rw [ih (fun p hp => hg p (List.mem_cons_of_mem _ hp))]
      simp only [h, decide_true, if_true]
      rfl
    · rename_i h
      rw [ih (fun p hp => hg p (List.mem_cons_of_mem _ hp))]
      simp only [h, decide_false, Bool.false_eq_true, if_false]

theorem lookup_jobs (jobs : List (Str × Int)) (q : Str × Int) :
    (jobs.map fun q => (q, jobDir q.1 q.2)).lookup q = if q ∈ jobs then some (jobDir q.1 q.2) else none := by
  induction jobs with
  | nil => rfl
  | cons p jobs ih =>
    rw [List.map_cons, List.lookup_cons]
    by_cases e : q = p
    · subst e; simp
    · have : (q == p) = false := by simpa using e
      rw [this]
      simp only [ih, List.mem_cons, e, false_or]

/-- All other spectra are loaded, each from its own directory. The hypothesis on names says that only the fiducial
directory has `central` in its name. -/
theorem spectra_loaded_partial (jobs : List (Str × Int)) (hg : ∀ q ∈ jobs, GoodName q.1 ∧ q.2.natAbs < 10)
    (hc : ∀ q ∈ jobs, contains central (jobDir q.1 q.2) = decide (q.1 = central)) :
    ∃ r, loadSpectra (jobs.map fun q => jobDir q.1 q.2) none = .ok r ∧
      ∀ q, r.lookup q = if q ∈ jobs ∧ q.1 ≠ central then some (jobDir q.1 q.2) else none := by
  unfold loadSpectra
  rw [variationParams_jobs jobs hg hc]
  simp only
  rw [loadLoop_jobs _ jobs hg]
  refine ⟨_, rfl, fun q => ?_⟩
  rw [PyDict.lookup_update, ← List.map_reverse, lookup_jobs]
  simp only [List.lookup_nil, Option.or_none]
  have hm : q ∈ (List.filter (fun q => decide (q.1 ∈ (jobs.filter fun q => decide (q.1 ≠ central)).map (·.1))) jobs).reverse ↔
      q ∈ jobs ∧ ∃ p : Str × Int, (p ∈ jobs ∧ decide (p.1 ≠ central) = true) ∧ p.1 = q.1 := by
    rw [List.mem_reverse, List.mem_filter, decide_eq_true_eq, List.mem_map]
    simp only [List.mem_filter]
  by_cases h : q ∈ jobs ∧ q.1 ≠ central
  · rw [if_pos h]
    exact if_pos (hm.mpr ⟨h.1, q, ⟨h.1, by simpa using h.2⟩, rfl⟩)
  · rw [if_neg h]
    refine if_neg fun h' => ?_
    obtain ⟨h1, p, ⟨-, h2⟩, e⟩ := hm.mp h'
    exact h ⟨h1, by rw [← e]; simpa using h2⟩

example : ∀ q ∈ [("central".toList, (0 : Int)), ("w0".toList, -2), ("w0".toList, 2)],
    contains central (jobDir q.1 q.2) = decide (q.1 = central) := by decide +kernel

/-! ### Stored results -/

theorem glob_iff (pre suf s : Str) : globMatch pre suf s = true ↔ ∃ m, s = pre ++ m ++ suf := by
  unfold globMatch
  constructor
  · intro h
    split at h
    · cases h
    rename_i r hr
    obtain ⟨m, rfl⟩ := List.isSuffixOf_iff_suffix.mp h
    exact ⟨m, by rw [(stripPrefix_eq_some _ _ _).mp hr, List.append_assoc]⟩
  · rintro ⟨m, rfl⟩
    rw [List.append_assoc, stripPrefix_append]
    exact List.isSuffixOf_iff_suffix.mpr (List.suffix_append _ _)

theorem glob_first {a b : Char} {p suf s : Str} (h : a ≠ b) : globMatch (a :: p) suf (b :: s) = false := by
  rw [Bool.eq_false_iff]
  intro hg
  obtain ⟨m, e⟩ := (glob_iff _ _ _).mp hg
  exact h (List.cons.inj e).1.symm

theorem glob_ending (pre s : Str) : globMatch pre ".csv".toList (s ++ ".xlsx".toList) = false := by
  rw [Bool.eq_false_iff]
  intro hg
  obtain ⟨m, e⟩ := (glob_iff _ _ _).mp hg
  have := congrArg List.getLast? e
  rw [List.getLast?_append, List.getLast?_append, show ".xlsx".toList.getLast? = some 'x' from rfl,
    show ".csv".toList.getLast? = some 'v' from rfl, Option.some_or, Option.some_or] at this
  exact absurd this (by decide)

/-- Results written by the program are never found again by the loader of results: it looks for other names. -/
theorem load_refused (name : Str) (fishers corrs : List Str) :
    loadCosmology fishers (errorFiles name) corrs = .error .notUnique := by
  have : uniqueFile (errorFiles name) "errors".toList ".csv".toList = .error .notUnique := by
    have e : (errorFiles name).filter (globMatch "errors".toList ".csv".toList) = [] := by
      rw [List.filter_eq_nil_iff]
      intro s hs
      rw [Bool.not_eq_true]
      rcases List.mem_cons.mp hs with rfl | hs
      · exact glob_first (by decide)
      rcases List.mem_cons.mp hs with rfl | hs
      · exact glob_first (by decide)
      rcases List.mem_cons.mp hs with rfl | hs
      · exact glob_first (by decide)
      rcases List.mem_cons.mp hs with rfl | hs
      · exact glob_first (by decide)
      · cases hs
    unfold uniqueFile
    rw [e]
  unfold loadCosmology
  rw [this]

/-- The names that the loader looks for. -/
theorem load_expected (name : Str) (fishers corrs : List Str) (h : ∀ c ∈ corrs, corrName c ∈ fishers) :
    loadCosmology fishers ["errors_".toList ++ name ++ ".csv".toList, "relative_errors_".toList ++ name ++ ".csv".toList]
      corrs = .ok ("errors_".toList ++ name ++ ".csv".toList, "relative_errors_".toList ++ name ++ ".csv".toList,
        corrs.map fun c => (corrName c, c)) := by
  have g1 : globMatch "errors".toList ".csv".toList ("errors_".toList ++ name ++ ".csv".toList) = true :=
    (glob_iff _ _ _).mpr ⟨'_' :: name, by rfl⟩
  have g2 : globMatch "errors".toList ".csv".toList ("relative_errors_".toList ++ name ++ ".csv".toList) = false :=
    glob_first (by decide)
  have g3 : globMatch "relative_errors".toList ".csv".toList ("errors_".toList ++ name ++ ".csv".toList) = false :=
    glob_first (by decide)
  have g4 : globMatch "relative_errors".toList ".csv".toList ("relative_errors_".toList ++ name ++ ".csv".toList) = true :=
    (glob_iff _ _ _).mpr ⟨'_' :: name, by rfl⟩
  unfold loadCosmology uniqueFile
  rw [List.filter_cons, List.filter_cons, List.filter_cons, List.filter_cons, g1, g2, g3, g4]
  show (if ∀ c ∈ corrs, corrName c ∈ fishers then _ else _) = _
  rw [if_pos h]

/-- The tables of errors are found by the collector of results. -/
theorem errors_found (name : Str) :
    uniqueFile (errorFiles name) "marginalized_errors".toList ".csv".toList =
      .ok ("marginalized_errors_".toList ++ name ++ ".csv".toList) ∧
    uniqueFile (errorFiles name) "relative_marginalized_errors".toList ".csv".toList =
      .ok ("relative_marginalized_errors_".toList ++ name ++ ".csv".toList) := by
  have g1 : globMatch "marginalized_errors".toList ".csv".toList ("marginalized_errors_".toList ++ name ++ ".csv".toList) = true :=
    (glob_iff _ _ _).mpr ⟨'_' :: name, by rfl⟩
  have g2 : globMatch "relative_marginalized_errors".toList ".csv".toList
      ("relative_marginalized_errors_".toList ++ name ++ ".csv".toList) = true :=
    (glob_iff _ _ _).mpr ⟨'_' :: name, by rfl⟩
  have g3 : ∀ suf s, globMatch "marginalized_errors".toList suf ("relative_marginalized_errors_".toList ++ name ++ s) = false :=
    fun _ _ => glob_first (by decide)
  have g4 : ∀ suf s, globMatch "relative_marginalized_errors".toList suf ("marginalized_errors_".toList ++ name ++ s) = false :=
    fun _ _ => glob_first (by decide)
  unfold uniqueFile errorFiles
  simp only [List.filter_cons, List.filter_nil, g1, g2, g3, g4, glob_ending]
  exact ⟨rfl, rfl⟩

/-- Tables of two analyses with different names in one directory are refused. -/
theorem two_analyses_refused (n m : Str) (files : List Str) (hne : n ≠ m)
    (h1 : "marginalized_errors_".toList ++ n ++ ".csv".toList ∈ files)
    (h2 : "marginalized_errors_".toList ++ m ++ ".csv".toList ∈ files) :
    uniqueFile files "marginalized_errors".toList ".csv".toList = .error .notUnique := by
  unfold uniqueFile
  split
  · rename_i f hf
    have m1 : ∀ k : Str, "marginalized_errors_".toList ++ k ++ ".csv".toList ∈ files →
        "marginalized_errors_".toList ++ k ++ ".csv".toList = f := by
      intro k hk
      have : "marginalized_errors_".toList ++ k ++ ".csv".toList ∈
          files.filter (globMatch "marginalized_errors".toList ".csv".toList) :=
        List.mem_filter.mpr ⟨hk, (glob_iff _ _ _).mpr ⟨'_' :: k, by rfl⟩⟩
      rw [hf] at this
      exact List.mem_singleton.mp this
    exact absurd (List.append_cancel_left (List.append_cancel_right ((m1 n h1).trans (m1 m h2).symm))) hne
  · rfl

theorem split_append (c : Char) (p s : Str) : splitChar c (p ++ c :: s) = splitChar c p ++ splitChar c s := by
  induction p with
  | nil => simp [splitChar]
  | cons x p ih =>
    rw [List.cons_append, splitChar, splitChar, ih]
    split
    · rfl
    · cases e : splitChar c p with
      | nil => exact absurd e (splitChar_ne_nil _ _)
      | cons h t => rfl

/-- A file of correlations is read for the Fisher matrix it was written for, if the name of this has no underscore;
otherwise for the part after the last underscore. -/
theorem corr_name (name p fisher : Str) (h : '_' ∉ fisher) :
    corrName (corrFile name fisher) = fisher ∧ corrName (corrFile name (p ++ '_' :: fisher)) = fisher := by
  have key : ∀ q : Str, corrName (q ++ '_' :: fisher ++ ".csv".toList) = fisher := by
    intro q
    unfold corrName
    rw [List.length_append, show ".csv".toList.length = 4 from rfl, Nat.add_sub_cancel, List.take_left, split_append,
      splitChar_no_sep _ _ h, List.getLast?_append]
    rfl
  constructor
  · have := key (name ++ "_correlation".toList)
    unfold corrFile
    rw [show "_correlation_".toList = "_correlation".toList ++ ['_'] from rfl]
    simpa only [List.append_assoc, List.cons_append, List.nil_append] using this
  · have := key (name ++ "_correlation_".toList ++ p)
    unfold corrFile
    simpa only [List.append_assoc] using this

/-- Witness: the correlations of a matrix with an underscore in its name are looked up under another name, and loading
fails. -/
theorem corr_refused (name e r : Str) :
    loadCosmology ["IST_GCsp".toList] ["errors_".toList ++ e ++ ".csv".toList, "relative_errors_".toList ++ r ++ ".csv".toList]
      [corrFile name "IST_GCsp".toList] = .error .keyError := by
  have hc : corrName (corrFile name "IST_GCsp".toList) = "GCsp".toList := (corr_name name "IST".toList _ (by decide)).2
  have g1 : globMatch "errors".toList ".csv".toList ("errors_".toList ++ e ++ ".csv".toList) = true :=
    (glob_iff _ _ _).mpr ⟨'_' :: e, by rfl⟩
  have g2 : globMatch "errors".toList ".csv".toList ("relative_errors_".toList ++ r ++ ".csv".toList) = false :=
    glob_first (by decide)
  have g3 : globMatch "relative_errors".toList ".csv".toList ("errors_".toList ++ e ++ ".csv".toList) = false :=
    glob_first (by decide)
  have g4 : globMatch "relative_errors".toList ".csv".toList ("relative_errors_".toList ++ r ++ ".csv".toList) = true :=
    (glob_iff _ _ _).mpr ⟨'_' :: r, by rfl⟩
  unfold loadCosmology uniqueFile
  rw [List.filter_cons, List.filter_cons, List.filter_cons, List.filter_cons, g1, g2, g3, g4]
  show (if ∀ c ∈ [corrFile name "IST_GCsp".toList], corrName c ∈ ["IST_GCsp".toList] then _ else _) = _
  rw [if_neg]
  intro h
  have := h _ (List.mem_singleton.mpr rfl)
  rw [hc] at this
  exact absurd this (by decide)

/-- Two runs of this program cannot be compared to the end, whether their results were made or not: with results
loading them fails, without results the comparison of the errors fails. -/
theorem comparison_fails (name : Str) (results : Option (List CosmoDir))
    (h : ∀ ds, results = some ds → ds ≠ [] ∧ ∀ d ∈ ds, d.errs = errorFiles name) :
    ∃ e, margErrs results = .error e := by
  match results with
  | none => exact ⟨_, rfl⟩
  | some [] => exact absurd rfl (h [] rfl).1
  | some (d :: ds) =>
    refine ⟨.notUnique, ?_⟩
    rw [margErrs, loadResultsDir, (h _ rfl).2 d List.mem_cons_self, load_refused]

example : ∀ ds : List CosmoDir, some [⟨"central".toList, ["GC".toList], errorFiles "a".toList, []⟩] = some ds →
    ds ≠ [] ∧ ∀ d ∈ ds, d.errs = errorFiles "a".toList := by
  intro ds h; cases h; exact ⟨by simp, by simp⟩

/-! ### The report -/

section Report

variable {K : Type} [Field K] [LinearOrder K] [IsStrictOrderedRing K] {L : Type} [DecidableEq L]

theorem metrics_spec (a b : Dict Str (Table L K)) (ks : List Str) (m : Dict Str (Table L K))
    (h : metrics a b ks = .ok m) :
    m.map (·.1) = ks ∧ ∀ k t, (k, t) ∈ m → ∃ x y, a.lookup k = some x ∧ b.lookup k = some y ∧
      Numeric.padTables x y = some t := by
  induction ks generalizing m with
  | nil =>
    rw [metrics] at h
    cases h
    exact ⟨rfl, fun k t hk => by cases hk⟩
  | cons k ks ih =>
    rw [metrics] at h
    split at h
    · rename_i x y hx hy
      split at h
      · cases h
      rename_i t ht
      split at h
      · cases h
      rename_i r hr
      cases h
      obtain ⟨h1, h2⟩ := ih r hr
      refine ⟨by rw [List.map_cons, h1], fun k' t' hk => ?_⟩
      rcases List.mem_cons.mp hk with e | hk
      · cases e
        exact ⟨x, y, hx, hy, ht⟩
      · exact h2 k' t' hk
    · cases h

/-- The report has a line for each table that both runs have, and a warning exactly if they do not have the same
tables. A line is good exactly if all differences of the entries are below the threshold. -/
theorem report_spec (a b : Dict Str (Table L K)) (threshold : K) (warn : Bool) (report : Dict Str Bool)
    (h : compareTables a b threshold = .ok (warn, report)) :
    (∀ k, k ∈ report.map (·.1) ↔ k ∈ a.map (·.1) ∧ k ∈ b.map (·.1)) ∧
    (warn = false ↔ ∀ k, k ∈ a.map (·.1) ↔ k ∈ b.map (·.1)) ∧
    ∀ k ok, (k, ok) ∈ report → ∃ x y t, a.lookup k = some x ∧ b.lookup k = some y ∧
      Numeric.padTables x y = some t ∧ (ok = true ↔ ∀ l p, (l, p) ∈ t → p < threshold) := by
  unfold compareTables at h
  simp only at h
  split at h
  · cases h
  rename_i m hm
  cases h
  obtain ⟨h1, h2⟩ := metrics_spec a b _ m hm
  refine ⟨fun k => ?_, ?_, ?_⟩
  · have : (checkPads m threshold).map (·.1) = m.map (·.1) := by
      unfold checkPads
      rw [List.map_map]
      rfl
    rw [this, h1]
    simp only [comparisonKeys, List.mem_filter, decide_eq_true_eq]
  · simp only [comparisonKeys, Bool.not_eq_false', Bool.and_eq_true, List.all_eq_true, decide_eq_true_eq]
    exact ⟨fun h k => ⟨h.1 k, h.2 k⟩, fun h => ⟨fun k => (h k).mp, fun k => (h k).mpr⟩⟩
  · intro k ok hk
    unfold checkPads at hk
    obtain ⟨q, hq, e⟩ := List.mem_map.mp hk
    cases e
    obtain ⟨x, y, hx, hy, ht⟩ := h2 q.1 q.2 hq
    refine ⟨x, y, q.2, hx, hy, ht, ?_⟩
    unfold Numeric.padsOk
    rw [List.all_eq_true]
    constructor
    · intro h l p hp
      simpa using h p (List.mem_map.mpr ⟨(l, p), hp, rfl⟩)
    · intro h p hp
      obtain ⟨r, hr, rfl⟩ := List.mem_map.mp hp
      simpa using h r.1 r.2 hr

/-- If the report is good, the entries of the tables that both runs have agree to the threshold, wherever their sum is
positive. Missing: entries with a negative sum (`padTab_negative`), which always pass. -/
theorem report_agreement_partial (a b : Dict Str (Table L K)) (threshold : K) (warn : Bool) (report : Dict Str Bool)
    (h : compareTables a b threshold = .ok (warn, report)) (hgood : ∀ k ok, (k, ok) ∈ report → ok = true)
    (k : Str) (x y : Table L K) (hx : a.lookup k = some x) (hy : b.lookup k = some y) (hn : (y.map (·.1)).Nodup)
    (l : L) (u v : K) (hu : (l, u) ∈ x) (hv : (l, v) ∈ y) (hpos : 0 < u + v) :
    |u - v| < threshold / 100 * ((u + v) / 2) := by
  obtain ⟨h1, -, h3⟩ := report_spec a b threshold warn report h
  have hk : k ∈ report.map (·.1) := (h1 k).mpr
    ⟨(PyDict.lookup_isSome_iff a k).mp (by rw [hx]; rfl), (PyDict.lookup_isSome_iff b k).mp (by rw [hy]; rfl)⟩
  obtain ⟨q, hq, rfl⟩ := List.mem_map.mp hk
  obtain ⟨x', y', t, hx', hy', ht, hok⟩ := h3 q.1 q.2 hq
  rw [hx] at hx'
  rw [hy] at hy'
  cases hx'
  cases hy'
  have hlt := (hok.mp (hgood _ _ hq)) l _ ((Numeric.padTables_spec x y hn).2 t ht l u v hu hv)
  have hval := Numeric.padTab_value (x := u) (y := v) hpos.ne'
  have hh : 0 < (u + v) / 2 := by positivity
  have := mul_lt_mul_of_pos_right hlt hh
  rw [hval] at this
  rw [div_mul_eq_mul_div, lt_div_iff₀ (by norm_num)]
  linarith

/-- Witness: two runs without a common table are compared without a bad line. -/
theorem nothing_compared (a b : Dict Str (Table L K)) (h : ∀ k ∈ a.map (·.1), k ∉ b.map (·.1)) (threshold : K) :
    ∃ warn, compareTables a b threshold = .ok (warn, []) := by
  have e : (comparisonKeys (a.map (·.1)) (b.map (·.1))).1 = [] := by
    unfold comparisonKeys
    simp only [List.filter_eq_nil_iff, decide_eq_true_eq]
    exact h
  unfold compareTables
  simp only [e, metrics]
  exact ⟨_, rfl⟩

example : compareTables [("a".toList, [("w0", (1 : ℚ))]), ("b".toList, [("w0", 2)])] [("a".toList, [("w0", 1)])] 1 =
    .ok (true, [("a".toList, true)]) := by decide +kernel

end Report

/-! ### Differences of angular spectra -/

theorem compTable_spec (nl ni nj : Nat) (c1 c2 : Nat → Nat → Nat → ℚ) (i j : Nat) (m : ℚ) :
    (i, j, m) ∈ compTable nl ni nj c1 c2 ↔ i < ni ∧ j < nj ∧ (ni = nj → i ≤ j) ∧ m = meanPad nl c1 c2 i j := by
  unfold compTable
  rw [List.mem_filterMap]
  constructor
  · rintro ⟨⟨a, b⟩, hq, h⟩
    rw [List.mem_flatMap] at hq
    obtain ⟨a', ha', hq⟩ := hq
    obtain ⟨b', hb', e⟩ := List.mem_map.mp hq
    cases e
    simp only at h
    split at h
    · cases h
    rename_i hc
    cases h
    refine ⟨List.mem_range.mp ha', List.mem_range.mp hb', fun e => ?_, rfl⟩
    by_contra hn
    exact hc ⟨e, hn⟩
  · rintro ⟨hi, hj, hij, rfl⟩
    refine ⟨(i, j), List.mem_flatMap.mpr ⟨i, List.mem_range.mpr hi, List.mem_map.mpr ⟨j, List.mem_range.mpr hj, rfl⟩⟩, ?_⟩
    simp only
    rw [if_neg]
    rintro ⟨e, hn⟩
    exact hn (hij e)

theorem meanPad_zero (nl : Nat) (hl : 0 < nl) (c1 c2 : Nat → Nat → Nat → ℚ) (i j : Nat) :
    meanPad nl c1 c2 i j = 0 ↔ ∀ l < nl, c1 l i j = c2 l i j ∨ c1 l i j + c2 l i j = 0 := by
  unfold meanPad
  have hne : (nl : ℚ) ≠ 0 := by exact_mod_cast hl.ne'
  rw [div_eq_zero_iff, or_iff_left hne]
  have key : ∀ ls : List Nat, (ls.map fun l => Numeric.padArr (c1 l i j) (c2 l i j)).sum = 0 ↔
      ∀ l ∈ ls, c1 l i j = c2 l i j ∨ c1 l i j + c2 l i j = 0 := by
    intro ls
    induction ls with
    | nil => simp
    | cons l ls ih =>
      have h0 := (Numeric.padArr_spec (c1 l i j) (c2 l i j)).2.1
      have h1 : 0 ≤ (ls.map fun l => Numeric.padArr (c1 l i j) (c2 l i j)).sum :=
        List.sum_nonneg fun x hx => by
          obtain ⟨l', -, rfl⟩ := List.mem_map.mp hx
          exact (Numeric.padArr_spec _ _).2.1
      rw [List.map_cons, List.sum_cons, List.forall_mem_cons, ← ih, ← (Numeric.padArr_spec (c1 l i j) (c2 l i j)).2.2]
      constructor
      · intro h; constructor <;> linarith
      · rintro ⟨e1, e2⟩; linarith
  rw [key]
  exact ⟨fun h l hl => h l (List.mem_range.mpr hl), fun h l hl => h l (List.mem_range.mp hl)⟩

/-- If the table shows no difference, then positive spectra that are symmetric, or that have different numbers of bins,
are equal. -/
theorem no_difference_partial (nl ni nj : Nat) (hl : 0 < nl) (c1 c2 : Nat → Nat → Nat → ℚ)
    (hpos : ∀ l i j, 0 < c1 l i j + c2 l i j)
    (hsym : ni = nj → ∀ l i j, c1 l i j = c1 l j i ∧ c2 l i j = c2 l j i)
    (h : ∀ i j m, (i, j, m) ∈ compTable nl ni nj c1 c2 → m = 0) (l i j : Nat) (hll : l < nl) (hi : i < ni) (hj : j < nj) :
    c1 l i j = c2 l i j := by
  have key : ∀ i j, i < ni → j < nj → (ni = nj → i ≤ j) → c1 l i j = c2 l i j := by
    intro i j hi hj hij
    have := h i j _ ((compTable_spec nl ni nj c1 c2 i j _).mpr ⟨hi, hj, hij, rfl⟩)
    rcases (meanPad_zero nl hl c1 c2 i j).mp this l hll with e | e
    · exact e
    · exact absurd e (hpos l i j).ne'
  by_cases e : ni = nj
  · rcases Nat.le_total i j with hle | hle
    · exact key i j hi hj fun _ => hle
    · rw [(hsym e l i j).1, (hsym e l i j).2]
      exact key j i (by omega) (by omega) fun _ => hle
  · exact key i j hi hj fun h => absurd h e

/-- Witness: spectra of two probes with the same number of bins, which are not symmetric, can differ without any
difference in the table. -/
theorem difference_unseen (nl n : Nat) (hl : 0 < nl) (hn : 2 ≤ n) (c1 : Nat → Nat → Nat → ℚ) :
    ∃ c2 : Nat → Nat → Nat → ℚ, c2 0 1 0 ≠ c1 0 1 0 ∧ 1 < n ∧
      ∀ i j m, (i, j, m) ∈ compTable nl n n c1 c2 → m = 0 := by
  refine ⟨fun l i j => if j < i then c1 l i j + 1 else c1 l i j, by simp, by omega, fun i j m h => ?_⟩
  obtain ⟨-, -, hij, rfl⟩ := (compTable_spec _ _ _ _ _ _ _ _).mp h
  rw [meanPad_zero nl hl]
  intro l _
  left
  rw [if_neg (by have := hij rfl; omega)]

/-- The weighted difference: the absolute difference in percent of the reference, except for opposite values, which
count as equal. -/
theorem odmPad_spec (ref x y : ℚ) : odmPad ref x y = if x + y = 0 then 0 else 100 * |x - y| / ref := by
  unfold odmPad Numeric.padArr
  by_cases h : x + y = 0
  · rw [if_pos h, if_neg (not_not.mpr h), zero_mul]
  · rw [if_neg h, if_pos h]
    have : |x + y| ≠ 0 := abs_ne_zero.mpr h
    by_cases hr : ref = 0
    · simp [hr]
    · field_simp
      ring

example : odmPad 2 3 1 = 100 := by rw [odmPad_spec]; norm_num

def exTime : DateTime := ⟨2020, 2, 28, 23, 59, 58⟩

example : searchVersion (runDirName "opt".toList ['1', '.', '2', '.', '0'] exTime) = some "1.2.0".toList :=
  version_found _ (by decide) (by decide) (by decide) (by decide) exTime
example : searchVersion (runDirName ("opt".toList ++ '_' :: ['1', '.', '0', '.', '4']) "1.2.0".toList exTime) = some "1.0.4".toList :=
  version_of_name _ (by decide) (by decide) (by decide) (by decide) _ exTime
example : runReader (runDirName "opt".toList ['1', '.', '2', '.', '0', 'd', 'e', 'v'] exTime) = .error .invalidVersion :=
  dev_refused _ (by decide) (by decide) (by decide) (by decide) exTime
example : searchVersion (runDirName "opt".toList ['1', '2', '.', '3', '.', '4'] exTime) = some "2.3.4".toList :=
  major_misread _ (by decide) (by decide) (by decide) (by decide) exTime
example : runReader (runDirName "opt".toList ['1', '.', '1', '2', '.', '0'] exTime) = .error .attributeError :=
  minor_refused _ (by decide) (by decide) (by decide) exTime
example : cosmoReader "1.0.4".toList = .ok .v104 ∧ cosmoReader "1.2.0".toList = .ok .current :=
  ⟨(reader_spec (a := '1') (b := '0') (c := '4') (by decide) (by decide) (by decide)).1.mpr (by decide),
    (reader_spec (a := '1') (b := '2') (c := '0') (by decide) (by decide) (by decide)).2.2.1.mpr (by decide)⟩
example : uniqueFile ["marginalized_errors_a.csv".toList, "marginalized_errors_b.csv".toList] "marginalized_errors".toList
    ".csv".toList = .error .notUnique :=
  two_analyses_refused "a".toList "b".toList _ (by decide) (.head _) (.tail _ (.head _))
example : corrName (corrFile "flat".toList "F1".toList) = "F1".toList ∧ corrName (corrFile "flat".toList "p_F1".toList) = "F1".toList :=
  corr_name "flat".toList "p".toList "F1".toList (by decide)
example : meanPad 2 (fun l _ _ => (l : ℚ) + 1) (fun l _ _ => l + 1) 0 0 = 0 :=
  (meanPad_zero 2 (by norm_num) _ _ 0 0).mpr fun _ _ => .inl rfl

end Seyfert.Compare
