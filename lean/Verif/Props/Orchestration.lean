import Verif.Model.Orchestration
import Verif.Lemmas.PyDict
import Verif.Lemmas.PyStr
import Verif.Props.Batch
import Verif.Props.Names

/-!
C32, C73, C74: launching one run per combination of configurations.
-/

set_option linter.unusedSectionVars false

namespace Seyfert.Orch

/-! ### The order of the forecast configurations -/

/-- A name declares a number of bins: digits followed by `_sp_bins`. -/
def Declares (s : Str) : Prop :=
  ∃ pre d post, s = pre ++ d ++ "_sp_bins".toList ++ post ∧ d ≠ [] ∧ ∀ c ∈ d, isDigit c = true

theorem under_no_digit (post : Str) : ∀ c ∈ ("_sp_bins".toList ++ post).head?, isDigit c = false := by
  intro c hc
  have : ("_sp_bins".toList ++ post).head? = some '_' := rfl
  rw [this] at hc
  obtain rfl := Option.some.inj hc
  decide

theorem binsAt_some (s : Str) (n : Nat) (h : binsAt s = some n) :
    ∃ d post, s = d ++ "_sp_bins".toList ++ post ∧ d ≠ [] ∧ (∀ c ∈ d, isDigit c = true) ∧ n = decVal d := by
  unfold binsAt at h
  have h1 := Batch.span_append isDigit s
  have h2 := Batch.span_fst isDigit s
  revert h1 h2 h
  rcases Names.spanChars isDigit s with ⟨d, r⟩
  cases d with
  | nil => intro h; simp at h
  | cons c d =>
    intro h h1 h2
    simp only at h
    obtain ⟨post, hp, rfl⟩ := Option.map_eq_some_iff.mp h
    have := (stripPrefix_eq_some _ _ _).mp hp
    simp only at h1
    refine ⟨c :: d, post, ?_, by simp, h2, rfl⟩
    rw [← h1, this, List.append_assoc]

theorem binsAt_of (d post : Str) (hd : d ≠ []) (hdig : ∀ c ∈ d, isDigit c = true) :
    binsAt (d ++ "_sp_bins".toList ++ post) = some (decVal d) := by
  unfold binsAt
  rw [List.append_assoc, Batch.span_all isDigit d hdig _ (under_no_digit post)]
  cases d with
  | nil => exact absurd rfl hd
  | cons c d => simp only [stripPrefix_append, Option.map_some]

/-- A number is found exactly in the names that declare one. -/
theorem binsOf_isSome (s : Str) : (binsOf s).isSome ↔ Declares s := by
  induction s with
  | nil =>
    constructor
    · intro h; simp [binsOf] at h
    · rintro ⟨pre, d, post, h, hd, _⟩
      exfalso
      have h1 := congrArg List.length h
      have h2 : 0 < d.length := List.length_pos_of_ne_nil hd
      rw [List.length_append, List.length_append, List.length_append, List.length_nil] at h1
      omega
  | cons x s ih =>
    rw [binsOf, Option.isSome_or, Bool.or_eq_true, ih]
    constructor
    · rintro (h | ⟨pre, d, post, h, hd⟩)
      · obtain ⟨n, hn⟩ := Option.isSome_iff_exists.mp h
        obtain ⟨d, post, e, hd, hdig, _⟩ := binsAt_some _ _ hn
        exact ⟨[], d, post, e, hd, hdig⟩
      · exact ⟨x :: pre, d, post, by rw [h]; rfl, hd⟩
    · rintro ⟨pre, d, post, h, hd, hdig⟩
      cases pre with
      | nil =>
        left
        rw [h, List.nil_append, binsAt_of d post hd hdig]
        rfl
      | cons y pre =>
        right
        refine ⟨pre, d, post, ?_, hd, hdig⟩
        rw [List.cons_append, List.cons_append, List.cons_append] at h
        exact (List.cons.inj h).2

/-- The number found is the first one declared: no digits before it are followed by `_sp_bins`. -/
theorem binsOf_eq (pre d post : Str) (hd : d ≠ [])
    (hdig : ∀ c ∈ d, isDigit c = true) (hlast : ∀ c ∈ pre.getLast?, isDigit c = false)
    (hno : ∀ a b e, pre = a ++ b ++ e → b ≠ [] → (∀ c ∈ b, isDigit c = true) →
      ∀ r, e ++ d ++ "_sp_bins".toList ++ post ≠ "_sp_bins".toList ++ r) :
    binsOf (pre ++ d ++ "_sp_bins".toList ++ post) = some (decVal d) := by
  induction pre with
  | nil =>
    cases d with
    | nil => exact absurd rfl hd
    | cons c d =>
      have := binsAt_of (c :: d) post hd hdig
      rw [List.nil_append]
      show (binsAt ((c :: d) ++ "_sp_bins".toList ++ post)).or _ = _
      rw [this]
      rfl
  | cons x pre ih =>
    show (binsAt ((x :: pre) ++ d ++ "_sp_bins".toList ++ post)).or (binsOf (pre ++ d ++ "_sp_bins".toList ++ post)) = _
    have h0 : binsAt ((x :: pre) ++ d ++ "_sp_bins".toList ++ post) = none := by
      cases hb : binsAt ((x :: pre) ++ d ++ "_sp_bins".toList ++ post) with
      | none => rfl
      | some n =>
        exfalso
        obtain ⟨b, r, e, hb1, hb2, _⟩ := binsAt_some _ _ hb
        -- the digits found end inside `pre`
        rw [List.append_assoc, List.append_assoc b, List.append_assoc] at e
        rcases List.append_eq_append_iff.mp e with ⟨a', h1, h2⟩ | ⟨c', h1, h2⟩
        · -- `pre` is a beginning of the digits: its last character would be a digit
          have hl : (x :: pre).getLast (by simp) ∈ b := by
            rw [h1]
            exact List.mem_append_left _ (List.getLast_mem _)
          have hf := hlast _ (List.getLast?_eq_getLast_of_ne_nil (by simp))
          rw [hb2 _ hl] at hf
          simp at hf
        · refine hno [] b c' (by rw [List.nil_append]; exact h1) hb1 hb2 r ?_
          rw [List.append_assoc, List.append_assoc, h2]
    rw [h0, Option.none_or]
    cases pre with
    | nil =>
      exact ih (by simp) (fun a b e h hb => by
        have : b = [] := by
          have := congrArg List.length h
          simp at this
          exact List.eq_nil_of_length_eq_zero (by omega)
        exact absurd this hb)
    | cons y pre =>
      refine ih (fun c hc => hlast c ?_) (fun a b e h hb hbd r => hno (x :: a) b e (by rw [h]; rfl) hb hbd r)
      rw [List.getLast?_cons_cons]
      exact hc

def bins (p : Pth) : Nat := (binsOf (pname p)).getD 0

theorem sort_stable_aux (k : Nat) (a : Pth) (l : List Pth) (hl : l.Pairwise (fun a b => bins a ≤ bins b)) :
    (l.orderedInsert (fun a b => bins a ≤ bins b) a).filter (fun p => decide (bins p = k)) =
      (a :: l).filter (fun p => decide (bins p = k)) := by
  induction l with
  | nil => rfl
  | cons b l ih =>
    rw [List.orderedInsert_cons]
    split
    · rfl
    · rename_i hab
      have h1 := (List.pairwise_cons.mp hl)
      rw [List.filter_cons, ih h1.2]
      by_cases hb : bins b = k
      · have ha : ¬ bins a = k := by omega
        simp [hb, ha]
      · simp [hb, List.filter_cons]

/-- The configurations are ordered by their numbers of bins when all names declare one, keeping the order of equal ones;
otherwise they are left as they are. In any case none is lost or repeated. -/
theorem sort_spec (fs : List Pth) :
    (sortConfigs fs).Perm fs ∧
    ((∀ f ∈ fs, Declares (pname f)) → (sortConfigs fs).Pairwise (fun a b => bins a ≤ bins b) ∧
      ∀ k, (sortConfigs fs).filter (fun p => decide (bins p = k)) = fs.filter (fun p => decide (bins p = k))) ∧
    ((∃ f ∈ fs, ¬ Declares (pname f)) → sortConfigs fs = fs) := by
  have tot : Std.Total (fun a b : Pth => bins a ≤ bins b) := ⟨fun a b => Nat.le_total _ _⟩
  have tr : IsTrans Pth (fun a b : Pth => bins a ≤ bins b) := ⟨fun a b c h1 h2 => Nat.le_trans h1 h2⟩
  unfold sortConfigs
  refine ⟨?_, ?_, ?_⟩
  · split
    · exact List.perm_insertionSort _ fs
    · exact List.Perm.refl _
  · intro h
    rw [if_pos (List.all_eq_true.mpr fun f hf => (binsOf_isSome _).mpr (h f hf))]
    refine ⟨List.pairwise_insertionSort (fun a b : Pth => bins a ≤ bins b) fs, fun k => ?_⟩
    clear h
    induction fs with
    | nil => rfl
    | cons f fs ih =>
      show ((List.insertionSort (fun a b : Pth => bins a ≤ bins b) fs).orderedInsert (fun a b => bins a ≤ bins b) f).filter _ = _
      rw [sort_stable_aux k f _ (List.pairwise_insertionSort (fun a b : Pth => bins a ≤ bins b) fs), List.filter_cons,
        List.filter_cons]
      have := ih
      change List.filter _ (List.insertionSort (fun a b : Pth => bins a ≤ bins b) fs) = _ at this
      rw [this]
  · rintro ⟨f, hf, hn⟩
    rw [if_neg]
    rw [List.all_eq_true]
    exact fun h => hn ((binsOf_isSome _).mp (h f hf))

/-! ### One run per combination -/

theorem flatMap_get {α β : Type} (l : List α) (g : α → List β) (n : Nat) (hg : ∀ a ∈ l, (g a).length = n)
    (i j : Nat) (a : α) (hi : l[i]? = some a) (hj : j < n) : (l.flatMap g)[i * n + j]? = (g a)[j]? := by
  induction l generalizing i with
  | nil => simp at hi
  | cons b l ih =>
    rw [List.flatMap_cons]
    have hb := hg b List.mem_cons_self
    cases i with
    | zero =>
      obtain rfl := Option.some.inj hi
      rw [Nat.zero_mul, Nat.zero_add, List.getElem?_append_left (by omega)]
    | succ i =>
      rw [List.getElem?_append_right (by rw [hb, Nat.succ_mul]; omega), hb]
      have e : (i + 1) * n + j - n = i * n + j := by rw [Nat.succ_mul]; omega
      rw [e]
      exact ih (fun a ha => hg a (List.mem_cons_of_mem _ ha)) i (by simpa using hi)

theorem flatMap_len {α β : Type} (l : List α) (g : α → List β) (n : Nat) (hg : ∀ a, (g a).length = n) :
    (l.flatMap g).length = l.length * n := by
  induction l with
  | nil => simp
  | cons b l ih => rw [List.flatMap_cons, List.length_append, ih, hg, List.length_cons, Nat.succ_mul, Nat.add_comm]

theorem combos_length (fs gs cs : List Pth) (ps : List (Option Pth)) :
    (combos fs gs cs ps).length = fs.length * (gs.length * (cs.length * ps.length)) := by
  unfold combos
  refine flatMap_len _ _ _ fun f => flatMap_len _ _ _ fun g => flatMap_len _ _ _ fun c => ?_
  rw [List.length_map]

/-- The place of a combination in the order of the runs. -/
theorem combos_get (fs gs cs : List Pth) (ps : List (Option Pth)) (i j k l : Nat) (f g c : Pth) (p : Option Pth)
    (hi : fs[i]? = some f) (hj : gs[j]? = some g) (hk : cs[k]? = some c) (hl : ps[l]? = some p) :
    (combos fs gs cs ps)[i * (gs.length * (cs.length * ps.length)) + (j * (cs.length * ps.length) + (k * ps.length + l))]? =
      some ⟨f, g, c, p⟩ := by
  have lt : ∀ {α : Type} {l : List α} {i : Nat} {a : α}, l[i]? = some a → i < l.length :=
    fun h => (List.getElem?_eq_some_iff.mp h).1
  have bound : ∀ a b c d : Nat, a < b → c < d → a * d + c < b * d := by
    intro a b c d h1 h2
    calc a * d + c < a * d + d := by omega
      _ = (a + 1) * d := by rw [Nat.succ_mul]
      _ ≤ b * d := Nat.mul_le_mul_right d h1
  have b1 := bound k cs.length l ps.length (lt hk) (lt hl)
  have b2 := bound j gs.length _ _ (lt hj) b1
  unfold combos
  rw [flatMap_get fs _ _ (fun f _ => flatMap_len _ _ _ fun g => flatMap_len _ _ _ fun c => List.length_map ..) i _ f hi b2,
    flatMap_get gs _ _ (fun g _ => flatMap_len _ _ _ fun c => List.length_map ..) j _ g hj b1,
    flatMap_get cs _ _ (fun c _ => List.length_map ..) k l c hk (lt hl), List.getElem?_map, hl]
  rfl

theorem runAll_ok (f : Combo → Option Launch) (ms : List Combo) :
    (runAll f ms).2 = true ↔ ∀ m ∈ ms, (f m).isSome := by
  induction ms with
  | nil => simp [runAll]
  | cons m ms ih =>
    rw [runAll]
    cases h : f m with
    | none => simp [h]
    | some l => simp [h, ih]

theorem runAll_get (f : Combo → Option Launch) (ms : List Combo) (i : Nat) (l : Launch)
    (h : (runAll f ms).1[i]? = some l) : ∃ m, ms[i]? = some m ∧ f m = some l := by
  induction ms generalizing i with
  | nil => simp [runAll] at h
  | cons m ms ih =>
    rw [runAll] at h
    cases hf : f m with
    | none => rw [hf] at h; simp at h
    | some l' =>
      rw [hf] at h
      cases i with
      | zero => exact ⟨m, rfl, by rw [hf]; simpa using h⟩
      | succ i => exact ih i (by simpa using h)

theorem runAll_length (f : Combo → Option Launch) (ms : List Combo) (h : (runAll f ms).2 = true) :
    (runAll f ms).1.length = ms.length := by
  induction ms with
  | nil => rfl
  | cons m ms ih =>
    rw [runAll] at h ⊢
    cases hf : f m with
    | none => rw [hf] at h; simp at h
    | some l => rw [hf] at h; simp only at h ⊢; rw [List.length_cons, List.length_cons, ih h]

/-- The orchestration is refused exactly when a list of configurations is empty, or there are no power spectra to compute
angular spectra from. -/
theorem refused_iff (a : Args) (c : Configs) (ps : List (Option Pth)) (i : Pth) :
    multiple a c ps i = none ↔ c.fcfg = [] ∨ c.fish = [] ∨ c.cl = [] ∨ (ps = [] ∧ a.angular = true) := by
  unfold multiple
  split
  · simp [*]
  · split
    · simp [*]
    · split
      · simp [*]
      · split
        · simp [*]
        · simp only [reduceCtorEq, false_iff]
          tauto

/-- When no exception stops the orchestration, there are as many runs as combinations, and the run of the `i`-th forecast,
`j`-th Fisher, `k`-th angular configuration and `l`-th power spectra comes at its place in the nested order. -/
theorem one_per_combination (a : Args) (c : Configs) (ps : List (Option Pth)) (inp : Pth) (ls : List Launch)
    (h : multiple a c ps inp = some (ls, true)) :
    ls.length = c.fcfg.length * (c.fish.length * (c.cl.length * ps.length)) ∧
    ∀ i j k l f g q p, (sortConfigs c.fcfg)[i]? = some f → c.fish[j]? = some g → c.cl[k]? = some q → ps[l]? = some p →
      ∃ run, ls[i * (c.fish.length * (c.cl.length * ps.length)) + (j * (c.cl.length * ps.length) + (k * ps.length + l))]? = some run ∧
        newRun a c (decide (c.fish.length > 1)) (decide (c.cl.length > 1)) inp ⟨f, g, q, p⟩ = some run := by
  have hn : multiple a c ps inp ≠ none := by rw [h]; simp
  rw [Ne, refused_iff] at hn
  unfold multiple at h
  rw [if_neg (by tauto), if_neg (by tauto), if_neg (by tauto), if_neg (by tauto)] at h
  have h' := Option.some.inj h
  have h2 : (runAll (newRun a c (decide (c.fish.length > 1)) (decide (c.cl.length > 1)) inp)
      (combos (sortConfigs c.fcfg) c.fish c.cl ps)).2 = true := by rw [h']
  have h1 := runAll_length _ _ h2
  rw [h'] at h1
  simp only at h1
  have hs := (sort_spec c.fcfg).1.length_eq
  refine ⟨by rw [h1, combos_length, hs], ?_⟩
  intro i j k l f g q p hi hj hk hl
  have hc := combos_get _ _ _ _ i j k l f g q p hi hj hk hl
  have hlt := (List.getElem?_eq_some_iff.mp hc).1
  rw [← h1] at hlt
  refine ⟨ls[i * (c.fish.length * (c.cl.length * ps.length)) + (j * (c.cl.length * ps.length) + (k * ps.length + l))]'hlt,
    List.getElem?_eq_getElem hlt, ?_⟩
  have hr : (runAll (newRun a c (decide (c.fish.length > 1)) (decide (c.cl.length > 1)) inp)
      (combos (sortConfigs c.fcfg) c.fish c.cl ps)).1[i * (c.fish.length * (c.cl.length * ps.length)) +
        (j * (c.cl.length * ps.length) + (k * ps.length + l))]? = some (ls[i * (c.fish.length * (c.cl.length * ps.length)) +
        (j * (c.cl.length * ps.length) + (k * ps.length + l))]'hlt) := by
    rw [h']
    exact List.getElem?_eq_getElem hlt
  obtain ⟨m, hm, hrun⟩ := runAll_get _ _ _ _ hr
  rw [hc] at hm
  obtain rfl := Option.some.inj hm
  exact hrun

def reserved : List Str := ["ex".toList, "q".toList, "ncj".toList, "mem".toList, "ini".toList, "pmm_cfg".toList, "der_cfg".toList,
  "res_cfg".toList]

theorem cli_reserved (a : Args) : ∀ k ∈ (cliItems a).map (·.1), k ∈ reserved := by
  have h4 : ∀ k ∈ ["ex".toList, "q".toList, "ncj".toList, "mem".toList], k ∈ reserved := by decide +kernel
  have h5 : ∀ k ∈ ["ex".toList, "q".toList, "ncj".toList, "mem".toList, "ini".toList], k ∈ reserved := by decide +kernel
  unfold cliItems
  cases a.ini with
  | none => exact h4
  | some p => exact h5

theorem lookup_reverse_none {υ : Type} (l : List (Str × υ)) (k : Str) :
    l.reverse.lookup k = none ↔ k ∉ l.map (·.1) := by
  rw [PyDict.lookup_none_iff, List.map_reverse, List.mem_reverse]

theorem keyvals_lookup (a : Args) (c : Configs) (m : Combo) (key : Str) (hr : key ∉ reserved)
    (hext : ∀ p, (key, some p) ∉ c.ext) :
    (keyvals a c m).lookup key = (if key = "pmm_dir".toList then m.pmm else none).or
      (List.lookup key [("fcfg".toList, m.fcfg), ("cl_cfg".toList, m.cl), ("fish_cfg".toList, m.fish)]) := by
  unfold keyvals
  simp only
  rw [PyDict.lookup_update, (lookup_reverse_none _ _).mpr, Option.none_or, PyDict.lookup_update,
    (lookup_reverse_none _ _).mpr, Option.none_or]
  · have h1 : (PyDict.update [("fcfg".toList, m.fcfg), ("cl_cfg".toList, m.cl), ("fish_cfg".toList, m.fish)]
        (cliItems a)).lookup key =
        List.lookup key [("fcfg".toList, m.fcfg), ("cl_cfg".toList, m.cl), ("fish_cfg".toList, m.fish)] := by
      rw [PyDict.lookup_update, (lookup_reverse_none _ _).mpr, Option.none_or]
      exact fun h => hr (cli_reserved a _ h)
    cases m.pmm with
    | none => simp only [h1, ite_self, Option.none_or]
    | some p =>
      simp only
      rw [PyDict.lookup_set, h1]
      split <;> rfl
  · intro h
    have h3 : ∀ k ∈ ["pmm_cfg".toList, "der_cfg".toList, "res_cfg".toList], k ∈ reserved := by decide +kernel
    exact hr (h3 _ h)
  · intro h
    obtain ⟨q, hq, hk⟩ := List.mem_map.mp h
    obtain ⟨e, he, hq⟩ := List.mem_filterMap.mp hq
    obtain ⟨p, hp, rfl⟩ := Option.map_eq_some_iff.mp hq
    simp only at hk
    apply hext p
    rw [← hk, ← hp]
    exact he

/-- The arguments of a run are those of its combination, unless the external directories name the power spectra: then
these replace the ones of the combination. -/
theorem run_arguments_partial (a : Args) (c : Configs) (uf uc : Bool) (inp : Pth) (m : Combo) (l : Launch)
    (h : newRun a c uf uc inp m = some l)
    (hext : ∀ key ∈ ["fcfg".toList, "cl_cfg".toList, "fish_cfg".toList, "pmm_dir".toList], ∀ p, (key, some p) ∉ c.ext) :
    l.keyvals.lookup "fcfg".toList = some m.fcfg ∧ l.keyvals.lookup "cl_cfg".toList = some m.cl ∧
    l.keyvals.lookup "fish_cfg".toList = some m.fish ∧ l.keyvals.lookup "pmm_dir".toList = m.pmm ∧
    l.keyvals.lookup "id".toList = some [l.id] := by
  obtain ⟨i, _, rfl⟩ := Option.map_eq_some_iff.mp h
  have n1 : ∀ key ∈ ["fcfg".toList, "cl_cfg".toList, "fish_cfg".toList, "pmm_dir".toList],
      key ∉ reserved ∧ key ≠ "id".toList ∧ key ≠ "i".toList := by decide +kernel
  have step : ∀ key ∈ ["fcfg".toList, "cl_cfg".toList, "fish_cfg".toList, "pmm_dir".toList],
      (PyDict.set (PyDict.set (keyvals a c m) "id".toList [i]) "i".toList inp).lookup key =
        (if key = "pmm_dir".toList then m.pmm else none).or
          (List.lookup key [("fcfg".toList, m.fcfg), ("cl_cfg".toList, m.cl), ("fish_cfg".toList, m.fish)]) := by
    intro key hk
    obtain ⟨r1, r2, r3⟩ := n1 key hk
    rw [PyDict.lookup_set, if_neg r3, PyDict.lookup_set, if_neg r2, keyvals_lookup a c m key r1 (hext key hk)]
  have nd : ([("fcfg".toList, m.fcfg), ("cl_cfg".toList, m.cl), ("fish_cfg".toList, m.fish)].map (·.1)).Nodup := by
    show ["fcfg".toList, "cl_cfg".toList, "fish_cfg".toList].Nodup
    decide +kernel
  refine ⟨?_, ?_, ?_, ?_, ?_⟩
  · rw [step _ (by decide +kernel), if_neg (by decide +kernel), Option.none_or]
    exact PyDict.lookup_of_mem _ nd List.mem_cons_self
  · rw [step _ (by decide +kernel), if_neg (by decide +kernel), Option.none_or]
    exact PyDict.lookup_of_mem _ nd (List.mem_cons_of_mem _ List.mem_cons_self)
  · rw [step _ (by decide +kernel), if_neg (by decide +kernel), Option.none_or]
    exact PyDict.lookup_of_mem _ nd (List.mem_cons_of_mem _ (List.mem_cons_of_mem _ List.mem_cons_self))
  · rw [step _ (by decide +kernel), if_pos rfl]
    have : List.lookup "pmm_dir".toList [("fcfg".toList, m.fcfg), ("cl_cfg".toList, m.cl), ("fish_cfg".toList, m.fish)] = none := by
      rw [PyDict.lookup_none_iff]
      show "pmm_dir".toList ∉ ["fcfg".toList, "cl_cfg".toList, "fish_cfg".toList]
      decide +kernel
    rw [this, Option.or_none]
  · rw [PyDict.lookup_set, if_neg (by decide +kernel), PyDict.lookup_set, if_pos rfl]

/-- The other configurations are the same for all runs. -/
theorem run_settings (a : Args) (c : Configs) (uf uc : Bool) (inp : Pth) (m : Combo) (l : Launch)
    (h : newRun a c uf uc inp m = some l)
    (hext : ∀ key ∈ ["pmm_cfg".toList, "der_cfg".toList, "res_cfg".toList], ∀ p, (key, some p) ∉ c.ext) :
    l.keyvals.lookup "pmm_cfg".toList = some c.pmm ∧ l.keyvals.lookup "der_cfg".toList = some c.der ∧
    l.keyvals.lookup "res_cfg".toList = some c.res ∧ l.keyvals.lookup "i".toList = some inp := by
  obtain ⟨i, _, rfl⟩ := Option.map_eq_some_iff.mp h
  have n1 : ∀ key ∈ ["pmm_cfg".toList, "der_cfg".toList, "res_cfg".toList], key ≠ "id".toList ∧ key ≠ "i".toList := by
    decide +kernel
  have nd : (([("pmm_cfg".toList, c.pmm), ("der_cfg".toList, c.der), ("res_cfg".toList, c.res)] : Keyvals).map (·.1)).Nodup := by
    show ["pmm_cfg".toList, "der_cfg".toList, "res_cfg".toList].Nodup
    decide +kernel
  have step : ∀ q ∈ ([("pmm_cfg".toList, c.pmm), ("der_cfg".toList, c.der), ("res_cfg".toList, c.res)] : Keyvals),
      (PyDict.set (PyDict.set (keyvals a c m) "id".toList [i]) "i".toList inp).lookup q.1 = some q.2 := by
    intro q hq
    have hk : q.1 ∈ ["pmm_cfg".toList, "der_cfg".toList, "res_cfg".toList] := List.mem_map.mpr ⟨q, hq, rfl⟩
    obtain ⟨r2, r3⟩ := n1 _ hk
    rw [PyDict.lookup_set, if_neg r3, PyDict.lookup_set, if_neg r2]
    unfold keyvals
    simp only
    rw [PyDict.lookup_update, (lookup_reverse_none _ _).mpr, Option.none_or, PyDict.lookup_update, PyDict.lookup_reverse _ nd,
      PyDict.lookup_of_mem _ nd hq, Option.some_or]
    intro h
    obtain ⟨q', hq', hk'⟩ := List.mem_map.mp h
    obtain ⟨e, he, hq'⟩ := List.mem_filterMap.mp hq'
    obtain ⟨p, hp, rfl⟩ := Option.map_eq_some_iff.mp hq'
    simp only at hk'
    refine hext q.1 hk p ?_
    rw [← hk', ← hp]
    exact he
  refine ⟨step _ List.mem_cons_self, step _ (List.mem_cons_of_mem _ List.mem_cons_self),
    step _ (List.mem_cons_of_mem _ (List.mem_cons_of_mem _ List.mem_cons_self)), ?_⟩
  rw [PyDict.lookup_set, if_pos rfl]

def noArgs : Args := ⟨true, true, true, "no".toList, [], [], [], none, []⟩
def extConfigs : Configs := ⟨[["f.json".toList]], [["g.json".toList]], [["c.json".toList]], [], [], [],
  [("pmm_dir".toList, some ["ext".toList])]⟩

/-- Witness: power spectra named among the external directories replace those of every combination; two different power
spectra then give the same run twice. -/
theorem external_replaces : ∃ ls, multiple noArgs extConfigs [some ["a".toList], some ["b".toList]] [] = some (ls, true) ∧
    ls.map (fun l => (l.id, l.keyvals.lookup "pmm_dir".toList)) =
      [("f_ext".toList, some ["ext".toList]), ("f_ext".toList, some ["ext".toList])] := by
  refine ⟨(runAll (newRun noArgs extConfigs false false []) (combos (sortConfigs extConfigs.fcfg) extConfigs.fish extConfigs.cl
    [some ["a".toList], some ["b".toList]])).1, ?_, ?_⟩
  · decide +kernel
  · decide +kernel

/-! ### The directories collected afterwards -/

/-- What is collected: the directories whose names begin with a run id. -/
theorem collect_iff (listing : List (Str × Bool)) (ids : List Str) (d : Str) :
    d ∈ collect listing ids ↔ (d, true) ∈ listing ∧ ∃ i ∈ ids, ∃ r, d = i ++ r := by
  unfold collect
  rw [List.mem_map]
  constructor
  · rintro ⟨⟨n, b⟩, h, rfl⟩
    rw [List.mem_filter, Bool.and_eq_true] at h
    obtain ⟨h1, h2, h3⟩ := h
    simp only at h2 h3
    subst h2
    obtain ⟨i, hi, h4⟩ := List.any_eq_true.mp h3
    exact ⟨h1, i, hi, (stripPrefix_isSome _ _).mp h4⟩
  · rintro ⟨h1, i, hi, h2⟩
    refine ⟨(d, true), ?_, rfl⟩
    rw [List.mem_filter]
    refine ⟨h1, ?_⟩
    simp only [Bool.true_and]
    exact List.any_eq_true.mpr ⟨i, hi, (stripPrefix_isSome _ _).mpr h2⟩

/-- Run ids that the command line does not change: no number with leading zeros, no lower case truth value. -/
def Stable (i : Str) : Prop := cliText i = i

/-- If no directory was there whose name begins with a launched id, exactly the directories of the launched runs are
collected. -/
theorem collected_exact_partial (old : List (Str × Bool)) (runs : List (Str × Names.DateTime)) (v : Str)
    (hid : ∀ r ∈ runs, Stable r.1) (hold : ∀ d, (d, true) ∈ old → ∀ r ∈ runs, ∀ s, d ≠ r.1 ++ s) (d : Str) :
    d ∈ collect (old ++ runs.map fun r => (dirOf v r.2 r.1, true)) (runs.map (·.1)) ↔ ∃ r ∈ runs, d = dirOf v r.2 r.1 := by
  rw [collect_iff]
  constructor
  · rintro ⟨h, i, hi, s, hs⟩
    obtain ⟨r, hr, rfl⟩ := List.mem_map.mp hi
    rcases List.mem_append.mp h with h | h
    · exact absurd hs (hold d h r hr s)
    · obtain ⟨q, hq, e⟩ := List.mem_map.mp h
      exact ⟨q, hq, (Prod.mk.inj e).1.symm⟩
  · rintro ⟨r, hr, rfl⟩
    refine ⟨List.mem_append_right _ (List.mem_map.mpr ⟨r, hr, rfl⟩), r.1, List.mem_map_of_mem hr, ?_⟩
    unfold dirOf Names.runDirName
    rw [hid r hr]
    exact ⟨_, by rw [List.append_assoc]⟩

/-- Witness: an earlier run whose id only begins like a launched one is collected as well. -/
theorem older_collected : collect [("a_10_1.0.0_x".toList, true), ("a_1_1.0.0_y".toList, true)] ["a_1".toList] =
    ["a_10_1.0.0_x".toList, "a_1_1.0.0_y".toList] := by decide +kernel

/-- Witness: the directory of a run whose id is a number with leading zeros is not collected. -/
theorem zeros_missed (v : Str) (t : Names.DateTime) : dirOf v t "007".toList ∉
    collect [(dirOf v t "007".toList, true)] ["007".toList] := by
  rw [collect_iff]
  rintro ⟨_, i, hi, r, h⟩
  obtain rfl : i = "007".toList := by simpa using hi
  have e : cliText "007".toList = decStr 7 := by
    have h1 : cliText "007".toList = decStr (decVal "007".toList) := by
      unfold cliText
      rw [if_neg (by decide +kernel), if_neg (by decide +kernel), if_pos (by decide +kernel)]
    rw [h1]
    have : decVal "007".toList = 7 := by decide +kernel
    rw [this]
  unfold dirOf Names.runDirName at h
  rw [e, decStr_small (by omega)] at h
  have h0 := congrArg List.head? h
  have e1 : ("007".toList ++ r).head? = some '0' := rfl
  rw [e1] at h0
  have : digitChar 7 = '0' := by simpa using h0
  exact absurd this (by decide)

/-! ### C73: run ids -/

theorem last_part (a a' b b' : Str) (hb : '_' ∉ b) (hb' : '_' ∉ b') (h : a ++ '_' :: b = a' ++ '_' :: b') :
    a = a' ∧ b = b' := by
  rcases List.append_eq_append_iff.mp h with ⟨x, h1, h2⟩ | ⟨x, h1, h2⟩
  · cases x with
    | nil => exact ⟨by simpa using h1.symm, by simpa using h2⟩
    | cons y x =>
      rw [List.cons_append] at h2
      have := (List.cons.inj h2).2
      exact absurd (by rw [this]; simp) hb
  · cases x with
    | nil => exact ⟨by simpa using h1, by simpa using h2.symm⟩
    | cons y x =>
      rw [List.cons_append] at h2
      have := (List.cons.inj h2).2
      exact absurd (by rw [this]; simp) hb'

/-- The parts of the run id of a combination. -/
structure Parts where
  fcfg : Str
  fish : Str
  cl : Str
  pmm : Option Str

def optPart : Option Str → Str
  | some p => '_' :: p
  | none => []

def Parts.id (uf uc : Bool) (p : Parts) : Str :=
  p.fcfg ++ (if uf then '_' :: p.fish else []) ++ (if uc then '_' :: p.cl else []) ++ optPart p.pmm

/-- The position of the last dot. -/
theorem lastDot_append (a b : Str) (h : '.' ∉ b) : lastDot (a ++ '.' :: b) = some a.length := by
  have hb : lastDot b = none := by
    induction b with
    | nil => rfl
    | cons c b ih =>
      rw [List.mem_cons, not_or] at h
      rw [lastDot, ih h.2]
      simp only
      rw [if_neg (Ne.symm h.1)]
  induction a with
  | nil =>
    rw [List.nil_append, lastDot, hb]
    simp only
    rw [if_pos trivial]
    rfl
  | cons c a ih =>
    rw [List.cons_append, lastDot, ih]
    rfl

/-- The stem of a name is what is before the last dot; a dot at either end does not count. -/
theorem stem_spec (a b : Str) (h : '.' ∉ b) :
    (a ≠ [] → b ≠ [] → stem (a ++ '.' :: b) = a) ∧ stem ('.' :: b) = '.' :: b ∧ stem (a ++ ['.']) = a ++ ['.'] ∧ stem b = b := by
  refine ⟨fun ha hb => ?_, ?_, ?_, ?_⟩
  · unfold stem
    rw [lastDot_append a b h]
    simp only
    rw [if_pos]
    · exact List.take_left
    · have h1 := List.length_pos_iff.mpr ha
      have h2 := List.length_pos_iff.mpr hb
      rw [List.length_append, List.length_cons]
      omega
  · have := lastDot_append [] b h
    rw [List.nil_append] at this
    unfold stem
    rw [this]
    simp only
    rw [if_neg (by simp)]
  · unfold stem
    rw [lastDot_append a [] (by simp)]
    simp only
    rw [if_neg]
    rw [List.length_append, List.length_singleton]
    omega
  · have hb : lastDot b = none := by
      induction b with
      | nil => rfl
      | cons c b ih =>
        rw [List.mem_cons, not_or] at h
        rw [lastDot, ih h.2]
        simp only
        rw [if_neg (Ne.symm h.1)]
    unfold stem
    rw [hb]

/-- A directory of power spectra inside a run is named after this run, any other one after itself. -/
theorem pmm_named (k : Keyvals) (p : Pth) (hk : k.lookup "pmm_dir".toList = some p) {a : Str} {s : Option (Str × Names.DateTime)} :
    (∀ q, p = q ++ ["PowerSpectrum".toList] → Names.splitRunId (q.getLast?.getD []) = some (a, s) → pmmPart k = some ('_' :: a)) ∧
    (∀ q x, p = q ++ [x] → x ≠ "PowerSpectrum".toList → Names.splitRunId x = some (a, s) → pmmPart k = some ('_' :: a)) := by
  constructor
  · rintro q rfl h
    unfold pmmPart
    rw [hk]
    simp only
    have h1 : pname (q ++ ["PowerSpectrum".toList]) = "PowerSpectrum".toList := by
      unfold pname
      rw [List.getLast?_concat]
      rfl
    have h2 : parentName (q ++ ["PowerSpectrum".toList]) = q.getLast?.getD [] := by
      unfold parentName pname
      rw [List.dropLast_concat]
    rw [if_pos h1, h2, h]
    rfl
  · rintro q x rfl hx h
    unfold pmmPart
    rw [hk]
    simp only
    have h1 : pname (q ++ [x]) = x := by
      unfold pname
      rw [List.getLast?_concat]
      rfl
    rw [h1, if_neg hx, h]
    rfl

/-- The id of a run is put together from the ids of its forecast configuration and power spectra and the stems of its
Fisher and angular configurations. -/
theorem runId_parts (uf uc : Bool) (k : Keyvals) (f g c : Pth) (hf : k.lookup "fcfg".toList = some f)
    (hg : k.lookup "fish_cfg".toList = some g) (hc : k.lookup "cl_cfg".toList = some c) (i : Str)
    (h : runId uf uc k = some i) : ∃ p : Parts, i = p.id uf uc ∧ p.fish = stem (pname g) ∧ p.cl = stem (pname c) ∧
      (∃ q, Names.splitRunId (stem (pname f)) = some (p.fcfg, q)) ∧
      (p.pmm = none ↔ k.lookup "pmm_dir".toList = none) := by
  unfold runId at h
  rw [hf, hg, hc] at h
  obtain ⟨q, hq, h⟩ := Option.bind_eq_some_iff.mp h
  obtain ⟨r, hr, rfl⟩ := Option.map_eq_some_iff.mp h
  unfold pmmPart at hr
  cases hp : k.lookup "pmm_dir".toList with
  | none =>
    rw [hp] at hr
    obtain rfl := Option.some.inj hr
    exact ⟨⟨q.1, stem (pname g), stem (pname c), none⟩, rfl, rfl, rfl, ⟨q.2, hq⟩, by simp⟩
  | some p =>
    rw [hp] at hr
    obtain ⟨s, _, rfl⟩ := Option.map_eq_some_iff.mp hr
    exact ⟨⟨q.1, stem (pname g), stem (pname c), some s.1⟩, rfl, rfl, rfl, ⟨q.2, hq⟩, by simp⟩

/-- Different combinations have different run ids when the parts after the first contain no underscore. -/
theorem ids_differ_partial (uf uc : Bool) (p q : Parts) (hp : '_' ∉ p.fish ∧ '_' ∉ p.cl ∧ ∀ s ∈ p.pmm, '_' ∉ s)
    (hq : '_' ∉ q.fish ∧ '_' ∉ q.cl ∧ ∀ s ∈ q.pmm, '_' ∉ s) (hpm : p.pmm = none ↔ q.pmm = none)
    (h : p.id uf uc = q.id uf uc) :
    p.fcfg = q.fcfg ∧ (uf = true → p.fish = q.fish) ∧ (uc = true → p.cl = q.cl) ∧ p.pmm = q.pmm := by
  unfold Parts.id at h
  have s1 : p.fcfg ++ (if uf then '_' :: p.fish else []) ++ (if uc then '_' :: p.cl else []) =
      q.fcfg ++ (if uf then '_' :: q.fish else []) ++ (if uc then '_' :: q.cl else []) ∧ p.pmm = q.pmm := by
    cases h1 : p.pmm with
    | none =>
      have h2 := hpm.mp h1
      rw [h1, h2] at h
      simp only [optPart, List.append_nil] at h
      exact ⟨h, h2.symm⟩
    | some s =>
      cases h2 : q.pmm with
      | none => rw [hpm.mpr h2] at h1; simp at h1
      | some t =>
        rw [h1, h2] at h
        simp only [optPart] at h
        obtain ⟨k1, k2⟩ := last_part _ _ _ _ (hp.2.2 s h1) (hq.2.2 t h2) h
        exact ⟨k1, by rw [k2]⟩
  obtain ⟨h, hpm'⟩ := s1
  cases uf <;> cases uc
  · simp only [Bool.false_eq_true, if_false, List.append_nil] at h
    exact ⟨h, by simp, by simp, hpm'⟩
  · simp only [Bool.false_eq_true, if_false, if_true, List.append_nil] at h
    obtain ⟨k1, k2⟩ := last_part _ _ _ _ hp.2.1 hq.2.1 h
    exact ⟨k1, by simp, fun _ => k2, hpm'⟩
  · simp only [Bool.false_eq_true, if_false, if_true, List.append_nil] at h
    obtain ⟨k1, k2⟩ := last_part _ _ _ _ hp.1 hq.1 h
    exact ⟨k1, fun _ => k2, by simp, hpm'⟩
  · simp only [if_true] at h
    obtain ⟨k1, k2⟩ := last_part _ _ _ _ hp.2.1 hq.2.1 h
    obtain ⟨k3, k4⟩ := last_part _ _ _ _ hp.1 hq.1 k1
    exact ⟨k3, fun _ => k4, fun _ => k2, hpm'⟩

def clashConfigs : Configs := ⟨[["f.json".toList]], [["a.json".toList], ["a_b.json".toList]], [["b_c.json".toList], ["c.json".toList]],
  [], [], [], []⟩

/-- Witness: two of the four combinations get the same run id. -/
theorem ids_clash : ∃ ls, multiple noArgs clashConfigs [none] [] = some (ls, true) ∧
    ls.map (·.id) = ["f_a_b_c".toList, "f_a_c".toList, "f_a_b_b_c".toList, "f_a_b_c".toList] := by
  refine ⟨(runAll (newRun noArgs clashConfigs true true []) (combos (sortConfigs clashConfigs.fcfg) clashConfigs.fish clashConfigs.cl
    [none])).1, ?_, ?_⟩
  · decide +kernel
  · decide +kernel

/-! ### C74: the command line of a run -/

/-- What the shell makes of a command line without quotes and special characters. -/
def words (s : Str) : List Str := (splitChar ' ' s).filter (· ≠ [])

theorem splitChar_app (c : Char) (a b : Str) : splitChar c (a ++ c :: b) = splitChar c a ++ splitChar c b := by
  induction a with
  | nil => simp [splitChar]
  | cons x a ih =>
    rw [List.cons_append, splitChar, splitChar]
    by_cases hx : x = c
    · rw [if_pos hx, if_pos hx, ih, List.cons_append]
    · rw [if_neg hx, if_neg hx, ih]
      cases h : splitChar c a with
      | nil => exact absurd h (splitChar_ne_nil c a)
      | cons y l => rfl

theorem words_app (a b : Str) : words (a ++ ' ' :: b) = words a ++ words b := by
  unfold words
  rw [splitChar_app, List.filter_append]

theorem words_one (a : Str) (h : ' ' ∉ a) (h0 : a ≠ []) : words a = [a] := by
  unfold words
  rw [splitChar_no_sep _ _ h]
  simp [h0]

theorem words_join (l : List Str) : words (joinStr [' '] l) = l.flatMap words := by
  induction l with
  | nil => rfl
  | cons p l ih =>
    cases l with
    | nil => simp [joinStr]
    | cons q l =>
      rw [joinStr_cons_cons, List.append_assoc, List.cons_append, List.nil_append, words_app, ih]
      rfl

/-- A text that survives on the command line: not empty, no spaces. -/
def Plain (s : Str) : Prop := s ≠ [] ∧ ' ' ∉ s

/-- Without spaces in paths and options, the program launched gets the task flags, every option with its value, and the
additional flags. -/
theorem command_words_partial (a : Args) (k : Keyvals) (hk : ∀ p ∈ k, ' ' ∉ p.1 ∧ Plain (joinStr "/".toList p.2))
    (hf : ∀ f ∈ a.flags, ' ' ∉ f) :
    words (command a k) = "job_submitter".toList ::
      ((if a.angular then ["--angular".toList] else []) ++ (if a.derivative then ["--derivative".toList] else []) ++
        (if a.fisher then ["--fisher".toList] else [])) ++
      k.flatMap (fun p => ['-' :: p.1, joinStr "/".toList p.2]) ++ a.flags.map (fun f => "--".toList ++ f) := by
  have sp : " ".toList = [' '] := by decide
  have js : "job_submitter ".toList = "job_submitter".toList ++ [' '] := by decide +kernel
  have split : command a k = "job_submitter".toList ++ ' ' ::
      (joinStr [' '] ((if a.angular then ["--angular".toList] else []) ++
        (if a.derivative then ["--derivative".toList] else []) ++ (if a.fisher then ["--fisher".toList] else [])) ++
      ' ' :: (joinStr [' '] (k.map fun p => '-' :: p.1 ++ ' ' :: joinStr "/".toList p.2) ++
      ' ' :: joinStr [' '] (a.flags.map fun f => "--".toList ++ f))) := by
    unfold command
    rw [js, sp]
    simp only [List.append_assoc, List.cons_append, List.nil_append]
  rw [split, words_app, words_app, words_app, words_join, words_join, words_join, List.cons_append, List.cons_append]
  have w0 : words "job_submitter".toList = ["job_submitter".toList] := by decide +kernel
  have wa : words "--angular".toList = ["--angular".toList] := by decide +kernel
  have wd : words "--derivative".toList = ["--derivative".toList] := by decide +kernel
  have wf : words "--fisher".toList = ["--fisher".toList] := by decide +kernel
  have w1 : ((if a.angular then ["--angular".toList] else []) ++
        (if a.derivative then ["--derivative".toList] else []) ++ (if a.fisher then ["--fisher".toList] else [])).flatMap words =
      ((if a.angular then ["--angular".toList] else []) ++
        (if a.derivative then ["--derivative".toList] else []) ++ (if a.fisher then ["--fisher".toList] else [])) := by
    rw [List.flatMap_append, List.flatMap_append]
    congr 1
    · congr 1
      · cases a.angular
        · rfl
        · simp only [if_true, List.flatMap_cons, List.flatMap_nil, List.append_nil, wa]
      · cases a.derivative
        · rfl
        · simp only [if_true, List.flatMap_cons, List.flatMap_nil, List.append_nil, wd]
    · cases a.fisher
      · rfl
      · simp only [if_true, List.flatMap_cons, List.flatMap_nil, List.append_nil, wf]
  have w2 : (k.map fun p => '-' :: p.1 ++ ' ' :: joinStr "/".toList p.2).flatMap words =
      k.flatMap (fun p => ['-' :: p.1, joinStr "/".toList p.2]) := by
    rw [List.flatMap_map]
    apply List.flatMap_congr
    intro p hp
    rw [words_app, words_one ('-' :: p.1) (by
      rintro (_ | ⟨_, h⟩)
      exact (hk p hp).1 h) (by simp), words_one _ (hk p hp).2.2 (hk p hp).2.1]
    rfl
  have w3 : (a.flags.map fun f => "--".toList ++ f).flatMap words = a.flags.map (fun f => "--".toList ++ f) := by
    have hd : ("--".toList : Str) = ['-', '-'] := by decide
    rw [List.flatMap_map, hd]
    have : ∀ f ∈ a.flags, words (['-', '-'] ++ f) = [['-', '-'] ++ f] := fun f h => words_one _ (by
      rw [List.mem_append]
      rintro (h1 | h1)
      · exact absurd h1 (by decide)
      · exact hf f h h1) (by simp)
    rw [List.flatMap_congr this, ← List.map_eq_flatMap]
  rw [w0, w1, w2, w3]
  simp only [List.append_assoc, List.cons_append, List.nil_append]

/-- Witness: a path with a space arrives as two words. -/
theorem space_splits : words (command noArgs [("fcfg".toList, ["my dir".toList, "f.json".toList])]) =
    ["job_submitter".toList, "--angular".toList, "--derivative".toList, "--fisher".toList, "-fcfg".toList, "my".toList,
      "dir/f.json".toList] := by decide +kernel

example : (sortConfigs [["b_12_sp_bins.json".toList], ["a_4_sp_bins.json".toList]]) =
    [["a_4_sp_bins.json".toList], ["b_12_sp_bins.json".toList]] := by decide +kernel

def exConfigs : Configs := ⟨[["b_12_sp_bins.json".toList], ["a_4_sp_bins.json".toList]], [["g.json".toList]], [["c.json".toList]],
  ["p.json".toList], ["d.json".toList], ["r.json".toList], []⟩

theorem exMultiple : ∃ ls, multiple noArgs exConfigs [none] ["in".toList] = some (ls, true) := by
  match h : multiple noArgs exConfigs [none] ["in".toList] with
  | some (ls, true) => exact ⟨ls, rfl⟩
  | some (ls, false) =>
    have : (multiple noArgs exConfigs [none] ["in".toList]).map (·.2) = some true := by decide +kernel
    rw [h] at this
    cases this
  | none =>
    have : (multiple noArgs exConfigs [none] ["in".toList]).map (·.2) = some true := by decide +kernel
    rw [h] at this
    cases this

example : ∃ ls, multiple noArgs exConfigs [none] ["in".toList] = some (ls, true) ∧ ls.length = 2 := by
  obtain ⟨ls, h⟩ := exMultiple
  exact ⟨ls, h, (one_per_combination _ _ _ _ _ h).1⟩

theorem exNewRun : ∃ l, newRun noArgs exConfigs false false ["in".toList]
    ⟨["a_4_sp_bins.json".toList], ["g.json".toList], ["c.json".toList], none⟩ = some l := by
  match h : newRun noArgs exConfigs false false ["in".toList]
    ⟨["a_4_sp_bins.json".toList], ["g.json".toList], ["c.json".toList], none⟩ with
  | some l => exact ⟨l, rfl⟩
  | none =>
    have : (newRun noArgs exConfigs false false ["in".toList]
      ⟨["a_4_sp_bins.json".toList], ["g.json".toList], ["c.json".toList], none⟩).isSome = true := by decide +kernel
    rw [h] at this
    cases this

example : ∃ l, newRun noArgs exConfigs false false ["in".toList]
      ⟨["a_4_sp_bins.json".toList], ["g.json".toList], ["c.json".toList], none⟩ = some l ∧
    l.keyvals.lookup "fcfg".toList = some ["a_4_sp_bins.json".toList] ∧
    l.keyvals.lookup "res_cfg".toList = some ["r.json".toList] := by
  obtain ⟨l, h⟩ := exNewRun
  exact ⟨l, h, (run_arguments_partial _ _ _ _ _ _ _ h (by
      rintro key - p hp
      cases hp)).1, (run_settings _ _ _ _ _ _ _ h (by
      rintro key - p hp
      cases hp)).2.2.1⟩

example : stem "a.b.json".toList = "a.b".toList := (stem_spec "a.b".toList "json".toList (by decide)).1 (by decide) (by decide)

example (d : Str) : d ∈ collect ([("x".toList, true)] ++ [("opt".toList, (⟨2020, 2, 28, 23, 59, 58⟩ : Names.DateTime))].map
      fun r => (dirOf "1.2.0".toList r.2 r.1, true)) ["opt".toList] ↔
    d = dirOf "1.2.0".toList ⟨2020, 2, 28, 23, 59, 58⟩ "opt".toList := by
  have h := collected_exact_partial [("x".toList, true)] [("opt".toList, ⟨2020, 2, 28, 23, 59, 58⟩)] "1.2.0".toList
    (fun r hr => by
      rw [List.mem_singleton.mp hr]
      show cliText "opt".toList = "opt".toList
      decide +kernel) (fun d hd r hr s => by
      rw [List.mem_singleton.mp hr]
      cases List.mem_singleton.mp hd
      intro h
      cases h) d
  refine h.trans ?_
  constructor
  · rintro ⟨r, hr, rfl⟩
    rw [List.mem_singleton.mp hr]
  · rintro rfl
    exact ⟨_, .head _, rfl⟩

end Seyfert.Orch
