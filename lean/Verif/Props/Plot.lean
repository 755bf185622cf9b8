import Mathlib.Algebra.Order.BigOperators.Group.List
import Mathlib.Algebra.BigOperators.Ring.List
import Mathlib.Tactic.FieldSimp
import Mathlib.Tactic.Linarith
import Mathlib.Tactic.Ring
import Verif.Model.Plot
import Verif.Lemmas.PyDict

/-!
C117: plots of Fisher matrices show every matrix and parameter once, in its own colour, around the
fiducial values.
-/

set_option linter.unusedSectionVars false

namespace Seyfert.Plot

variable {K : Type} [Field K] [LinearOrder K] [IsStrictOrderedRing K]

/-! ### Colours -/

/-- The position of the `i`-th of `n` matrices in the colour map: evenly from 0 to 1. -/
def position (n i : Nat) : K := if n = 1 then 0 else (i : K) / ((n : K) - 1)

theorem linspace_get (n i : Nat) (hi : i < n) : (linspace n : List K)[i]? = some (position n i) := by
  unfold linspace position
  rw [List.getElem?_map, List.getElem?_range hi]
  rfl

theorem linspace_length (n : Nat) : (linspace n : List K).length = n := by simp [linspace]

/-- C117. Whatever colours were asked for before, as long as the order of the matrices is the same, a
matrix has the colour of its place in the order, and other names are refused. -/
theorem colors_stable (o : List Str) (names : List Str) :
    (getColors (none : Option (List K)) (names.map (fun n => (o, n)))).2 =
      names.map (fun n => if n ∈ o then .ok (position o.length (o.idxOf n)) else .error .valueError) := by
  have one : ∀ (cache : Option (List K)) (n : Str), cache.getD (linspace o.length) = linspace o.length →
      (getColor o cache n).2 = (if n ∈ o then .ok (position o.length (o.idxOf n)) else .error .valueError) ∧
      (getColor o cache n).1.getD (linspace o.length) = linspace o.length := by
    intro cache n hc
    unfold getColor
    by_cases hn : n ∈ o
    · simp only [hn, if_true, hc]
      rw [linspace_get _ _ (List.idxOf_lt_length_of_mem hn)]
      exact ⟨rfl, rfl⟩
    · simp only [hn, if_false]
      exact ⟨trivial, hc⟩
  have gen : ∀ cache : Option (List K), cache.getD (linspace o.length) = linspace o.length →
      (getColors cache (names.map (fun n => (o, n)))).2 =
      names.map (fun n => if n ∈ o then .ok (position o.length (o.idxOf n)) else .error .valueError) := by
    induction names with
    | nil => intro cache _; rfl
    | cons n names ih =>
      intro cache hc
      obtain ⟨h1, h2⟩ := one cache n hc
      simp only [List.map_cons, getColors]
      rw [h1, ih _ h2]
  exact gen none rfl

/-- C117. Positions lie between 0 and 1, and different matrices have different ones. -/
theorem position_distinct (o : List Str) (a b : Str) (ha : a ∈ o) (hb : b ∈ o) :
    0 ≤ (position o.length (o.idxOf a) : K) ∧ (position o.length (o.idxOf a) : K) ≤ 1 ∧
      ((position o.length (o.idxOf a) : K) = position o.length (o.idxOf b) → a = b) := by
  have h1 := List.idxOf_lt_length_of_mem ha
  have h2 := List.idxOf_lt_length_of_mem hb
  unfold position
  by_cases hn : o.length = 1
  · simp only [hn, if_true]
    refine ⟨le_refl _, zero_le_one, fun _ => ?_⟩
    have e1 : o.idxOf a = 0 := by omega
    have e2 : o.idxOf b = 0 := by omega
    rw [← List.getElem_idxOf h1, ← List.getElem_idxOf h2]
    simp only [e1, e2]
  · simp only [hn, if_false]
    have hpos : (0 : K) < (o.length : K) - 1 := by
      have : 1 < o.length := by omega
      have : (1 : K) < (o.length : K) := by exact_mod_cast this
      linarith
    refine ⟨div_nonneg (Nat.cast_nonneg _) hpos.le, ?_, fun e => ?_⟩
    · rw [div_le_one hpos]
      have : o.idxOf a + 1 ≤ o.length := by omega
      have : ((o.idxOf a : K) + 1) ≤ (o.length : K) := by exact_mod_cast this
      linarith
    · have e' : (o.idxOf a : K) = (o.idxOf b : K) := by
        have := congrArg (· * ((o.length : K) - 1)) e
        simpa [div_mul_cancel₀ _ hpos.ne'] using this
      have e'' : o.idxOf a = o.idxOf b := by exact_mod_cast e'
      rw [← List.getElem_idxOf h1, ← List.getElem_idxOf h2]
      simp only [e'']

/-- C117 is false when matrices are added after the first use of a colour: the new one has none. -/
theorem color_missing : ∃ r : List (Except Err ℚ), r = (getColors (none : Option (List ℚ))
    [([['A']], ['A']), ([['A'], ['B']], ['B'])]).2 ∧ r[1]? = some (.error .indexError) :=
  ⟨_, rfl, by decide +kernel⟩

/-! ### Panels -/

/-- C117. Every parameter has its curves on the diagonal, and every two parameters have their ellipses
in one panel, below the diagonal, with the first of them along the horizontal axis; the panel on the
other side is empty. -/
theorem panels (pars : List Str) (i j : Nat) (a b : Str) (hi : pars[i]? = some a) (hj : pars[j]? = some b) :
    panel pars i i = some (.gauss a) ∧
    (i < j → panel pars j i = some (.ellipse a b) ∧ panel pars i j = some .off) := by
  constructor
  · simp [panel, hi]
  · intro h
    simp [panel, hi, hj, h, Nat.not_lt.mpr h.le, Nat.ne_of_gt h]

/-- C117. With two parameters or more, the matrices drawn and shown in the legend are those asked for, by
default those of the analysis; a plot of one parameter always fails. -/
theorem drawn_spec (order : List Str) (asked : Option (List Str)) (pars : List Str) :
    (2 ≤ pars.length → (drawn order asked pars) = .ok (asked.getD order)) ∧
    (pars.length < 2 → ∃ e, drawn order asked pars = .error e) := by
  constructor
  · intro h
    unfold drawn
    rw [if_neg (by omega), if_neg (by omega)]
  · intro h
    unfold drawn
    by_cases h0 : pars.length = 0
    · exact ⟨_, by rw [if_pos h0]⟩
    · exact ⟨_, by rw [if_neg h0, if_pos (by omega)]⟩

/-! ### Ranges -/

/-- The marginalised errors of a parameter: every matrix of the order has one. -/
structure HasErrors (an : An K) (name : Str) (m : K) (s : Str → K) : Prop where
  fid : an.fid.lookup name = some m
  errs : ∀ o ∈ an.order, (an.errs.lookup o).bind (fun row => row.lookup name) = some (s o)

theorem intervals_ok (z : K) (an : An K) (name : Str) (m : K) (s : Str → K) (l : List Str)
    (hf : an.fid.lookup name = some m)
    (h : ∀ o ∈ l, (an.errs.lookup o).bind (fun row => row.lookup name) = some (s o)) :
    intervals z an name l = .ok (l.map (fun o => (m - z * s o, m + z * s o))) := by
  induction l with
  | nil => rfl
  | cons o l ih =>
    have e : interval z an name o = .ok (m - z * s o, m + z * s o) := by
      unfold interval
      rw [hf, h o (by simp)]
    unfold intervals
    rw [e, ih (fun o' ho => h o' (List.mem_cons_of_mem _ ho))]
    rfl

theorem mean_affine (l : List Str) (hl : l ≠ []) (m c : K) (s : Str → K) :
    mean (l.map (fun o => m + c * s o)) = m + c * mean (l.map s) := by
  have hpos : (l.length : K) ≠ 0 := by
    have : l.length ≠ 0 := by simpa using hl
    exact_mod_cast this
  unfold mean
  have : (l.map (fun o => m + c * s o)).sum = (l.length : K) * m + c * (l.map s).sum := by
    clear hpos hl
    induction l with
    | nil => simp
    | cons o l ih =>
      simp only [List.map_cons, List.sum_cons, List.length_cons, ih]
      push_cast
      ring
  rw [this, List.length_map, List.length_map]
  field_simp

/-- C117. The range of a parameter is centred on its fiducial value and extends on both sides by the
mean of the half widths of the matrices of the order. -/
theorem range_value (z : K) (an : An K) (name : Str) (m : K) (s : Str → K) (h : HasErrors an name m s)
    (hne : an.order ≠ []) :
    plotRange z an name = .ok (m - z * mean (an.order.map s), m + z * mean (an.order.map s)) := by
  unfold plotRange
  rw [intervals_ok z an name m s an.order h.fid h.errs]
  have h1 := mean_affine an.order hne m (-z) s
  have h2 := mean_affine an.order hne m z s
  have e1 : (fun o => m + -z * s o) = fun o => m - z * s o := by funext o; ring
  rw [e1] at h1
  simp only [meanLimits]
  rw [if_neg (by simpa using hne), List.map_map, List.map_map]
  have f1 : (Prod.fst ∘ fun o => (m - z * s o, m + z * s o)) = fun o => m - z * s o := rfl
  have f2 : (Prod.snd ∘ fun o => (m - z * s o, m + z * s o)) = fun o => m + z * s o := rfl
  rw [f1, f2, h1, h2]
  congr 2
  ring

theorem mean_bounds (l : List K) (hl : l ≠ []) (c : K) (h : ∀ x ∈ l, c ≤ x) : c ≤ mean l := by
  have hpos : (0 : K) < (l.length : K) := by
    have : 0 < l.length := List.length_pos_of_ne_nil hl
    exact_mod_cast this
  unfold mean
  rw [le_div_iff₀ hpos]
  clear hpos hl
  induction l with
  | nil => simp
  | cons x l ih =>
    have h1 := ih (fun y hy => h y (List.mem_cons_of_mem _ hy))
    have h2 := h x (by simp)
    simp only [List.sum_cons, List.length_cons]
    push_cast
    linarith

/-- C117. The range contains the fiducial value and the whole interval of the matrix with the smallest
error.

Full statement: the range contains the interval of every matrix, false by `range_cuts`. -/
theorem range_contains_partial (z : K) (hz : 0 ≤ z) (an : An K) (name : Str) (m : K) (s : Str → K)
    (h : HasErrors an name m s) (o : Str) (ho : o ∈ an.order) (hpos : 0 ≤ s o)
    (hmin : ∀ o' ∈ an.order, s o ≤ s o') :
    ∃ lo hi a b, plotRange z an name = .ok (lo, hi) ∧ interval z an name o = .ok (a, b) ∧
      lo ≤ a ∧ a ≤ m ∧ m ≤ b ∧ b ≤ hi := by
  have hne : an.order ≠ [] := by rintro e; rw [e] at ho; simp at ho
  have hm : s o ≤ mean (an.order.map s) := by
    apply mean_bounds _ (by simpa using hne)
    intro x hx
    obtain ⟨o', h1, rfl⟩ := List.mem_map.mp hx
    exact hmin o' h1
  have hzm := mul_le_mul_of_nonneg_left hm hz
  have hzs := mul_nonneg hz hpos
  refine ⟨_, _, m - z * s o, m + z * s o, range_value z an name m s h hne, ?_, ?_, ?_, ?_, ?_⟩
  · unfold interval
    rw [h.fid, h.errs o ho]
  all_goals linarith

/-- With two matrices of different errors, the interval of the worse one does not fit into the range. -/
theorem range_cuts (z : K) (hz : 0 < z) (an : An K) (name : Str) (m : K) (s : Str → K)
    (h : HasErrors an name m s) (a b : Str) (ho : an.order = [a, b]) (hab : s a < s b) :
    ∃ lo hi x y, plotRange z an name = .ok (lo, hi) ∧ interval z an name b = .ok (x, y) ∧ x < lo ∧ hi < y := by
  have hmean : mean (an.order.map s) < s b := by
    rw [ho]
    unfold mean
    simp only [List.map_cons, List.map_nil, List.sum_cons, List.sum_nil, List.length_cons, List.length_nil]
    rw [div_lt_iff₀ (by norm_num)]
    push_cast
    linarith
  have hzm := mul_lt_mul_of_pos_left hmean hz
  refine ⟨_, _, m - z * s b, m + z * s b, range_value z an name m s h (by rw [ho]; simp), ?_, ?_, ?_⟩
  · unfold interval
    rw [h.fid, h.errs b (by rw [ho]; simp)]
  · linarith
  · linarith

theorem rangeLoop_ok (z : K) (an : An K) (r : Str → K × K) (names : List Str)
    (h : ∀ n ∈ names, plotRange z an n = .ok (r n)) (d : Ranges K) :
    ∃ d', rangeLoop z an d names = .ok d' ∧
      ∀ n, d'.lookup n = if n ∈ names then some (r n) else d.lookup n := by
  induction names generalizing d with
  | nil => exact ⟨d, rfl, by simp⟩
  | cons n names ih =>
    obtain ⟨d', e, hd⟩ := ih (fun m hm => h m (List.mem_cons_of_mem _ hm)) (PyDict.set d n (r n))
    refine ⟨d', ?_, fun m => ?_⟩
    · unfold rangeLoop
      rw [h n (by simp)]
      exact e
    · rw [hd, PyDict.lookup_set]
      by_cases hm : m ∈ names
      · simp [hm]
      · by_cases hmn : m = n
        · subst hmn; simp
        · simp [hm, hmn]

/-- C117. The default set up: all cosmological parameters, sorted, each with the range described above,
and the default settings. -/
theorem default_setup {C : Type} (dflt : C) (z : K) (p : Plotter C K) (an : An K)
    (ha : p.analysis = some an) (m : Str → K) (s : Str → Str → K)
    (h : ∀ n ∈ an.fid.map Prod.fst, HasErrors an n (m n) (s n)) (hne : an.order ≠ []) :
    ∃ p' pars ranges, setUpDefault dflt z p = .ok p' ∧ p'.pars = some pars ∧
      p'.config = some ⟨dflt, some ranges⟩ ∧ p'.analysis = some an ∧
      pars.Perm (an.fid.map Prod.fst) ∧ pars.Pairwise (· ≤ ·) ∧
      ∀ n ∈ an.fid.map Prod.fst, ranges.lookup n =
        some (m n - z * mean (an.order.map (s n)), m n + z * mean (an.order.map (s n))) := by
  have hperm := List.perm_insertionSort (· ≤ ·) (an.fid.map Prod.fst)
  obtain ⟨d, e, hd⟩ := rangeLoop_ok z an
    (fun n => (m n - z * mean (an.order.map (s n)), m n + z * mean (an.order.map (s n))))
    ((an.fid.map Prod.fst).insertionSort (· ≤ ·))
    (fun n hn => range_value z an n (m n) (s n) (h n (hperm.mem_iff.mp hn)) hne) []
  refine ⟨{ p with pars := some ((an.fid.map Prod.fst).insertionSort (· ≤ ·)),
                   config := some ⟨dflt, some d⟩ }, _, d, ?_, rfl, rfl, ha, hperm,
    List.pairwise_insertionSort _ _, fun n hn => ?_⟩
  · unfold setUpDefault setParams
    rw [ha]
    simp only [if_true, setConfig, setRanges, newRanges, e]
  · rw [hd, if_pos (hperm.mem_iff.mpr hn)]

/-- C117 is false of ranges and settings given before the default set up: they are dropped without
notice. -/
theorem given_ranges_dropped {C : Type} (dflt : C) (z : K) (p : Plotter C K) (c : Option (Cfg C K)) :
    setUpDefault dflt z { p with config := c } = setUpDefault dflt z { p with config := none } := by
  unfold setUpDefault setParams
  cases p.analysis with
  | none => rfl
  | some an => rfl

/-- C117 is false of the collector of results: with plots asked for and at least one cosmology, setting
up always fails. -/
theorem results_plots_fail {C : Type} (dflt : C) (z : K) (l : List (Str × An K)) (hl : l ≠ []) :
    (setupPlotters dflt z l : Except Err (List (Str × Plotter C K))) = .error .typeError := by
  cases l with
  | nil => exact absurd rfl hl
  | cons x l => rfl

/-- C117 is false of settings passed as a dictionary: the plotter is never built. -/
theorem settings_dictionary_fails {C : Type} (dflt : C) (z : K) (an : An K) (pars : ParsArg) (file : C) :
    buildPlotter dflt z an pars file true = .error .valueError := by
  unfold buildPlotter setParams
  cases pars with
  | list l => rfl
  | text s =>
    by_cases hs : s = "all".toList
    · simp only [hs, if_true]; rfl
    · simp only [hs, if_false]; rfl

/-- C117. A plotter built for listed parameters has exactly these, with their ranges. -/
theorem built_plotter {C : Type} (dflt file : C) (z : K) (an : An K) (names : List Str) (m : Str → K)
    (s : Str → Str → K) (h : ∀ n ∈ names, HasErrors an n (m n) (s n)) (hne : an.order ≠ []) :
    ∃ p ranges, buildPlotter dflt z an (.list names) file false = .ok p ∧ p.pars = some names ∧
      p.config = some ⟨file, some ranges⟩ ∧
      ∀ n ∈ names, ranges.lookup n =
        some (m n - z * mean (an.order.map (s n)), m n + z * mean (an.order.map (s n))) := by
  obtain ⟨d, e, hd⟩ := rangeLoop_ok z an
    (fun n => (m n - z * mean (an.order.map (s n)), m n + z * mean (an.order.map (s n)))) names
    (fun n hn => range_value z an n (m n) (s n) (h n hn) hne) []
  refine ⟨{ analysis := some an, pars := some names, config := some ⟨file, some d⟩ }, d, ?_, rfl, rfl,
    fun n hn => by rw [hd, if_pos hn]⟩
  unfold buildPlotter setParams
  simp only [setConfig, setRanges, newRanges, Bool.false_eq_true, if_false, e]

/-- C117 is false of one parameter given as a text: its letters are taken for parameters. -/
theorem text_is_letters {C : Type} (p : Plotter C K) (an : An K) (ha : p.analysis = some an) (s : Str)
    (hs : s ≠ "all".toList) :
    ∃ p', setParams p (.text s) = .ok p' ∧ p'.pars = some (s.map (fun c => [c])) := by
  unfold setParams
  rw [ha]
  simp only [hs, if_false]
  exact ⟨_, rfl, rfl⟩

/-- C117. Ranges that are written replace nothing unless that is asked for, and are what is read. -/
theorem ranges_written {C : Type} (z : K) (old : Option (Ranges K)) (r : Ranges K) (overwrite : Bool)
    (p : Plotter C K) (c : Cfg C K) (hc : p.config = some c) :
    (∀ o, old = some o → overwrite = false → writeRanges old r overwrite = o) ∧
    ((old = none ∨ overwrite = true) → writeRanges old r overwrite = r) ∧
    setRanges z p (some (.holds (writeRanges old r overwrite))) =
      .ok { p with config := some { c with ranges := some (writeRanges old r overwrite) } } := by
  refine ⟨?_, ?_, ?_⟩
  · rintro o rfl rfl; rfl
  · rintro (rfl | rfl)
    · rfl
    · cases old <;> rfl
  · unfold setRanges newRanges
    rw [hc]

/-! ### Two matrices, two parameters -/

def exAn : An ℚ where
  order := [['A'], ['B']]
  fid := [(['x'], 1), (['y'], 2)]
  errs := [(['A'], [(['x'], 1), (['y'], 3)]), (['B'], [(['x'], 2), (['y'], 1)])]

def exErr (n o : Str) : ℚ :=
  if n = ['x'] then (if o = ['A'] then 1 else 2) else (if o = ['A'] then 3 else 1)

theorem exAn_errors : ∀ n ∈ exAn.fid.map Prod.fst,
    HasErrors exAn n (if n = ['x'] then 1 else 2) (exErr n) := by
  intro n hn
  have : n = ['x'] ∨ n = ['y'] := by simpa [exAn] using hn
  rcases this with rfl | rfl
  · refine ⟨by decide +kernel, ?_⟩
    have : ∀ o ∈ exAn.order, (exAn.errs.lookup o).bind (fun row => row.lookup ['x']) = some (exErr ['x'] o) := by
      decide +kernel
    exact this
  · refine ⟨by decide +kernel, ?_⟩
    have : ∀ o ∈ exAn.order, (exAn.errs.lookup o).bind (fun row => row.lookup ['y']) = some (exErr ['y'] o) := by
      decide +kernel
    exact this

example : ∃ p' pars ranges, setUpDefault () (3 : ℚ) { analysis := some exAn } = .ok p' ∧
    p'.pars = some pars ∧ p'.config = some ⟨(), some ranges⟩ ∧ pars.Perm [['x'], ['y']] := by
  obtain ⟨p', pars, ranges, e1, e2, e3, _, e4, _⟩ := default_setup () (3 : ℚ) { analysis := some exAn } exAn rfl
    (fun n => if n = ['x'] then 1 else 2) exErr exAn_errors (by simp [exAn])
  exact ⟨p', pars, ranges, e1, e2, e3, e4⟩

example : ∃ lo hi x y, plotRange (3 : ℚ) exAn ['x'] = .ok (lo, hi) ∧ interval 3 exAn ['x'] ['B'] = .ok (x, y) ∧
    x < lo ∧ hi < y :=
  range_cuts 3 (by norm_num) exAn ['x'] _ _ (exAn_errors ['x'] (by decide)) ['A'] ['B'] rfl (by decide +kernel)

end Seyfert.Plot
