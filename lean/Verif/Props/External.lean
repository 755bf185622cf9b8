import Verif.Model.External
import Verif.Lemmas.Names
import Verif.Lemmas.PyStr
import Verif.Lemmas.PyDict
import Verif.Props.Names
import Verif.Props.Runner

/-!
C92. Power spectra of other codes are filed under the cosmology in their names, in the units of the program.
-/

namespace Seyfert.Ext

open Names

/-! ### Names of files -/

/-- The two signs as they are written. -/
def signText (minus : Bool) : Str := if minus then "_mn_eps_".toList else "_pl_eps_".toList

theorem tail_match (minus : Bool) (a b c : Char) (ha : isDigit a = true) (hb : isDigit b = true)
    (hc : isDigit c = true) (post : Str) :
    matchTail (signText minus ++ ([a, 'p', b, 'E', '-', c] ++ post)) = some (minus, [a, 'p', b, 'E', '-', c]) := by
  unfold matchTail signText
  cases minus
  · have h1 : stripPrefix "_mn_eps_".toList ("_pl_eps_".toList ++ ([a, 'p', b, 'E', '-', c] ++ post)) = none := rfl
    rw [if_neg (by decide), h1, stripPrefix_append]
    show (if isDigit a && isDigit b && isDigit c then _ else _) = _
    rw [ha, hb, hc]
    rfl
  · rw [if_pos rfl, stripPrefix_append]
    show (if isDigit a && isDigit b && isDigit c then _ else _) = _
    rw [ha, hb, hc]
    rfl

theorem signText_head (minus : Bool) (r : Str) : ∃ t, signText minus ++ r = '_' :: t := by
  cases minus
  · exact ⟨_, rfl⟩
  · exact ⟨_, rfl⟩

theorem tail_underscore {s : Str} (h : (matchTail s).isSome) : ∃ t, s = '_' :: t := by
  cases s with
  | nil => exact absurd h (by decide)
  | cons c t =>
    by_cases hc : c = '_'
    · exact ⟨t, by rw [hc]⟩
    · exfalso
      have h1 : ∀ q : Str, stripPrefix ('_' :: q) (c :: t) = none := by
        intro q
        cases hs : stripPrefix ('_' :: q) (c :: t) with
        | none => rfl
        | some r =>
          rw [stripPrefix_eq_some] at hs
          exact absurd (List.cons.inj hs).1 hc
      unfold matchTail at h
      rw [show "_mn_eps_".toList = '_' :: "mn_eps_".toList from rfl,
        show "_pl_eps_".toList = '_' :: "pl_eps_".toList from rfl, h1, h1] at h
      exact absurd h (by decide)

/-- A name is searched from the left: text without underscores before the name of the parameter, ending in a
character that is neither letter nor digit, is skipped. -/
theorem search_skip (pre s : Str) (h : '_' ∉ pre) (hl : ∀ x ∈ pre.getLast?, isAlnum x = false) :
    searchIST (pre ++ s) = searchIST s := by
  induction pre with
  | nil => rfl
  | cons c pre ih =>
    have hc : c ≠ '_' := fun e => h (by rw [e]; exact List.mem_cons_self)
    have hnone : matchIST (c :: (pre ++ s)) = none := by
      unfold matchIST
      by_cases he : (spanChars isAlnum (c :: (pre ++ s))).1 = []
      · rw [if_pos he]
      · rw [if_neg he]
        cases hm : matchTail (spanChars isAlnum (c :: (pre ++ s))).2 with
        | none => rfl
        | some t =>
          exfalso
          obtain ⟨r, hr⟩ := tail_underscore (by rw [hm]; rfl)
          have happ := spanChars_spec isAlnum (c :: (pre ++ s))
          obtain ⟨happ, hall, _⟩ := happ
          rw [hr] at happ
          -- the run of letters is at least as long as the prefix, hence contains its last character
          rcases List.append_eq_append_iff.mp (show c :: pre ++ s = _ ++ '_' :: r from happ.symm) with
            ⟨a, ha, _⟩ | ⟨a, ha, hb⟩
          · have hlast : ∃ x, (c :: pre).getLast? = some x := by
              cases hx : (c :: pre).getLast? with
              | none => exact absurd (List.getLast?_eq_none_iff.mp hx) (by simp)
              | some x => exact ⟨x, rfl⟩
            obtain ⟨x, hx⟩ := hlast
            have h1 := hl x hx
            have h2 := hall x (by rw [ha]; exact List.mem_append_left _ (List.mem_of_getLast? hx))
            rw [h1] at h2
            cases h2
          · cases a with
            | nil =>
              rw [List.append_nil] at ha
              have hlast : ∃ x, (c :: pre).getLast? = some x := by
                cases hx : (c :: pre).getLast? with
                | none => exact absurd (List.getLast?_eq_none_iff.mp hx) (by simp)
                | some x => exact ⟨x, rfl⟩
              obtain ⟨x, hx⟩ := hlast
              have h1 := hl x hx
              have h2 := hall x (by rw [← ha]; exact List.mem_of_getLast? hx)
              rw [h1] at h2
              cases h2
            | cons y a =>
              have : y = '_' := (List.cons.inj hb).1.symm
              exact h (by rw [ha, this]; simp)
    show (matchIST (c :: (pre ++ s))).or (searchIST (pre ++ s)) = _
    rw [hnone, Option.none_or]
    refine ih (fun hx => h (List.mem_cons_of_mem _ hx)) (fun x hx => hl x ?_)
    cases pre with
    | nil => cases hx
    | cons d pre => rw [List.getLast?_cons_cons]; exact hx

theorem search_hit (p : Str) (hp : GoodName p) (minus : Bool) {a b c : Char} (ha : isDigit a = true)
    (hb : isDigit b = true) (hc : isDigit c = true) (post : Str) :
    searchIST (p ++ (signText minus ++ ([a, 'p', b, 'E', '-', c] ++ post))) =
      some (p, minus, [a, 'p', b, 'E', '-', c]) := by
  obtain ⟨t, ht⟩ := signText_head minus ([a, 'p', b, 'E', '-', c] ++ post)
  have hm : matchIST (p ++ (signText minus ++ ([a, 'p', b, 'E', '-', c] ++ post))) =
      some (p, minus, [a, 'p', b, 'E', '-', c]) := by
    have hs : spanChars isAlnum (p ++ (signText minus ++ ([a, 'p', b, 'E', '-', c] ++ post))) =
        (p, signText minus ++ ([a, 'p', b, 'E', '-', c] ++ post)) := by
      rw [ht]
      exact spanChars_stop isAlnum p '_' t hp.2 (by decide)
    unfold matchIST
    rw [hs]
    simp only
    rw [if_neg hp.1, tail_match minus a b c ha hb hc post]
    rfl
  obtain ⟨x, r, hx⟩ := List.exists_cons_of_ne_nil hp.1
  rw [hx] at hm ⊢
  show (matchIST (x :: r ++ (signText minus ++ ([a, 'p', b, 'E', '-', c] ++ post)))).or _ = _
  rw [hm]
  rfl

/-- The steps of a collection with the displacements of the external files. -/
theorem inverse_steps (c : Param.Coll ℚ) : (Param.loadStem c stemEps).inv =
    some [(-1 / 10, -7), (-5 / 100, -6), (-375 / 10000, -5), (-25 / 1000, -4), (-1875 / 100000, -3),
      (-125 / 10000, -2), (-625 / 100000, -1), (625 / 100000, 1), (125 / 10000, 2), (1875 / 100000, 3), (25 / 1000, 4),
      (375 / 10000, 5), (5 / 100, 6), (1 / 10, 7)] := by
  show some (PyDict.ofItems (((Param.stepNumbers stemEps.length).zip
    ((stemEps.map (fun x => -x) ++ stemEps).insertionSort (· ≤ ·))).map (fun p => (p.2, p.1)))) = _
  decide +kernel

theorem steps_forward (c : Param.Coll ℚ) : (Param.loadStem c stemEps).stemDict =
    some [(-7, -1 / 10), (-6, -5 / 100), (-5, -375 / 10000), (-4, -25 / 1000), (-3, -1875 / 100000),
      (-2, -125 / 10000), (-1, -625 / 100000), (1, 625 / 100000), (2, 125 / 10000), (3, 1875 / 100000), (4, 25 / 1000),
      (5, 375 / 10000), (6, 5 / 100), (7, 1 / 10)] := by
  show some ((Param.stepNumbers stemEps.length).zip
    ((stemEps.map (fun x => -x) ++ stemEps).insertionSort (· ≤ ·))) = _
  decide +kernel

theorem parNames_good : ∀ q ∈ parNames, GoodName q.1 := by
  have : ∀ q ∈ parNames, q.1 ≠ [] ∧ ∀ c ∈ q.1, isAlnum c = true := by decide +kernel
  exact this

/-- The physical parameters of the external tables. -/
inductive Quantity
  | baryons | darkEnergy | matter | hubble | index | amplitude | w0 | wa
  deriving DecidableEq

/-- Their names in the names of external files, and in this program. -/
def Quantity.theirs : Quantity → Str
  | .baryons => "Ob".toList
  | .darkEnergy => "Ode".toList
  | .matter => "Om".toList
  | .hubble => "h".toList
  | .index => "ns".toList
  | .amplitude => "s8".toList
  | .w0 => "w0".toList
  | .wa => "wa".toList

def Quantity.ours : Quantity → Str
  | .baryons => "Omb".toList
  | .darkEnergy => "OmDE".toList
  | .matter => "Omm".toList
  | .hubble => "h".toList
  | .index => "ns".toList
  | .amplitude => "sigma8".toList
  | .w0 => "w0".toList
  | .wa => "wa".toList

def Quantity.all : List Quantity := [.baryons, .darkEnergy, .matter, .hubble, .index, .amplitude, .w0, .wa]

/-- Names are translated to those of the same quantity, and there are no other names. -/
theorem parNames_meaning (a b : Str) : (a, b) ∈ parNames ↔ ∃ q : Quantity, a = q.theirs ∧ b = q.ours := by
  have h1 : ∀ p ∈ parNames, ∃ q ∈ Quantity.all, p.1 = q.theirs ∧ p.2 = q.ours := by decide +kernel
  have h2 : ∀ q ∈ Quantity.all, (q.theirs, q.ours) ∈ parNames := by decide +kernel
  constructor
  · intro h
    obtain ⟨q, -, e⟩ := h1 (a, b) h
    exact ⟨q, e⟩
  · rintro ⟨q, rfl, rfl⟩
    exact h2 q (by cases q <;> decide)

theorem parNames_lookup : ∀ q ∈ parNames, parNames.lookup q.1 = some q.2 := by decide +kernel

theorem stemNames_form : ∀ q ∈ stemNames, ∃ a b c, q.1 = [a, 'p', b, 'E', '-', c] ∧ isDigit a = true ∧
    isDigit b = true ∧ isDigit c = true := by
  intro q hq
  have h : ∀ q ∈ stemNames, q.1 = [q.1.getD 0 'x', 'p', q.1.getD 2 'x', 'E', '-', q.1.getD 5 'x'] ∧
      isDigit (q.1.getD 0 'x') = true ∧ isDigit (q.1.getD 2 'x') = true ∧ isDigit (q.1.getD 5 'x') = true := by
    decide +kernel
  exact ⟨_, _, _, h q hq⟩

/-- A file named after a parameter, a sign and a displacement is filed under that parameter and under the step that
has this displacement. -/
theorem parse_variation (c : Param.Coll ℚ) (pre post : Str) (hpre : '_' ∉ pre)
    (hl : ∀ x ∈ pre.getLast?, isAlnum x = false) {p ours : Str} (hp : (p, ours) ∈ parNames) {e : Str} {eps : ℚ}
    (he : (e, eps) ∈ stemNames) (minus : Bool) :
    ∃ step : Int, parseIST (Param.loadStem c stemEps) (pre ++ (p ++ (signText minus ++ (e ++ post)))) = .ok (ours, step) ∧
      ((Param.loadStem c stemEps).stemDict.bind (fun d => d.lookup step)) = some (if minus then -eps else eps) ∧
      1 ≤ step.natAbs ∧ step.natAbs ≤ 7 := by
  obtain ⟨a, b, d, hform, ha, hb, hd⟩ := stemNames_form _ he
  have hs : searchIST (pre ++ (p ++ (signText minus ++ (e ++ post)))) = some (p, minus, e) := by
    rw [search_skip pre _ hpre hl]
    simp only at hform
    rw [hform]
    exact search_hit p (parNames_good _ hp) minus ha hb hd post
  have hstem : ∀ q ∈ stemNames, stemNames.lookup q.1 = some q.2 := by decide +kernel
  have hinv : ∀ q ∈ stemNames, ∀ m : Bool, ∃ step : Int, step ∈ Param.stepNumbers 7 ∧
      ((some [((-1 / 10 : ℚ), (-7 : Int)), (-5 / 100, -6), (-375 / 10000, -5), (-25 / 1000, -4), (-1875 / 100000, -3),
        (-125 / 10000, -2), (-625 / 100000, -1), (625 / 100000, 1), (125 / 10000, 2), (1875 / 100000, 3),
        (25 / 1000, 4), (375 / 10000, 5), (5 / 100, 6), (1 / 10, 7)]).bind
          (fun d => d.lookup (if m then -q.2 else q.2))) = some step ∧
      ((some [((-7 : Int), (-1 / 10 : ℚ)), (-6, -5 / 100), (-5, -375 / 10000), (-4, -25 / 1000), (-3, -1875 / 100000),
        (-2, -125 / 10000), (-1, -625 / 100000), (1, 625 / 100000), (2, 125 / 10000), (3, 1875 / 100000),
        (4, 25 / 1000), (5, 375 / 10000), (6, 5 / 100), (7, 1 / 10)]).bind
          (fun d => d.lookup step)) = some (if m then -q.2 else q.2) ∧ 1 ≤ step.natAbs ∧ step.natAbs ≤ 7 := by
    have : ∀ q ∈ stemNames, ∀ m : Bool, ∃ step ∈ Param.stepNumbers 7,
      ((some [((-1 / 10 : ℚ), (-7 : Int)), (-5 / 100, -6), (-375 / 10000, -5), (-25 / 1000, -4), (-1875 / 100000, -3),
        (-125 / 10000, -2), (-625 / 100000, -1), (625 / 100000, 1), (125 / 10000, 2), (1875 / 100000, 3),
        (25 / 1000, 4), (375 / 10000, 5), (5 / 100, 6), (1 / 10, 7)]).bind
          (fun d => d.lookup (if m then -q.2 else q.2))) = some step ∧
      ((some [((-7 : Int), (-1 / 10 : ℚ)), (-6, -5 / 100), (-5, -375 / 10000), (-4, -25 / 1000), (-3, -1875 / 100000),
        (-2, -125 / 10000), (-1, -625 / 100000), (1, 625 / 100000), (2, 125 / 10000), (3, 1875 / 100000),
        (4, 25 / 1000), (5, 375 / 10000), (6, 5 / 100), (7, 1 / 10)]).bind
          (fun d => d.lookup step)) = some (if m then -q.2 else q.2) ∧ 1 ≤ step.natAbs ∧ step.natAbs ≤ 7 := by
      decide +kernel
    intro q hq m
    obtain ⟨s, h1, h2⟩ := this q hq m
    exact ⟨s, h1, h2⟩
  obtain ⟨step, _, h1, h2, h3⟩ := hinv (e, eps) he minus
  refine ⟨step, ?_, ?_, h3⟩
  · unfold parseIST
    rw [hs]
    simp only
    rw [hstem _ he, parNames_lookup _ hp, inverse_steps]
    simp only
    rw [Option.bind_some] at h1
    rw [h1]
  · rw [steps_forward]
    exact h2

/-- A name in which no parameter, sign and displacement is found counts as the fiducial cosmology; in particular one
without underscores. -/
theorem parse_fiducial (c : Param.Coll ℚ) (s : Str) :
    (searchIST s = none → parseIST c s = .ok (Param.central, 0)) ∧ ('_' ∉ s → searchIST s = none) := by
  constructor
  · intro h
    unfold parseIST
    rw [h]
  · intro h
    induction s with
    | nil => rfl
    | cons x s ih =>
      show (matchIST (x :: s)).or (searchIST s) = none
      rw [ih fun hx => h (List.mem_cons_of_mem _ hx), Option.or_none]
      unfold matchIST
      split
      · rfl
      · cases hm : matchTail (spanChars isAlnum (x :: s)).2 with
        | none => rfl
        | some t =>
          exfalso
          obtain ⟨r, hr⟩ := tail_underscore (by rw [hm]; rfl)
          have happ := (spanChars_spec isAlnum (x :: s)).1
          rw [hr] at happ
          exact h (by rw [← happ]; simp)

/-- A displacement written with one more digit is taken for the fiducial cosmology, without an exception. -/
theorem misread_as_fiducial (c : Param.Coll ℚ) :
    parseIST c "pkz-Om_mn_eps_12p5E-3.txt".toList = .ok (Param.central, 0) :=
  (parse_fiducial c _).1 (by decide +kernel)

example : ∃ step, parseIST (Param.loadStem ⟨[], none, none, none, none, none⟩ stemEps)
    "pkz-Om_mn_eps_6p3E-3.txt".toList = .ok ("Omm".toList, step) := by
  obtain ⟨step, h, _⟩ := parse_variation ⟨[], none, none, none, none, none⟩ "pkz-".toList ".txt".toList (by decide)
    (by decide) (p := "Om".toList) (ours := "Omm".toList) (by decide) (e := "6p3E-3".toList) (eps := 625 / 100000)
    (by decide +kernel) true
  exact ⟨step, h⟩

/-! ### Tables -/

theorem unique_eq (l zs : List ℚ) (hz : zs.Pairwise (· < ·)) (h : ∀ x, x ∈ l ↔ x ∈ zs) : unique l = zs := by
  unfold unique
  rw [show l.toFinset = zs.toFinset from Finset.ext fun x => by simp [h x]]
  exact (List.toFinset_sort (· ≤ ·) (hz.imp fun h => ne_of_lt h)).mpr (hz.imp fun h => le_of_lt h)

theorem rowsOf_flatMap {A : Type} (f : A → List ℚ) (m : Nat) (l : List A) (h : ∀ a ∈ l, (f a).length = m) :
    rowsOf m l.length (l.flatMap f) = l.map f := by
  induction l with
  | nil => rfl
  | cons a l ih =>
    have ha := h a List.mem_cons_self
    show rowsOf m (l.length + 1) (f a ++ l.flatMap f) = _
    unfold rowsOf
    rw [← ha, List.take_left, List.drop_left, ha, ih fun b hb => h b (List.mem_cons_of_mem _ hb)]
    rfl

/-- The rows of a file that lists the redshifts in the order of `zs`, and for each of them all wave numbers. -/
def rowsFor (zs ks : List ℚ) (lin non : ℚ → ℚ → ℚ) : List Row :=
  zs.flatMap fun z => ks.map fun k => ⟨z, k, lin z k, non z k⟩

theorem readTable_rows (zs ks order : List ℚ) (hz : zs.Pairwise (· < ·)) (hk : ks.Pairwise (· < ·)) (hz0 : zs ≠ [])
    (hk0 : ks ≠ []) (ho : order.Perm zs) (lin non : ℚ → ℚ → ℚ) :
    readTable (rowsFor order ks lin non) = .ok ⟨zs, ks, (order.map fun z => ks.map (lin z)).reverse,
      (order.map fun z => ks.map (non z)).reverse⟩ := by
  have h1 : unique ((rowsFor order ks lin non).map (·.z)) = zs := by
    refine unique_eq _ _ hz fun x => ?_
    unfold rowsFor
    rw [List.map_flatMap, List.mem_flatMap]
    constructor
    · rintro ⟨z, hz', hx⟩
      rw [List.map_map] at hx
      obtain ⟨k, _, rfl⟩ := List.mem_map.mp hx
      exact ho.mem_iff.mp hz'
    · intro hx
      refine ⟨x, ho.mem_iff.mpr hx, ?_⟩
      rw [List.map_map]
      obtain ⟨k, r, rfl⟩ := List.exists_cons_of_ne_nil hk0
      exact List.mem_map.mpr ⟨k, List.mem_cons_self, rfl⟩
  have h2 : unique ((rowsFor order ks lin non).map (·.k)) = ks := by
    refine unique_eq _ _ hk fun x => ?_
    unfold rowsFor
    rw [List.map_flatMap, List.mem_flatMap]
    constructor
    · rintro ⟨z, hz', hx⟩
      rw [List.map_map] at hx
      obtain ⟨k, hk', rfl⟩ := List.mem_map.mp hx
      exact hk'
    · intro hx
      obtain ⟨z, r, hzr⟩ := List.exists_cons_of_ne_nil hz0
      refine ⟨z, ho.mem_iff.mpr (by rw [hzr]; exact List.mem_cons_self), ?_⟩
      rw [List.map_map]
      exact List.mem_map.mpr ⟨x, hx, rfl⟩
  have h3 : ∀ g : Row → ℚ, rowsOf ks.length zs.length ((rowsFor order ks lin non).map g) =
      order.map fun z => ks.map fun k => g ⟨z, k, lin z k, non z k⟩ := by
    intro g
    unfold rowsFor
    rw [List.map_flatMap, ← ho.length_eq, rowsOf_flatMap _ _ _ (by intro a _; simp)]
    refine List.map_congr_left fun z _ => ?_
    rw [List.map_map]
    rfl
  have h4 : (rowsFor order ks lin non).length = zs.length * ks.length := by
    unfold rowsFor
    rw [List.length_flatMap, ← ho.length_eq]
    simp
  unfold readTable
  simp only
  rw [h1, h2, h3, h3, if_neg (by rw [h4]; simp)]

/-- A file that lists the redshifts downwards and the wave numbers upwards is read with every value at its redshift and
its wave number. -/
theorem readTable_correct (zs ks : List ℚ) (hz : zs.Pairwise (· < ·)) (hk : ks.Pairwise (· < ·)) (hz0 : zs ≠ [])
    (hk0 : ks ≠ []) (lin non : ℚ → ℚ → ℚ) :
    readTable (rowsFor zs.reverse ks lin non) =
      .ok ⟨zs, ks, zs.map fun z => ks.map (lin z), zs.map fun z => ks.map (non z)⟩ := by
  rw [readTable_rows zs ks zs.reverse hz hk hz0 hk0 zs.reverse_perm]
  rw [List.map_reverse, List.map_reverse, List.reverse_reverse, List.reverse_reverse]

/-- A file that lists the redshifts upwards is read without an exception, but with the values of the last redshift at the
first one and so on. -/
theorem readTable_upwards (zs ks : List ℚ) (hz : zs.Pairwise (· < ·)) (hk : ks.Pairwise (· < ·)) (hz0 : zs ≠ [])
    (hk0 : ks ≠ []) (lin non : ℚ → ℚ → ℚ) :
    readTable (rowsFor zs ks lin non) =
      .ok ⟨zs, ks, zs.reverse.map fun z => ks.map (lin z), zs.reverse.map fun z => ks.map (non z)⟩ := by
  rw [readTable_rows zs ks zs hz hk hz0 hk0 (List.Perm.refl _), List.map_reverse, List.map_reverse]

/-- A table with missing or surplus rows is refused. -/
theorem readTable_refused (t : List Row) : readTable t = .error .valueError ↔
    t.length ≠ (t.map (·.z)).toFinset.card * (t.map (·.k)).toFinset.card := by
  unfold readTable unique
  simp only [Finset.length_sort]
  split
  · next h => exact ⟨fun _ => h, fun _ => rfl⟩
  · next h => exact ⟨fun h' => (by cases h'), fun h' => absurd h' h⟩

example : readTable (rowsFor [2, 1] [1, 3] (fun z k => 10 * z + k) (fun z k => 20 * z + k)) =
    .ok ⟨[1, 2], [1, 3], [[10 * 1 + 1, 10 * 1 + 3], [10 * 2 + 1, 10 * 2 + 3]],
      [[20 * 1 + 1, 20 * 1 + 3], [20 * 2 + 1, 20 * 2 + 3]]⟩ :=
  readTable_correct [1, 2] [1, 3] (by decide +kernel) (by decide +kernel) (by decide) (by decide) _ _

theorem mask_map {A : Type} (f : ℚ → A) (zs : List ℚ) :
    (((zs.map f).zip (zs.map fun z => decide (0 < z))).filter (·.2)).map (·.1) = (zs.filter (fun z => decide (0 < z))).map f := by
  induction zs with
  | nil => rfl
  | cons z zs ih =>
    simp only [List.map_cons, List.zip_cons_cons, List.filter_cons]
    by_cases h : 0 < z
    · simp only [h, decide_true, if_true, List.map_cons, ih]
    · simp only [h, decide_false, Bool.false_eq_true, if_false, ih]

/-- Wave numbers are multiplied by `h`, spectra divided by its cube, redshift zero is left out, and every value keeps its
redshift and its wave number. -/
theorem convertSpec_spec (h : ℚ) (zs ks : List ℚ) (lin non : ℚ → ℚ → ℚ) :
    convertSpec h ⟨zs, ks, zs.map fun z => ks.map (lin z), zs.map fun z => ks.map (non z)⟩ =
      ⟨zs.filter (fun z => decide (0 < z)), ks.map (· * h),
        (zs.filter (fun z => decide (0 < z))).map fun z => ks.map fun k => lin z k / h ^ 3,
        (zs.filter (fun z => decide (0 < z))).map fun z => ks.map fun k => non z k / h ^ 3⟩ := by
  unfold convertSpec
  simp only
  rw [mask_map, mask_map]
  have := mask_map id zs
  rw [List.map_id, List.map_id] at this
  rw [this]
  have h2 : ∀ g : ℚ → ℚ → ℚ, (List.map (fun x => x / h ^ 3) ∘ fun z => ks.map (g z)) =
      fun z => ks.map fun k => g z k / h ^ 3 := by
    intro g
    funext z
    exact List.map_map
  rw [List.map_map, List.map_map, h2, h2]

/-! ### All files -/

/-- What is stored for a file whose name says `(dvar, step)` and whose table is `s`, when the parameters are `c`. -/
def Correct (flat : Bool) (c : Param.Coll ℚ) (f : Str × List Row) (d : Str × Stored) : Prop :=
  ∃ dvar step s, ∃ h : ℚ × ℚ, parseIST c f.1 = .ok (dvar, step) ∧ (Param.update c dvar step).2 = none ∧
    readTable f.2 = .ok s ∧ (cosmoPars (Param.update c dvar step).1).lookup "h".toList = some h ∧
    Background.check (cosmoPars (Param.update c dvar step).1) flat = .ok () ∧ d.1 = jobDir dvar step ∧
    d.2 = ⟨(cosmoPars (Param.update c dvar step).1).map fun q => (q.1, q.2.2), convertSpec h.2 s⟩

theorem set_new {V : Type} (d : Dict Str V) (k : Str) (v : V) (h : k ∉ d.map (·.1)) : PyDict.set d k v = d ++ [(k, v)] := by
  induction d with
  | nil => rfl
  | cons q d ih =>
    rw [List.map_cons, List.mem_cons, not_or] at h
    unfold PyDict.set
    rw [if_neg (by simpa using Ne.symm h.1), ih h.2]
    rfl

theorem convertOne_spec (flat : Bool) (c : Param.Coll ℚ) (hc : Param.reset c = c) (out : Dict Str Stored) (f : Str × List Row) :
    (∃ d, Correct flat c f d ∧ d.1 ∉ out.map (·.1) ∧ convertOne flat c out f.1 f.2 = (c, out ++ [d], none)) ∨
    (∃ c' e, convertOne flat c out f.1 f.2 = (c', out, some e) ∧ Param.reset c' = c) := by
  unfold convertOne
  cases h1 : (cosmoPars c).lookup "h".toList with
  | none => exact .inr ⟨c, _, rfl, hc⟩
  | some h0 =>
    simp only
    cases h2 : parseIST c f.1 with
    | error e => exact .inr ⟨c, _, rfl, hc⟩
    | ok q =>
      obtain ⟨dvar, step⟩ := q
      simp only
      have hr : Param.reset (Param.update c dvar step).1 = c := by
        rw [Runner.reset_update, hc]
      cases h3 : Param.update c dvar step with
      | mk c' o =>
        rw [h3] at hr
        simp only at hr
        cases o with
        | some e => exact .inr ⟨c', _, rfl, hr⟩
        | none =>
          simp only
          cases h4 : readTable f.2 with
          | error e => exact .inr ⟨c', _, rfl, hr⟩
          | ok s =>
            simp only
            cases h5 : Background.check (cosmoPars c') flat with
            | error e => exact .inr ⟨c', _, rfl, hr⟩
            | ok u =>
              cases h6 : (cosmoPars c').lookup "h".toList with
              | none => exact .inr ⟨c', _, rfl, hr⟩
              | some h =>
                simp only
                by_cases hd : jobDir dvar step ∈ out.map (·.1)
                · rw [if_pos (List.contains_iff_mem.mpr hd)]
                  exact .inr ⟨c', _, rfl, hr⟩
                · rw [if_neg (fun hx => hd (List.contains_iff_mem.mp hx))]
                  refine .inl ⟨(jobDir dvar step, ⟨(cosmoPars c').map fun q => (q.1, q.2.2), convertSpec h.2 s⟩),
                    ⟨dvar, step, s, h, h2, ?_, h4, ?_, ?_, rfl, ?_⟩, hd, ?_⟩
                  · rw [h3]
                  · rw [h3]; exact h6
                  · rw [h3]; cases u; exact h5
                  · rw [h3]
                  · rw [hr, set_new _ _ _ hd]

/-- The conversion of all files: as far as files are converted, each is stored under the name of its own variation, with
the parameters of its own step as if it were the only file, and no directory is used twice.  Either all files are converted
and the parameters have their fiducial values again, or a file is refused and the ones after it are not read. -/
theorem convertAll_spec (flat : Bool) (c : Param.Coll ℚ) (hc : Param.reset c = c) (files : List (Str × List Row))
    (out : Dict Str Stored) (hn : (out.map (·.1)).Nodup) :
    ∃ new : Dict Str Stored, (convertAll flat c out files).2.1 = out ++ new ∧ ((out ++ new).map (·.1)).Nodup ∧
      List.Forall₂ (Correct flat c) (files.take new.length) new ∧ Param.reset (convertAll flat c out files).1 = c ∧
      ((convertAll flat c out files).2.2 = none → new.length = files.length ∧ (convertAll flat c out files).1 = c) ∧
      ((convertAll flat c out files).2.2 ≠ none → new.length < files.length) := by
  induction files generalizing out with
  | nil => exact ⟨[], by simp [convertAll], by simpa using hn, .nil, hc, by simp [convertAll], by simp [convertAll]⟩
  | cons f rest ih =>
    rcases convertOne_spec flat c hc out f with ⟨d, hd, hnew, heq⟩ | ⟨c', e, heq, hr⟩
    · have hstep : convertAll flat c out (f :: rest) = convertAll flat c (out ++ [d]) rest := by
        rw [convertAll, heq]
      obtain ⟨new, h1, h2, h3, h4, h5, h6⟩ := ih (out ++ [d]) (by
        rw [List.map_append, List.nodup_append]
        refine ⟨hn, by simp, ?_⟩
        intro a ha b hb
        rw [List.map_singleton, List.mem_singleton] at hb
        rw [hb]
        exact fun e => hnew (e ▸ ha))
      rw [hstep]
      refine ⟨d :: new, ?_, ?_, ?_, h4, ?_, ?_⟩
      · rw [h1]; simp
      · simpa using h2
      · rw [List.length_cons, List.take_succ_cons]
        exact .cons hd h3
      · intro h
        rw [List.length_cons, List.length_cons, (h5 h).1]
        exact ⟨rfl, (h5 h).2⟩
      · intro h
        rw [List.length_cons, List.length_cons]
        exact Nat.succ_lt_succ (h6 h)
    · have hstep : convertAll flat c out (f :: rest) = (c', out, some e) := by
        rw [convertAll, heq]
      rw [hstep]
      refine ⟨[], by simp, by simpa using hn, by simp, hr, by simp, by simp⟩

theorem convertOne_ok {flat : Bool} {c : Param.Coll ℚ} (hc : Param.reset c = c) (hh : "h".toList ∈ (cosmoPars c).map (·.1))
    {out : Dict Str Stored} {f : Str × List Row} {d : Str × Stored} (hd : Correct flat c f d) (hn : d.1 ∉ out.map (·.1)) :
    convertOne flat c out f.1 f.2 = (c, out ++ [d], none) := by
  obtain ⟨dvar, step, s, h, h1, h2, h3, h4, h5, h6, h7⟩ := hd
  have hr : Param.reset (Param.update c dvar step).1 = c := by
    rw [Runner.reset_update, hc]
  obtain ⟨d1, d2⟩ := d
  simp only at h6 h7 hn
  subst h6 h7
  unfold convertOne
  cases hl : (cosmoPars c).lookup "h".toList with
  | none => exact absurd hh ((PyDict.lookup_none_iff _ _).mp hl)
  | some h0 =>
    simp only
    rw [h1]
    simp only
    revert h2 h4 h5 hr
    generalize Param.update c dvar step = u
    obtain ⟨c', o⟩ := u
    intro h2 h4 h5 hr
    simp only at h2 h4 h5 hr ⊢
    subst h2
    rw [h3]
    simp only
    rw [h5, h4]
    simp only
    rw [if_neg (fun hx => hn (List.contains_iff_mem.mp hx)), hr, set_new _ _ _ hn]

/-- All files are converted exactly if each of them can be converted on its own and no two of them have names that say
the same variation. -/
theorem convertAll_iff (flat : Bool) (c : Param.Coll ℚ) (hc : Param.reset c = c)
    (hh : "h".toList ∈ (cosmoPars c).map (·.1)) (files : List (Str × List Row)) (new : Dict Str Stored) :
    convertAll flat c [] files = (c, new, none) ↔
      List.Forall₂ (Correct flat c) files new ∧ (new.map (·.1)).Nodup := by
  constructor
  · intro h
    obtain ⟨new', h1, h2, h3, _, h5, _⟩ := convertAll_spec flat c hc files [] (by simp)
    rw [h] at h1 h5
    simp only [List.nil_append] at h1 h2
    subst h1
    rw [(h5 rfl).1, List.take_length] at h3
    exact ⟨h3, h2⟩
  · rintro ⟨hf, hnd⟩
    have key : ∀ out : Dict Str Stored, ((out ++ new).map (·.1)).Nodup →
        convertAll flat c out files = (c, out ++ new, none) := by
      clear hnd
      induction hf with
      | nil => intro out _; rw [List.append_nil]; rfl
      | @cons f d fs new hfd _ ih =>
        intro out hnd
        rw [convertAll, convertOne_ok hc hh hfd]
        · simp only
          rw [ih (out ++ [d]) (by simpa using hnd)]
          simp
        · rw [List.map_append, List.nodup_append] at hnd
          exact fun hx => hnd.2.2 _ hx _ (by simp) rfl
    exact key [] (by simpa using hnd)

/-- If all files are converted, no two of them have names that say the same variation: also two names that both say
nothing are too many. -/
theorem converted_distinct (flat : Bool) (c : Param.Coll ℚ) (hc : Param.reset c = c) (files : List (Str × List Row))
    (h : (convertAll flat c [] files).2.2 = none) : (files.map fun f => (parseIST c f.1).toOption).Nodup := by
  obtain ⟨new, _, h2, h3, _, h5, _⟩ := convertAll_spec flat c hc files [] (by simp)
  rw [(h5 h).1, List.take_length] at h3
  rw [List.nil_append] at h2
  have key : ∀ (fs : List (Str × List Row)) (new : Dict Str Stored), List.Forall₂ (Correct flat c) fs new →
      (new.map (·.1)).Nodup → (fs.map fun f => (parseIST c f.1).toOption).Nodup ∧
      ∀ f ∈ fs, ∃ d ∈ new, Correct flat c f d := by
    intro fs new hf
    induction hf with
    | nil => intro _; simp
    | @cons f d fs new hfd _ ih =>
      intro hnd
      rw [List.map_cons, List.nodup_cons] at hnd
      obtain ⟨i1, i2⟩ := ih hnd.2
      refine ⟨?_, ?_⟩
      · rw [List.map_cons, List.nodup_cons]
        refine ⟨?_, i1⟩
        intro hmem
        obtain ⟨g, hg, he⟩ := List.mem_map.mp hmem
        obtain ⟨d', hd', hgd⟩ := i2 g hg
        obtain ⟨v, s, _, _, p1, _, _, _, _, p2, _⟩ := hfd
        obtain ⟨v', s', _, _, q1, _, _, _, _, q2, _⟩ := hgd
        simp only [p1, q1, Except.toOption] at he
        cases he
        exact hnd.1 (List.mem_map.mpr ⟨d', hd', by rw [q2, p2]⟩)
      · intro g hg
        rcases List.mem_cons.mp hg with rfl | hg
        · exact ⟨d, List.mem_cons_self, hfd⟩
        · obtain ⟨d', hd', hgd⟩ := i2 g hg
          exact ⟨d', List.mem_cons_of_mem _ hd', hgd⟩
  exact (key files new h3 h2).1

/-- A collection with the Hubble parameter only, and a file of two redshifts. -/
def hubbleOnly : Param.Coll ℚ :=
  Param.loadStem ⟨[("h".toList, ⟨"h".toList, 67 / 100, 67 / 100, .cosmo, none, true, false, 1, [], [], []⟩)], none, none, none,
    none, some false⟩ stemEps

theorem hubbleOnly_update : Param.update hubbleOnly "h".toList 7 = ({ hubbleOnly with
    pars := [("h".toList, ⟨"h".toList, 67 / 100, 67 / 100 + 1 / 10 * 1 * (67 / 100), .cosmo, none, true, false, 1, [], [], []⟩)] },
    none) := by
  have h1 : hubbleOnly.stemDict.bind (fun d => d.lookup 7) = some (1 / 10) := by
    unfold hubbleOnly
    rw [steps_forward]
    decide +kernel
  have h2 : hubbleOnly.pars.lookup "h".toList =
    some ⟨"h".toList, 67 / 100, 67 / 100, .cosmo, none, true, false, 1, [], [], []⟩ := by decide +kernel
  unfold Param.update
  rw [if_neg (by decide +kernel), h2]
  simp only
  rw [if_neg (by decide)]
  cases hs : hubbleOnly.stemDict with
  | none => rw [hs] at h1; cases h1
  | some dict =>
    rw [hs, Option.bind_some] at h1
    simp only
    rw [h1]
    simp only
    unfold Param.keepFlat
    rw [if_neg (by decide +kernel), ← hs]
    have h3 : Param.valueFor (⟨"h".toList, 67 / 100, 67 / 100, .cosmo, none, true, false, 1, [], [], []⟩ : Param.Par ℚ) (1 / 10) =
        67 / 100 + 1 / 10 * 1 * (67 / 100) := by
      unfold Param.valueFor
      simp only
      rw [if_pos (by decide +kernel)]
    rw [h3]
    rfl

/-- Both a displaced and the fiducial spectrum are converted. -/
example : ∃ new, convertAll false hubbleOnly []
    [("pkz-h_pl_eps_1p0E-1.txt".toList, rowsFor [2, 1].reverse.reverse [1, 3] (fun z k => z + k) (fun z k => z * k)),
     ("pkz-Fiducial.txt".toList, rowsFor [2, 1] [1, 3] (fun z k => z + k) (fun z k => z * k))] = (hubbleOnly, new, none) := by
  have ht := readTable_correct [1, 2] [1, 3] (by decide +kernel) (by decide +kernel) (by decide) (by decide)
    (fun z k => z + k) (fun z k => z * k)
  have h1 : parseIST hubbleOnly "pkz-h_pl_eps_1p0E-1.txt".toList = .ok ("h".toList, 7) := by
    unfold parseIST hubbleOnly
    rw [inverse_steps]
    decide +kernel
  have h2 : parseIST hubbleOnly "pkz-Fiducial.txt".toList = .ok (Param.central, 0) :=
    (parse_fiducial _ _).1 ((parse_fiducial hubbleOnly _).2 (by decide))
  refine ⟨_, (convertAll_iff false hubbleOnly rfl (by decide +kernel) _
    [(_, ⟨_, _⟩), (_, ⟨_, _⟩)]).mpr ⟨.cons ⟨_, _, _, (67 / 100, 67 / 100 + 1 / 10 * 1 * (67 / 100)), h1,
      by rw [hubbleOnly_update], ht, ?_, ?_, rfl, rfl⟩ (.cons ⟨_, _, _, (67 / 100, 67 / 100), h2,
        by rw [Param.update_central], ht, ?_, ?_, rfl, rfl⟩ .nil), ?_⟩⟩
  · rw [hubbleOnly_update]; rfl
  · rw [hubbleOnly_update]; rfl
  · rw [Param.update_central]; rfl
  · rw [Param.update_central]; rfl
  · show [jobDir "h".toList 7, jobDir Param.central 0].Nodup
    decide +kernel

/-! ### The check of the parameters -/

/-- Parameters are accepted only if they are exactly those of the external files with `h = 0.67`; a further parameter is
not removed, as is announced, but ends in an exception. -/
theorem checkPars_iff (pars : Dict Str ℚ) : (checkPars pars).2 = none ↔
    (∀ n, n ∈ pars.map (·.1) ↔ n ∈ parNames.map (·.2)) ∧ pars.lookup "h".toList = some (67 / 100) := by
  unfold checkPars
  by_cases h1 : ∀ n ∈ parNames.map (·.2), n ∈ pars.map (·.1)
  · rw [if_neg (not_not.mpr h1)]
    cases hf : pars.find? (fun q => !(parNames.map (·.2)).contains q.1) with
    | some q =>
      simp only
      constructor
      · intro h; cases h
      · rintro ⟨h, _⟩
        have := List.find?_some hf
        have hq := List.mem_of_find?_eq_some hf
        simp only [Bool.not_eq_true'] at this
        have h2 := (h q.1).mp (List.mem_map.mpr ⟨q, hq, rfl⟩)
        rw [List.contains_iff_mem.mpr h2] at this
        cases this
    | none =>
      simp only
      rw [List.find?_eq_none] at hf
      have hsub : ∀ n ∈ pars.map (·.1), n ∈ parNames.map (·.2) := by
        intro n hn
        obtain ⟨q, hq, rfl⟩ := List.mem_map.mp hn
        have := hf q hq
        simp only [Bool.not_eq_true', Bool.not_eq_false] at this
        exact List.contains_iff_mem.mp this
      split
      · next h => exact ⟨fun _ => ⟨fun n => ⟨hsub n, h1 n⟩, h⟩, fun _ => rfl⟩
      · next h => exact ⟨fun h' => (by cases h'), fun h' => absurd h'.2 h⟩
  · rw [if_pos h1]
    constructor
    · intro h; cases h
    · rintro ⟨h, _⟩
      exact absurd (fun n hn => (h n).mpr hn) h1

end Seyfert.Ext
