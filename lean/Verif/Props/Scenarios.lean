import Verif.Spec.Scenarios
import Verif.Lemmas.PyDict
import Verif.Lemmas.FisherStore
import Verif.Props.Compare
import Verif.Props.Explorer
import Verif.Props.AnalysisLife

/-!
C143: which runs are loaded for a scenario. C144: replacement of matrices by those of four bins.
-/

namespace Seyfert.Scen

open Fisher

/-! ### Names -/

theorem takeWhile_append_stop {α : Type} (p : α → Bool) (a : List α) (c : α) (b : List α) (ha : ∀ x ∈ a, p x = true)
    (hc : p c = false) : (a ++ c :: b).takeWhile p = a ∧ (a ++ c :: b).dropWhile p = c :: b := by
  induction a with
  | nil => simp [hc]
  | cons x a ih =>
    have hx := ha x List.mem_cons_self
    obtain ⟨h1, h2⟩ := ih (fun y hy => ha y (List.mem_cons_of_mem _ hy))
    refine ⟨?_, ?_⟩
    · rw [List.cons_append, List.takeWhile_cons, hx, if_pos rfl, h1]
    · rw [List.cons_append, List.dropWhile_cons, hx, if_pos rfl, h2]

theorem takeWhile_all {α : Type} (p : α → Bool) (l : List α) : ∀ x ∈ l.takeWhile p, p x = true := by
  induction l with
  | nil => intro x hx; cases hx
  | cons a l ih =>
    intro x hx
    rw [List.takeWhile_cons] at hx
    split at hx
    · rename_i ha
      rcases List.mem_cons.mp hx with rfl | hx
      · exact ha
      · exact ih x hx
    · cases hx

theorem stripPrefix_some (p s r : Str) : stripPrefix p s = some r ↔ s = p ++ r := by
  induction p generalizing s with
  | nil =>
    constructor
    · intro h; cases h; rfl
    · intro h; rw [h]; rfl
  | cons a p ih =>
    cases s with
    | nil => exact ⟨nofun, nofun⟩
    | cons b s =>
      show (if a = b then stripPrefix p s else none) = some r ↔ _
      by_cases e : a = b
      · rw [if_pos e, ih, e]
        constructor
        · intro h; rw [h]; rfl
        · intro h; injection h
      · rw [if_neg e]
        exact ⟨nofun, fun h => by injection h with h1 _; exact absurd h1.symm e⟩

/-- What is read after the word of the scenario. -/
def tail (r : Str) : Option Nat :=
  (stripPrefix "_".toList r).bind fun r =>
    if r.takeWhile isDigit = [] then none
    else (stripPrefix "_sp_bins_".toList (r.dropWhile isDigit)).map fun _ => decVal (r.takeWhile isDigit)

theorem tail_iff (r : Str) (n : Nat) : tail r = some n ↔
    ∃ ds rest, r = "_".toList ++ ds ++ "_sp_bins_".toList ++ rest ∧ ds ≠ [] ∧ (∀ c ∈ ds, isDigit c = true) ∧ decVal ds = n := by
  unfold tail
  rw [Option.bind_eq_some_iff]
  constructor
  · rintro ⟨t, ht, h⟩
    rw [stripPrefix_some] at ht
    by_cases e : t.takeWhile isDigit = []
    · rw [if_pos e] at h; cases h
    · rw [if_neg e] at h
      obtain ⟨u, hu, hn⟩ := Option.map_eq_some_iff.mp h
      rw [stripPrefix_some] at hu
      refine ⟨t.takeWhile isDigit, u, ?_, e, takeWhile_all _ _, hn⟩
      rw [ht, List.append_assoc, List.append_assoc, ← hu, List.takeWhile_append_dropWhile]
  · rintro ⟨ds, rest, rfl, hne, hd, rfl⟩
    refine ⟨ds ++ "_sp_bins_".toList ++ rest, (stripPrefix_some _ _ _).mpr (by rw [List.append_assoc, List.append_assoc, List.append_assoc]), ?_⟩
    have key := takeWhile_append_stop isDigit ds '_' ("sp_bins_".toList ++ rest) hd rfl
    have e : ds ++ "_sp_bins_".toList ++ rest = ds ++ '_' :: ("sp_bins_".toList ++ rest) := by
      rw [List.append_assoc]; rfl
    rw [e, key.1, key.2, if_neg hne]
    rfl

/-- Exactly the names of runs of the two scenarios are recognised, with their number of bins. -/
theorem matchRun_iff (s : Str) (n : Nat) :
    matchRun s = some n ↔ RunName "optm".toList n s ∨ RunName "pess".toList n s := by
  have hm : matchRun s = ((stripPrefix "optm".toList s).bind tail).or ((stripPrefix "pess".toList s).bind tail) := by
    unfold matchRun matchAlt
    show List.findSome? (fun w => (stripPrefix w s).bind tail) ["optm".toList, "pess".toList] = _
    rw [List.findSome?_cons]
    cases (stripPrefix "optm".toList s).bind tail with
    | some x => rfl
    | none =>
      dsimp only
      rw [List.findSome?_cons]
      cases (stripPrefix "pess".toList s).bind tail with
      | some x => rfl
      | none => rfl
  have one : ∀ w : Str, (stripPrefix w s).bind tail = some n ↔ RunName w n s := by
    intro w
    rw [Option.bind_eq_some_iff]
    constructor
    · rintro ⟨r, hr, h⟩
      rw [stripPrefix_some] at hr
      obtain ⟨ds, rest, rfl, h'⟩ := (tail_iff r n).mp h
      exact ⟨ds, rest, by rw [hr]; simp only [List.append_assoc], h'⟩
    · rintro ⟨ds, rest, e, h⟩
      refine ⟨_, (stripPrefix_some _ _ _).mpr (by rw [e]; simp only [List.append_assoc]; rfl), (tail_iff _ n).mpr ⟨ds, rest, ?_, h⟩⟩
      simp only [List.append_assoc]
  have excl : RunName "pess".toList n s → (stripPrefix "optm".toList s).bind tail = none := by
    rintro ⟨ds, rest, e, -⟩
    rw [e]
    rfl
  rw [hm]
  constructor
  · intro h
    cases ho : (stripPrefix "optm".toList s).bind tail with
    | some x =>
      rw [ho] at h
      cases h
      exact Or.inl ((one _).mp ho)
    | none =>
      rw [ho] at h
      exact Or.inr ((one _).mp h)
  · rintro (h | h)
    · rw [(one _).mpr h]; rfl
    · rw [excl h]; exact (one _).mpr h

theorem select_iff (flag : Bool) (e : Entry) (n : Nat) : select flag e = some n ↔ IsRun flag n e := by
  unfold select IsRun
  rw [← matchRun_iff, ← Compare.contains_iff]
  show (if e.dir && (Compare.contains "gcph_minus_gcsp".toList e.name == flag) then _ else _) = _ ↔ _
  cases e.dir <;> cases Compare.contains "gcph_minus_gcsp".toList e.name <;> cases flag <;> simp

/-! ### The runs of a scenario -/

theorem loop_lookup (flag : Bool) (es : List Entry) (d : Dict Nat Str) (n : Nat) (name : Str) :
    (loop flag d es).lookup n = some name ↔
      (∃ l1 e l2, es = l1 ++ e :: l2 ∧ IsRun flag n e ∧ e.name = name ∧ ∀ x ∈ l2, ¬ IsRun flag n x) ∨
      ((∀ x ∈ es, ¬ IsRun flag n x) ∧ d.lookup n = some name) := by
  induction es generalizing d with
  | nil =>
    show d.lookup n = some name ↔ _
    constructor
    · exact fun h => Or.inr ⟨nofun, h⟩
    · rintro (⟨l1, e, l2, h, -⟩ | ⟨-, h⟩)
      · cases l1 <;> cases h
      · exact h
  | cons e es ih =>
    have shift : (∃ l1 x l2, e :: es = l1 ++ x :: l2 ∧ IsRun flag n x ∧ x.name = name ∧ ∀ y ∈ l2, ¬ IsRun flag n y) ↔
        (∃ l1 x l2, es = l1 ++ x :: l2 ∧ IsRun flag n x ∧ x.name = name ∧ ∀ y ∈ l2, ¬ IsRun flag n y) ∨
          (IsRun flag n e ∧ e.name = name ∧ ∀ y ∈ es, ¬ IsRun flag n y) := by
      constructor
      · rintro ⟨l1, x, l2, h, hx, hn, hl⟩
        cases l1 with
        | nil => cases h; exact Or.inr ⟨hx, hn, hl⟩
        | cons a l1 => cases h; exact Or.inl ⟨l1, x, l2, rfl, hx, hn, hl⟩
      · rintro (⟨l1, x, l2, rfl, h⟩ | ⟨h1, h2, h3⟩)
        · exact ⟨e :: l1, x, l2, rfl, h⟩
        · exact ⟨[], e, es, rfl, h1, h2, h3⟩
    rw [shift]
    unfold loop
    cases hs : select flag e with
    | none =>
      have hne : ¬ IsRun flag n e := fun h => by rw [(select_iff flag e n).mpr h] at hs; cases hs
      dsimp only
      rw [ih d]
      constructor
      · rintro (h | ⟨h1, h2⟩)
        · exact Or.inl (Or.inl h)
        · exact Or.inr ⟨fun x hx => (List.mem_cons.mp hx).elim (fun e => e ▸ hne) (h1 x), h2⟩
      · rintro ((h | ⟨h, -⟩) | ⟨h1, h2⟩)
        · exact Or.inl h
        · exact absurd h hne
        · exact Or.inr ⟨fun x hx => h1 x (List.mem_cons_of_mem _ hx), h2⟩
    | some m =>
      have hm := (select_iff flag e m).mp hs
      dsimp only
      rw [ih, PyDict.lookup_set]
      by_cases hmn : n = m
      · subst hmn
        rw [if_pos rfl]
        constructor
        · rintro (h | ⟨h1, h2⟩)
          · exact Or.inl (Or.inl h)
          · cases h2; exact Or.inl (Or.inr ⟨hm, rfl, h1⟩)
        · rintro ((h | ⟨-, rfl, h⟩) | ⟨h1, -⟩)
          · exact Or.inl h
          · exact Or.inr ⟨h, rfl⟩
          · exact absurd hm (h1 e List.mem_cons_self)
      · rw [if_neg hmn]
        have hne : ¬ IsRun flag n e := fun h => by
          rw [(select_iff flag e n).mpr h] at hs
          cases hs
          exact hmn rfl
        constructor
        · rintro (h | ⟨h1, h2⟩)
          · exact Or.inl (Or.inl h)
          · exact Or.inr ⟨fun x hx => (List.mem_cons.mp hx).elim (fun e => e ▸ hne) (h1 x), h2⟩
        · rintro ((h | ⟨h, -⟩) | ⟨h1, h2⟩)
          · exact Or.inl h
          · exact absurd h hne
          · exact Or.inr ⟨fun x hx => h1 x (List.mem_cons_of_mem _ hx), h2⟩

/-- The directory whose entries are taken: the one given, or that of the scenario below the default one. -/
def Searched (home : Str → Option (List Entry)) (base : Option (Option (List Entry))) (scenario : Str)
    (es : List Entry) : Prop :=
  base = some (some es) ∨ base = none ∧ (scenario = "optm".toList ∧ home "optimistic".toList = some es ∨
    scenario = "pess".toList ∧ home "pessimistic".toList = some es)

theorem load_ok (home : Str → Option (List Entry)) (base : Option (Option (List Entry))) (scenario : Str) (flag : Bool)
    (d : Dict Nat Str) : load home base scenario flag = .ok d ↔ ∃ es, Searched home base scenario es ∧ d = loop flag [] es := by
  unfold Searched
  match base with
  | some none =>
    constructor
    · intro h; cases h
    · rintro ⟨es, h | ⟨h, -⟩, -⟩ <;> cases h
  | some (some es) =>
    constructor
    · intro h; cases h; exact ⟨es, Or.inl rfl, rfl⟩
    · rintro ⟨es', h | ⟨h, -⟩, rfl⟩
      · cases h; rfl
      · cases h
  | none =>
    unfold load homeName
    dsimp only
    by_cases h1 : scenario = "optm".toList
    · rw [if_pos h1]
      dsimp only
      cases hh : home "optimistic".toList with
      | none =>
        constructor
        · intro h; cases h
        · rintro ⟨es, h | ⟨-, ⟨-, h⟩ | ⟨h, -⟩⟩, -⟩
          · cases h
          · cases h
          · rw [h1] at h; exact absurd h (by decide)
      | some es =>
        constructor
        · intro h; cases h; exact ⟨es, Or.inr ⟨rfl, Or.inl ⟨h1, rfl⟩⟩, rfl⟩
        · rintro ⟨es', h | ⟨-, ⟨-, h⟩ | ⟨h, -⟩⟩, rfl⟩
          · cases h
          · cases h; rfl
          · rw [h1] at h; exact absurd h (by decide)
    · rw [if_neg h1]
      by_cases h2 : scenario = "pess".toList
      · rw [if_pos h2]
        dsimp only
        cases hh : home "pessimistic".toList with
        | none =>
          constructor
          · intro h; cases h
          · rintro ⟨es, h | ⟨-, ⟨h, -⟩ | ⟨-, h⟩⟩, -⟩
            · cases h
            · exact absurd h h1
            · cases h
        | some es =>
          constructor
          · intro h; cases h; exact ⟨es, Or.inr ⟨rfl, Or.inr ⟨h2, rfl⟩⟩, rfl⟩
          · rintro ⟨es', h | ⟨-, ⟨h, -⟩ | ⟨-, h⟩⟩, rfl⟩
            · cases h
            · exact absurd h h1
            · cases h; rfl
      · rw [if_neg h2]
        constructor
        · intro h; cases h
        · rintro ⟨es, h | ⟨-, ⟨h, -⟩ | ⟨h, -⟩⟩, -⟩
          · cases h
          · exact absurd h h1
          · exact absurd h h2

/-- For every number of bins, the run loaded is the last one of the directory with that number and of the kind asked for,
and nothing else is loaded. -/
theorem runs_loaded (home : Str → Option (List Entry)) (base : Option (Option (List Entry))) (scenario : Str) (flag : Bool)
    (d : Dict Nat Str) (h : load home base scenario flag = .ok d) : ∃ es, Searched home base scenario es ∧
    ∀ n name, d.lookup n = some name ↔
      ∃ l1 e l2, es = l1 ++ e :: l2 ∧ IsRun flag n e ∧ e.name = name ∧ ∀ x ∈ l2, ¬ IsRun flag n x := by
  obtain ⟨es, hs, rfl⟩ := (load_ok home base scenario flag d).mp h
  refine ⟨es, hs, fun n name => ?_⟩
  rw [loop_lookup]
  exact ⟨fun h => h.elim id (fun h => nomatch h.2), Or.inl⟩

/-- When no two runs of the directory have the same number of bins, the runs loaded are exactly those of the directory,
whatever the order in which it is listed. The claim also has runs with the same number, of which one is lost
(`same_bins`), and runs of the scenario asked for only (`scenario_unused`). -/
theorem all_runs_partial (home : Str → Option (List Entry)) (es : List Entry) (scenario : Str) (flag : Bool)
    (hd : ∀ a ∈ es, ∀ b ∈ es, ∀ n, IsRun flag n a → IsRun flag n b → a.name = b.name) :
    ∃ d, load home (some (some es)) scenario flag = .ok d ∧
      ∀ n name, d.lookup n = some name ↔ ∃ e ∈ es, IsRun flag n e ∧ e.name = name := by
  refine ⟨loop flag [] es, rfl, fun n name => ?_⟩
  rw [loop_lookup]
  constructor
  · rintro (⟨l1, e, l2, rfl, hr, hn, -⟩ | ⟨-, h⟩)
    · exact ⟨e, List.mem_append_right _ List.mem_cons_self, hr, hn⟩
    · cases h
  · rintro ⟨e, he, hr, rfl⟩
    refine Or.inl ?_
    have : ∀ l : List Entry, (∃ x ∈ l, IsRun flag n x) →
        ∃ l1 x l2, l = l1 ++ x :: l2 ∧ IsRun flag n x ∧ ∀ y ∈ l2, ¬ IsRun flag n y := by
      intro l
      induction l with
      | nil => rintro ⟨x, hx, -⟩; cases hx
      | cons a l ih =>
        intro h
        by_cases hl : ∃ x ∈ l, IsRun flag n x
        · obtain ⟨l1, x, l2, rfl, h'⟩ := ih hl
          exact ⟨a :: l1, x, l2, rfl, h'⟩
        · obtain ⟨x, hx, hr⟩ := h
          rcases List.mem_cons.mp hx with rfl | hx
          · exact ⟨[], x, l, rfl, hr, fun y hy hy' => hl ⟨y, hy, hy'⟩⟩
          · exact absurd ⟨x, hx, hr⟩ hl
    obtain ⟨l1, x, l2, hes, hx, hl⟩ := this es ⟨e, he, hr⟩
    exact ⟨l1, x, l2, hes, hx, hd x (by rw [hes]; exact List.mem_append_right _ List.mem_cons_self) e he n hx hr, hl⟩

/-- A run is of exactly one of the two kinds. -/
theorem one_kind (e : Entry) (n : Nat) (h : e.dir = true)
    (hn : RunName "optm".toList n e.name ∨ RunName "pess".toList n e.name) : ¬ (IsRun true n e ↔ IsRun false n e) := by
  unfold IsRun
  by_cases hc : "gcph_minus_gcsp".toList <:+: e.name
  · intro hi
    exact absurd (hi.mp ⟨h, hn, by simp only [hc]⟩).2.2 (fun x => by have := x.mpr hc; cases this)
  · intro hi
    have := (hi.mpr ⟨h, hn, ⟨nofun, fun x => absurd x hc⟩⟩).2.2.mp rfl
    exact hc this

/-- With a directory given, the scenario asked for has no effect at all. -/
theorem scenario_unused (home home' : Str → Option (List Entry)) (dir : Option (List Entry)) (s s' : Str) (flag : Bool) :
    load home (some dir) s flag = load home' (some dir) s' flag := by
  cases dir <;> rfl

/-- So a pessimistic run is loaded as an optimistic one. -/
theorem scenario_wrong : (load (fun _ => none) (some (some [⟨"pess_4_sp_bins_x".toList, true⟩])) "optm".toList false).toOption =
    some [(4, "pess_4_sp_bins_x".toList)] := by decide +kernel

/-- Of two runs with the same number of bins, one is lost, and which one depends on the order of the directory. -/
theorem same_bins (home : Str → Option (List Entry)) (s : Str) :
    ∃ a b : Entry, IsRun false 4 a ∧ IsRun false 4 b ∧ a.name ≠ b.name ∧
      (∃ d, load home (some (some [a, b])) s false = .ok d ∧ d = [(4, b.name)]) ∧
      ∃ d, load home (some (some [b, a])) s false = .ok d ∧ d = [(4, a.name)] := by
  refine ⟨⟨"optm_4_sp_bins_a".toList, true⟩, ⟨"optm_04_sp_bins_b".toList, true⟩, (select_iff _ _ _).mp (by decide +kernel),
    (select_iff _ _ _).mp (by decide +kernel), by decide, ⟨_, rfl, by decide +kernel⟩, _, rfl, by decide +kernel⟩

/-- Every run of the dictionary is loaded, in the same order, and the first that cannot be ends the loading. -/
theorem analyses_ok {A E : Type} (f : Str → Except E A) (l : List (Nat × Str)) (d : Dict Nat A) :
    analyses f l = .ok d ↔ d.map (·.1) = l.map (·.1) ∧
      d.map (fun x => Except.ok (ε := E) x.2) = l.map (fun x => f x.2) := by
  induction l generalizing d with
  | nil =>
    constructor
    · intro h; cases h; exact ⟨rfl, rfl⟩
    · rintro ⟨h, -⟩
      rw [List.map_nil, List.map_eq_nil_iff] at h
      rw [h]; rfl
  | cons p l ih =>
    obtain ⟨n, s⟩ := p
    unfold analyses
    cases hf : f s with
    | error e =>
      constructor
      · intro h; cases h
      · rintro ⟨-, h⟩
        cases d with
        | nil => cases h
        | cons x d =>
          rw [List.map_cons, List.map_cons, hf] at h
          injection h with h1 _
          cases h1
    | ok a =>
      dsimp only
      cases hl : analyses f l with
      | error e =>
        constructor
        · intro h; cases h
        · rintro ⟨h1, h2⟩
          cases d with
          | nil => cases h1
          | cons x d =>
            rw [List.map_cons, List.map_cons] at h1 h2
            injection h1 with _ h1
            injection h2 with _ h2
            rw [(ih d).mpr ⟨h1, h2⟩] at hl
            cases hl
      | ok d' =>
        obtain ⟨e1, e2⟩ := (ih d').mp hl
        constructor
        · intro h
          cases h
          rw [List.map_cons, List.map_cons, List.map_cons, List.map_cons, e1, e2, hf]
          exact ⟨rfl, rfl⟩
        · rintro ⟨h1, h2⟩
          cases d with
          | nil => cases h1
          | cons x d =>
            rw [List.map_cons, List.map_cons] at h1 h2
            injection h1 with g1 h1
            injection h2 with g2 h2
            have := (ih d).mpr ⟨h1, h2⟩
            rw [hl] at this
            injection this with this
            rw [this]
            rw [hf] at g2
            injection g2 with g2
            obtain ⟨x1, x2⟩ := x
            dsimp only at g1 g2
            rw [g1, g2]

example : IsRun true 12 ⟨"optm_12_sp_bins_gcph_minus_gcsp".toList, true⟩ ∧ IsRun false 12 ⟨"pess_012_sp_bins_".toList, true⟩ ∧
    ¬ IsRun false 12 ⟨"optm_12_sp_bins".toList, true⟩ := by
  refine ⟨(select_iff _ _ _).mp (by decide +kernel), (select_iff _ _ _).mp (by decide +kernel), fun h => ?_⟩
  have := (select_iff _ _ _).mpr h
  revert this
  decide +kernel

end Seyfert.Scen
