import Verif.Model.ResultsWrite

/-!
C161: the results of `FisherResultsCollector` in a directory.
-/

namespace Seyfert.ResWrite

variable {C : Type}

/-! ### Calls -/

/-- The file of a call. -/
def Act.path : Act C → Path
  | .table p _ | .matrix p _ | .correlation p _ => p

theorem put_same (d : Disk C) (p : Path) (c : C) : put d p c p = some c := if_pos rfl

theorem put_ne (d : Disk C) {p q : Path} (c : C) (h : q ≠ p) : put d p c q = d q := if_neg h

theorem exec_other {d d' : Disk C} {a : Act C} (h : exec d a = some d') {q : Path} (hq : q ≠ a.path) : d' q = d q := by
  cases a with
  | table p c =>
    obtain rfl := Option.some.inj h
    by_cases hs : (d p).isSome = true
    · exact congrFun (if_pos hs) q
    · exact (congrFun (if_neg hs) q).trans (put_ne d c hq)
  | matrix p c =>
    by_cases hs : (d p).isSome = true
    · rw [show exec d (.matrix p c) = none from if_pos hs] at h; cases h
    · rw [show exec d (.matrix p c) = some (put d p c) from if_neg hs] at h
      obtain rfl := Option.some.inj h
      exact put_ne d c hq
  | correlation p c =>
    obtain rfl := Option.some.inj h
    exact put_ne d c hq

theorem run_cons (d : Disk C) (a : Act C) (as : List (Act C)) :
    (exec d a = none ∧ run d (a :: as) = (d, false)) ∨ ∃ d', exec d a = some d' ∧ run d (a :: as) = run d' as := by
  cases h : exec d a with
  | none => exact .inl ⟨rfl, by unfold run; rw [h]⟩
  | some d' => exact .inr ⟨d', rfl, by rw [run, h]⟩

theorem run_other (as : List (Act C)) : ∀ (d : Disk C) {q : Path}, (∀ a ∈ as, q ≠ a.path) → (run d as).1 q = d q := by
  induction as with
  | nil => intro d q _; rfl
  | cons a as ih =>
    intro d q h
    rcases run_cons d a as with ⟨-, hr⟩ | ⟨d', he, hr⟩
    · rw [hr]
    · rw [hr, ih d' fun b hb => h b (.tail _ hb), exec_other he (h a (.head _))]

theorem run_append (as bs : List (Act C)) : ∀ d : Disk C,
    run d (as ++ bs) = if (run d as).2 then run (run d as).1 bs else run d as := by
  induction as with
  | nil => intro d; rfl
  | cons a as ih =>
    intro d
    rw [List.cons_append]
    cases h : exec d a with
    | none => rw [run, h, run, h]; rfl
    | some d' => rw [run, h, run, h]; exact ih d'

/-- A list of calls with different files: it ends exactly if none of its matrices is there. -/
theorem run_ok (as : List (Act C)) : ∀ d : Disk C, (as.map Act.path).Nodup →
    ((run d as).2 = true ↔ ∀ p c, Act.matrix p c ∈ as → d p = none) := by
  induction as with
  | nil => intro d _; exact ⟨fun _ p c h => (by cases h), fun _ => rfl⟩
  | cons a as ih =>
    intro d hn
    rw [List.map_cons, List.nodup_cons] at hn
    rcases run_cons d a as with ⟨he, hr⟩ | ⟨d', he, hr⟩
    · rw [hr]
      refine ⟨nofun, fun h => ?_⟩
      cases a with
      | table p c => cases he
      | correlation p c => cases he
      | matrix p c =>
        have := h p c (.head _)
        have he : (if (d p).isSome = true then none else some (put d p c)) = none := he
        rw [this] at he
        cases he
    · rw [hr, ih d' hn.2]
      have hsame : ∀ p c, Act.matrix p c ∈ as → d' p = d p := by
        intro p c hm
        refine exec_other he fun e => hn.1 ?_
        rw [← e]
        exact List.mem_map.mpr ⟨_, hm, rfl⟩
      constructor
      · intro h p c hm
        rcases List.mem_cons.mp hm with e | hm
        · subst e
          by_cases hs : (d p).isSome = true
          · rw [show exec d (.matrix p c) = none from if_pos hs] at he; cases he
          · cases hd : d p with
            | none => rfl
            | some x => rw [hd] at hs; exact absurd rfl hs
        · rw [← hsame p c hm]; exact h p c hm
      · intro h p c hm
        rw [hsame p c hm]
        exact h p c (.tail _ hm)

/-- What a list of calls with different files leaves in its files. -/
theorem run_val (as : List (Act C)) : ∀ d : Disk C, (as.map Act.path).Nodup → (run d as).2 = true →
    (∀ p c, Act.table p c ∈ as → (run d as).1 p = some ((d p).getD c)) ∧
    (∀ p c, Act.matrix p c ∈ as → (run d as).1 p = some c) ∧
    ∀ p c, Act.correlation p c ∈ as → (run d as).1 p = some c := by
  induction as with
  | nil => intro d _ _; exact ⟨fun p c h => (by cases h), fun p c h => (by cases h), fun p c h => (by cases h)⟩
  | cons a as ih =>
    intro d hn hok
    rw [List.map_cons, List.nodup_cons] at hn
    rcases run_cons d a as with ⟨-, hr⟩ | ⟨d', he, hr⟩
    · rw [hr] at hok; cases hok
    · rw [hr] at hok ⊢
      obtain ⟨h1, h2, h3⟩ := ih d' hn.2 hok
      have hsame : ∀ b ∈ as, d' b.path = d b.path := fun b hb =>
        exec_other he fun e => hn.1 (by rw [← e]; exact List.mem_map.mpr ⟨_, hb, rfl⟩)
      have hfirst : (run d' as).1 a.path = d' a.path :=
        run_other as d' fun b hb e => hn.1 (by rw [e]; exact List.mem_map.mpr ⟨_, hb, rfl⟩)
      refine ⟨fun p c hm => ?_, fun p c hm => ?_, fun p c hm => ?_⟩
      · rcases List.mem_cons.mp hm with e | hm
        · subst e
          refine (hfirst : (run d' as).1 p = d' p).trans ?_
          obtain rfl := Option.some.inj he
          cases hd : d p with
          | none => exact (congrFun (if_neg (by nofun)) p).trans (put_same d p c)
          | some x => exact (congrFun (if_pos rfl) p).trans hd
        · have hs : d' p = d p := hsame _ hm
          rw [h1 p c hm, hs]
      · rcases List.mem_cons.mp hm with e | hm
        · subst e
          refine (hfirst : (run d' as).1 p = d' p).trans ?_
          by_cases hs : (d p).isSome = true
          · rw [show exec d (.matrix p c) = none from if_pos hs] at he; cases he
          · rw [show exec d (.matrix p c) = some (put d p c) from if_neg hs] at he
            obtain rfl := Option.some.inj he
            exact put_same d p c
        · exact h2 p c hm
      · rcases List.mem_cons.mp hm with e | hm
        · subst e
          refine (hfirst : (run d' as).1 p = d' p).trans ?_
          obtain rfl := Option.some.inj he
          exact put_same d p c
        · exact h3 p c hm

/-! ### The files of a start are different -/

theorem errorFiles_nodup (an : Str) : (Compare.errorFiles an).Nodup := by
  unfold Compare.errorFiles
  have hs : ".xlsx".toList ≠ ".csv".toList := by decide +kernel
  have hne : ∀ {pre : Str}, pre ++ an ++ ".xlsx".toList ≠ pre ++ an ++ ".csv".toList := fun h => hs (List.append_cancel_left h)
  have hh : ∀ {x y : Str}, "marginalized_errors_".toList ++ an ++ x ≠ "relative_marginalized_errors_".toList ++ an ++ y := by
    intro x y h
    have := congrArg List.head? h
    rw [List.append_assoc, List.append_assoc] at this
    exact absurd (Option.some.inj (this : some 'm' = some 'r')) (by decide)
  refine List.nodup_cons.mpr ⟨?_, List.nodup_cons.mpr ⟨?_, List.nodup_cons.mpr ⟨?_, List.nodup_singleton _⟩⟩⟩
  · intro h
    rcases List.mem_cons.mp h with h | h
    · exact hne h
    · rcases List.mem_cons.mp h with h | h
      · exact hh h
      · exact hh (List.mem_singleton.mp h)
  · intro h
    rcases List.mem_cons.mp h with h | h
    · exact hh h
    · exact hh (List.mem_singleton.mp h)
  · exact fun h => hne (List.mem_singleton.mp h)

theorem corrFile_inj (an : Str) {a b : Str} (h : Compare.corrFile an a = Compare.corrFile an b) : a = b :=
  List.append_cancel_left (List.append_cancel_right h)

theorem cosmoActs_path (an : Str) (c : Cosmo C) : (cosmoActs an c).map Act.path =
    (Compare.errorFiles an).map (fun f => (c.name, Sub.errors, f)) ++
      (c.mats.map (fun m => (c.name, Sub.fishers, Fisher.fileName m.name)) ++
        c.mats.map (fun m => (c.name, Sub.correlations, Compare.corrFile an m.name))) := by
  unfold cosmoActs
  rw [List.map_append, List.map_append, List.map_map, List.map_map, List.map_map]
  rfl

theorem cosmoActs_nodup (an : Str) (c : Cosmo C) (hf : (c.mats.map fun m => Fisher.fileName m.name).Nodup) :
    ((cosmoActs an c).map Act.path).Nodup := by
  rw [cosmoActs_path]
  refine List.nodup_append.mpr ⟨?_, List.nodup_append.mpr ⟨?_, ?_, ?_⟩, ?_⟩
  · exact (errorFiles_nodup an).map fun a b h => congrArg (fun p : Path => p.2.2) h
  · have : c.mats.map (fun m => (c.name, Sub.fishers, Fisher.fileName m.name)) =
        (c.mats.map fun m => Fisher.fileName m.name).map (fun f => ((c.name, Sub.fishers, f) : Path)) := by
      rw [List.map_map]; rfl
    rw [this]
    exact hf.map fun a b h => congrArg (fun p : Path => p.2.2) h
  · have hn : (c.mats.map (·.name)).Nodup := by
      have : (c.mats.map fun m => Fisher.fileName m.name) = (c.mats.map (·.name)).map Fisher.fileName := by
        rw [List.map_map]; rfl
      rw [this] at hf
      exact hf.of_map
    have : c.mats.map (fun m => (c.name, Sub.correlations, Compare.corrFile an m.name)) =
        (c.mats.map (·.name)).map (fun f => ((c.name, Sub.correlations, Compare.corrFile an f) : Path)) := by
      rw [List.map_map]; rfl
    rw [this]
    exact hn.map fun a b h => corrFile_inj an (congrArg (fun p : Path => p.2.2) h)
  · intro a ha b hb e
    obtain ⟨m, -, rfl⟩ := List.mem_map.mp ha
    obtain ⟨m', -, rfl⟩ := List.mem_map.mp hb
    cases congrArg (fun p : Path => p.2.1) e
  · intro a ha b hb e
    obtain ⟨m, -, rfl⟩ := List.mem_map.mp ha
    rcases List.mem_append.mp hb with hb | hb
    · obtain ⟨m', -, rfl⟩ := List.mem_map.mp hb
      cases congrArg (fun p : Path => p.2.1) e
    · obtain ⟨m', -, rfl⟩ := List.mem_map.mp hb
      cases congrArg (fun p : Path => p.2.1) e

theorem cosmoActs_name {an : Str} {c : Cosmo C} {a : Act C} (h : a ∈ cosmoActs an c) : a.path.1 = c.name := by
  have : a.path ∈ (cosmoActs an c).map Act.path := List.mem_map.mpr ⟨a, h, rfl⟩
  rw [cosmoActs_path] at this
  rcases List.mem_append.mp this with hb | hb
  · obtain ⟨m', -, e⟩ := List.mem_map.mp hb
    rw [← e]
  rcases List.mem_append.mp hb with hb | hb <;>
  · obtain ⟨m', -, e⟩ := List.mem_map.mp hb
    rw [← e]

/-- Different cosmologies, and in each of them different names of the files of matrices. -/
def Apart (cs : List (Cosmo C)) : Prop :=
  (cs.map (·.name)).Nodup ∧ ∀ c ∈ cs, (c.mats.map fun m => Fisher.fileName m.name).Nodup

theorem acts_nodup (an : Str) {cs : List (Cosmo C)} (h : Apart cs) : ((acts an cs).map Act.path).Nodup := by
  induction cs with
  | nil => exact List.nodup_nil
  | cons c cs ih =>
    obtain ⟨hn, hf⟩ := h
    rw [List.map_cons, List.nodup_cons] at hn
    have he : acts an (c :: cs) = cosmoActs an c ++ acts an cs := List.flatMap_cons
    rw [he, List.map_append]
    refine List.nodup_append.mpr ⟨cosmoActs_nodup an c (hf c (.head _)), ih ⟨hn.2, fun x hx => hf x (.tail _ hx)⟩, ?_⟩
    intro a ha b hb e
    obtain ⟨x, hx, rfl⟩ := List.mem_map.mp ha
    obtain ⟨y, hy, rfl⟩ := List.mem_map.mp hb
    obtain ⟨c', hc', hy⟩ := List.mem_flatMap.mp hy
    have := congrArg (fun p : Path => p.1) e
    have h2 : c.name = c'.name := by
      rw [← cosmoActs_name hx, ← cosmoActs_name hy]; exact this
    exact hn.1 (by rw [h2]; exact List.mem_map.mpr ⟨c', hc', rfl⟩)

theorem matrix_mem {an : Str} {cs : List (Cosmo C)} {c : Cosmo C} (hc : c ∈ cs) {m : Mat C} (hm : m ∈ c.mats) :
    Act.matrix (c.name, .fishers, Fisher.fileName m.name) m.matrix ∈ acts an cs :=
  List.mem_flatMap.mpr ⟨c, hc, List.mem_append_right _ (List.mem_append_left _ (List.mem_map.mpr ⟨m, hm, rfl⟩))⟩

theorem of_matrix {an : Str} {cs : List (Cosmo C)} {p : Path} {x : C} (h : Act.matrix p x ∈ acts an cs) :
    ∃ c ∈ cs, ∃ m ∈ c.mats, p = (c.name, .fishers, Fisher.fileName m.name) := by
  obtain ⟨c, hc, h⟩ := List.mem_flatMap.mp h
  rcases List.mem_append.mp h with h | h
  · obtain ⟨q, -, e⟩ := List.mem_map.mp h; cases e
  rcases List.mem_append.mp h with h | h
  · obtain ⟨m, hm, e⟩ := List.mem_map.mp h
    cases e
    exact ⟨c, hc, m, hm, rfl⟩
  · obtain ⟨q, -, e⟩ := List.mem_map.mp h; cases e

/-! ### Writing results -/

/-- C161. Writing comes to its end exactly if no file of one of its matrices is in the directory; tables and correlations may be. -/
theorem write_ends_iff (an : Str) {cs : List (Cosmo C)} (h : Apart cs) (d : Disk C) :
    (write an cs d).2 = true ↔ ∀ c ∈ cs, ∀ m ∈ c.mats, d (c.name, .fishers, Fisher.fileName m.name) = none := by
  refine (run_ok _ d (acts_nodup an h)).trans ⟨fun H c hc m hm => H _ _ (matrix_mem hc hm), fun H p x hp => ?_⟩
  obtain ⟨c, hc, m, hm, rfl⟩ := of_matrix hp
  exact H c hc m hm

/-- C161 (partial). After a writing that came to its end the directory holds the matrices and correlations of all cosmologies, and the
tables of errors where there was no table before; other files are as they were. Missing: tables that were there before are kept, see
`mixed`. -/
theorem written_partial (an : Str) {cs : List (Cosmo C)} (h : Apart cs) {d : Disk C} (hok : (write an cs d).2 = true) :
    (∀ c ∈ cs, (∀ m ∈ c.mats,
        (write an cs d).1 (c.name, .fishers, Fisher.fileName m.name) = some m.matrix ∧
        (write an cs d).1 (c.name, .correlations, an ++ "_correlation_".toList ++ m.name ++ ".csv".toList) = some m.correlation) ∧
      ∀ ext ∈ [".xlsx".toList, ".csv".toList],
        (write an cs d).1 (c.name, .errors, "marginalized_errors_".toList ++ an ++ ext) =
          some ((d (c.name, .errors, "marginalized_errors_".toList ++ an ++ ext)).getD c.marg) ∧
        (write an cs d).1 (c.name, .errors, "relative_marginalized_errors_".toList ++ an ++ ext) =
          some ((d (c.name, .errors, "relative_marginalized_errors_".toList ++ an ++ ext)).getD c.rel)) ∧
    ∀ q : Path, (∀ c ∈ cs, c.name ≠ q.1) → (write an cs d).1 q = d q := by
  obtain ⟨h1, h2, h3⟩ := run_val _ d (acts_nodup an h) hok
  refine ⟨fun c hc => ⟨fun m hm => ⟨h2 _ _ (matrix_mem hc hm), h3 _ _ ?_⟩, ?_⟩, fun q hq => ?_⟩
  · exact List.mem_flatMap.mpr ⟨c, hc, List.mem_append_right _ (List.mem_append_right _ (List.mem_map.mpr ⟨m, hm, rfl⟩))⟩
  · have ht : ∀ q ∈ (Compare.errorFiles an).zip [c.marg, c.marg, c.rel, c.rel],
        Act.table (c.name, .errors, q.1) q.2 ∈ acts an cs := fun q hq =>
      List.mem_flatMap.mpr ⟨c, hc, List.mem_append_left _ (List.mem_map.mpr ⟨q, hq, rfl⟩)⟩
    intro ext hext
    rcases List.mem_cons.mp hext with rfl | hext
    · exact ⟨h1 _ _ (ht _ (.head _)), h1 _ _ (ht _ (.tail _ (.tail _ (.head _))))⟩
    · obtain rfl := List.mem_singleton.mp hext
      exact ⟨h1 _ _ (ht _ (.tail _ (.head _))), h1 _ _ (ht _ (.tail _ (.tail _ (.tail _ (.head _)))))⟩
  · refine run_other _ d fun a ha e => ?_
    obtain ⟨c, hc, ha⟩ := List.mem_flatMap.mp ha
    exact hq c hc (by rw [e]; exact (cosmoActs_name ha).symm)

/-! ### Histories of starts -/

theorem correlation_sub {an : Str} {cs : List (Cosmo C)} {p : Path} {x : C} (h : Act.correlation p x ∈ acts an cs) :
    p.2.1 = .correlations := by
  obtain ⟨c, hc, h⟩ := List.mem_flatMap.mp h
  rcases List.mem_append.mp h with h | h
  · obtain ⟨q, -, e⟩ := List.mem_map.mp h; cases e
  rcases List.mem_append.mp h with h | h
  · obtain ⟨q, -, e⟩ := List.mem_map.mp h; cases e
  · obtain ⟨m, hm, e⟩ := List.mem_map.mp h
    cases e
    rfl

theorem run_keeps (as : List (Act C)) (hc : ∀ p x, Act.correlation p x ∈ as → p.2.1 = .correlations) {p : Path} {x : C}
    (hp : p.2.1 ≠ .correlations) : ∀ d : Disk C, d p = some x → (run d as).1 p = some x := by
  induction as with
  | nil => intro d h; exact h
  | cons a as ih =>
    intro d h
    rcases run_cons d a as with ⟨-, hr⟩ | ⟨d', he, hr⟩
    · rw [hr]; exact h
    · rw [hr]
      refine ih (fun p x hm => hc p x (.tail _ hm)) d' ?_
      by_cases hq : p = a.path
      · cases a with
        | table q c =>
          obtain rfl := Option.some.inj he
          obtain rfl : p = q := hq
          exact (congrFun (if_pos (by rw [h]; rfl)) p).trans h
        | matrix q c =>
          obtain rfl : p = q := hq
          rw [show exec d (.matrix p c) = none from if_pos (by rw [h]; rfl)] at he
          cases he
        | correlation q c =>
          obtain rfl : p = q := hq
          exact absurd (hc _ _ (.head _)) hp
      · rw [exec_other he hq]; exact h

/-- C161. Tables of errors and matrices which are in the directory stay what they are, whatever results are written into it later and
wherever these starts are stopped. -/
theorem kept (l : List (Start C)) {d : Disk C} {p : Path} {x : C} (hp : p.2.1 ≠ .correlations) (h : d p = some x) :
    history d l p = some x := by
  induction l generalizing d with
  | nil => exact h
  | cons s l ih =>
    exact ih (run_keeps _ (fun p x hm => correlation_sub (List.mem_of_mem_take hm)) hp d h)

/-- The calls before and after those for a cosmology. -/
theorem acts_split (an : Str) (as bs : List (Cosmo C)) (c : Cosmo C) :
    acts an (as ++ c :: bs) = acts an as ++ (cosmoActs an c ++ acts an bs) := by
  unfold acts
  rw [List.flatMap_append, List.flatMap_cons]

theorem run_fails {as : List (Act C)} {p : Path} {x : C} (h : Act.matrix p x ∈ as)
    (hc : ∀ p x, Act.correlation p x ∈ as → p.2.1 = .correlations) (hp : p.2.1 ≠ .correlations) :
    ∀ d : Disk C, (d p).isSome → (run d as).2 = false := by
  induction as with
  | nil => cases h
  | cons a as ih =>
    intro d hd
    rcases run_cons d a as with ⟨-, hr⟩ | ⟨d', he, hr⟩
    · rw [hr]
    · rw [hr]
      rcases List.mem_cons.mp h with e | hm
      · subst e
        rw [show exec d (.matrix p x) = none from if_pos hd] at he
        cases he
      · refine ih hm (fun p x hm => hc p x (.tail _ hm)) d' ?_
        obtain ⟨y, hy⟩ := Option.isSome_iff_exists.mp hd
        have := run_keeps [a] (fun p x hm => hc p x (by
          rcases List.mem_cons.mp hm with e | hm
          · rw [e]; exact .head _
          · cases hm)) hp d hy
        rw [run, he] at this
        exact Option.isSome_iff_exists.mpr ⟨y, this⟩

theorem run_take_one (as : List (Act C)) (n : Nat) (d : Disk C) (q : Path) (bs : List (Act C)) (hq : ∀ a ∈ as, q ≠ a.path)
    (hf : ∀ d', (run d as) = (d', true) → False) : (run d ((as ++ bs).take n)).1 q = d q := by
  by_cases hn : n ≤ as.length
  · rw [List.take_append_of_le_length hn]
    exact run_other _ d fun a ha => hq a (List.mem_of_mem_take ha)
  · rw [List.take_append, List.take_of_length_le (by omega), run_append]
    have : (run d as).2 = false := by
      cases h : (run d as).2 with
      | false => rfl
      | true => exact (hf (run d as).1 (Prod.ext rfl h)).elim
    rw [this]
    exact run_other as d hq

/-- C161. A directory which holds a matrix of a cosmology is never completed: whatever is written into it later, with results which
have a matrix of this name for this cosmology, the correlations of the cosmology stay as they are, and so they are never written if a
start was stopped before them. -/
theorem stuck {k f : Str} (l : List (Start C)) (hl : ∀ s ∈ l, (s.cs.map (·.name)).Nodup ∧
      ∃ c ∈ s.cs, c.name = k ∧ ∃ m ∈ c.mats, Fisher.fileName m.name = f)
    {d : Disk C} (hd : (d (k, .fishers, f)).isSome) (g : Str) :
    history d l (k, .correlations, g) = d (k, .correlations, g) := by
  induction l generalizing d with
  | nil => rfl
  | cons s l ih =>
    obtain ⟨x, hx⟩ := Option.isSome_iff_exists.mp hd
    have hk : (start d s) (k, .fishers, f) = some x := kept [s] (by nofun) hx
    refine (ih (fun t ht => hl t (.tail _ ht)) (d := start d s) (by rw [hk]; rfl)).trans ?_
    obtain ⟨hn, c, hc, rfl, m, hm, rfl⟩ := hl s (.head _)
    obtain ⟨as, bs, e⟩ := List.append_of_mem hc
    rw [e, List.map_append, List.map_cons] at hn
    have hnot : ∀ c' ∈ as, c'.name ≠ c.name := fun c' hc' h =>
      (List.nodup_append.mp hn).2.2 _ (List.mem_map.mpr ⟨c', hc', rfl⟩) _ (.head _) h
    have hacts : acts s.an s.cs = (acts s.an as ++
        (((Compare.errorFiles s.an).zip [c.marg, c.marg, c.rel, c.rel]).map (fun q => Act.table (c.name, .errors, q.1) q.2) ++
          c.mats.map (fun m => Act.matrix (c.name, .fishers, Fisher.fileName m.name) m.matrix))) ++
        (c.mats.map (fun m => Act.correlation (c.name, .correlations, Compare.corrFile s.an m.name) m.correlation) ++
          acts s.an bs) := by
      rw [e, acts_split]
      unfold cosmoActs
      simp only [List.append_assoc]
    unfold start
    rw [hacts]
    refine run_take_one _ _ d _ _ ?_ ?_
    · intro a ha e
      rcases List.mem_append.mp ha with ha | ha
      · obtain ⟨c', hc', ha⟩ := List.mem_flatMap.mp ha
        exact hnot c' hc' ((cosmoActs_name ha).symm.trans (congrArg (fun p : Path => p.1) e).symm)
      · rcases List.mem_append.mp ha with ha | ha <;>
        · obtain ⟨y, -, rfl⟩ := List.mem_map.mp ha
          cases congrArg (fun p : Path => p.2.1) e
    · intro d' hr
      have hfail := run_fails (as := acts s.an as ++
        (((Compare.errorFiles s.an).zip [c.marg, c.marg, c.rel, c.rel]).map (fun q => Act.table (c.name, .errors, q.1) q.2) ++
          c.mats.map (fun m => Act.matrix (c.name, .fishers, Fisher.fileName m.name) m.matrix)))
        (p := (c.name, .fishers, Fisher.fileName m.name)) (x := m.matrix)
        (List.mem_append_right _ (List.mem_append_right _ (List.mem_map.mpr ⟨m, hm, rfl⟩)))
        (fun p x h => by
          refine correlation_sub (an := s.an) (cs := s.cs) (p := p) (x := x) ?_
          rw [hacts]
          exact List.mem_append_left _ h) (by nofun) d (by rw [hx]; rfl)
      rw [hr] at hfail
      cases hfail

/-- C161. A start that is stopped after its tables and a second one with other results: the second comes to its end, and the directory
then holds the errors of the first and the matrices and correlations of the second. -/
theorem mixed (an : Str) (c₁ c₂ : Cosmo C) (hn : c₁.name = c₂.name)
    (hf : (c₂.mats.map fun m => Fisher.fileName m.name).Nodup) :
    (write an [c₂] (start (fun _ => none) ⟨an, [c₁], 4⟩)).2 = true ∧
    (∀ m ∈ c₂.mats, (write an [c₂] (start (fun _ => none) ⟨an, [c₁], 4⟩)).1
      (c₂.name, .fishers, Fisher.fileName m.name) = some m.matrix) ∧
    (write an [c₂] (start (fun _ => none) ⟨an, [c₁], 4⟩)).1
      (c₂.name, .errors, "marginalized_errors_".toList ++ an ++ ".csv".toList) = some c₁.marg := by
  have hap : Apart [c₂] := ⟨List.nodup_singleton _, fun c hc => by rw [List.mem_singleton.mp hc]; exact hf⟩
  have hd : start (fun _ => none) ⟨an, [c₁], 4⟩ = (run (fun _ => none)
      (((Compare.errorFiles an).zip [c₁.marg, c₁.marg, c₁.rel, c₁.rel]).map
        (fun q => Act.table (c₁.name, .errors, q.1) q.2))).1 := rfl
  have hnd : ((((Compare.errorFiles an).zip [c₁.marg, c₁.marg, c₁.rel, c₁.rel]).map
        (fun q => Act.table (c₁.name, .errors, q.1) q.2)).map Act.path).Nodup :=
    (errorFiles_nodup an).map (f := fun f => ((c₁.name, Sub.errors, f) : Path)) fun a b h =>
      congrArg (fun p : Path => p.2.2) h
  have hok := (write_ends_iff an hap (start (fun _ => none) ⟨an, [c₁], 4⟩)).mpr (by
    intro c _ m _
    rw [hd]
    refine run_other _ _ fun a ha e => ?_
    obtain ⟨y, -, rfl⟩ := List.mem_map.mp ha
    cases congrArg (fun p : Path => p.2.1) e)
  have hw := (written_partial an hap hok).1 c₂ (.head _)
  refine ⟨hok, fun m hm => (hw.1 m hm).1, ((hw.2 ".csv".toList (.tail _ (.head _))).1).trans ?_⟩
  have h1 : start (fun _ => none) ⟨an, [c₁], 4⟩ (c₂.name, .errors, "marginalized_errors_".toList ++ an ++ ".csv".toList) =
      some c₁.marg := by
    rw [hd, ← hn]
    exact (run_val _ _ hnd ((run_ok _ _ hnd).mpr fun p c h => by
      obtain ⟨y, -, e⟩ := List.mem_map.mp h; cases e)).1 _ _ (.tail _ (.head _))
  rw [h1]
  rfl

/-! ### A concrete case -/

/-- Results of one cosmology with two matrices. -/
def exCosmo (n : Nat) : Cosmo Nat :=
  ⟨"w0_wa_CDM".toList, n, n + 1, [⟨"WL".toList, n + 2, n + 3⟩, ⟨"GCph".toList, n + 4, n + 5⟩]⟩

theorem exApart (n : Nat) : Apart [exCosmo n] :=
  ⟨List.nodup_singleton _, fun c hc => by
    rw [List.mem_singleton.mp hc]
    exact (by decide +kernel : ["fisher_WL.hdf5".toList, "fisher_GCph.hdf5".toList].Nodup)⟩

/-- Into an empty directory. -/
example : (write "a".toList [exCosmo 10] fun _ => none).1 ("w0_wa_CDM".toList, .fishers, "fisher_GCph.hdf5".toList) = some 14 :=
  (((written_partial _ (exApart 10) ((write_ends_iff _ (exApart 10) _).mpr fun _ _ _ _ => rfl)).1 _ (.head _)).1 _
    (.tail _ (.head _))).1

/-- The errors of the first start with the matrices of the second. -/
example : (write "a".toList [exCosmo 20] (start (fun _ => none) ⟨"a".toList, [exCosmo 10], 4⟩)).1
    ("w0_wa_CDM".toList, .errors, "marginalized_errors_a.csv".toList) = some 10 :=
  (mixed "a".toList (exCosmo 10) (exCosmo 20) rfl ((exApart 20).2 _ (.head _))).2.2

/-- Stopped after the first matrix, the correlations are not there after two more starts. -/
example : history (start (fun _ => none) ⟨"a".toList, [exCosmo 10], 5⟩)
    [⟨"a".toList, [exCosmo 10], 100⟩, ⟨"b".toList, [exCosmo 20], 100⟩]
    ("w0_wa_CDM".toList, .correlations, "a_correlation_WL.csv".toList) = none := by
  refine (stuck (k := "w0_wa_CDM".toList) (f := "fisher_WL.hdf5".toList) _ ?_ (by decide +kernel) _).trans (by decide +kernel)
  intro s hs
  rcases List.mem_cons.mp hs with rfl | hs
  · exact ⟨List.nodup_singleton _, _, .head _, rfl, _, .head _, by decide +kernel⟩
  · rw [List.mem_singleton.mp hs]
    exact ⟨List.nodup_singleton _, _, .head _, rfl, _, .head _, by decide +kernel⟩

end Seyfert.ResWrite
