import Verif.Spec.Combos
import Verif.Props.Differences
import Verif.Props.FisherTask
import Verif.Lemmas.PyStr
import Mathlib.Algebra.Order.BigOperators.Group.List
import Mathlib.Algebra.BigOperators.Group.Finset.Basic

/-! C153: the combinations of Fisher matrices that are shipped with the program. -/

namespace Seyfert.Combos

open Fisher

/-! ### Reading the list -/

theorem dropWhile_split {α : Type} (p : α → Bool) (l : List α) :
    ∃ a, l = a ++ l.dropWhile p ∧ (∀ c ∈ a, p c = true) ∧ ∀ c, (l.dropWhile p).head? = some c → p c = false := by
  refine ⟨l.takeWhile p, (List.takeWhile_append_dropWhile).symm, fun c hc => ?_, ?_⟩
  · exact List.all_eq_true.mp List.all_takeWhile c hc
  intro c hc
  induction l with
  | nil => simp at hc
  | cons x l ih =>
    rw [List.dropWhile_cons] at hc
    split at hc
    · exact ih hc
    · rename_i h
      simp only [List.head?_cons, Option.some.injEq] at hc
      subst hc
      simpa using h

theorem strip_trimmed (line : Str) : Trimmed line (Boltzmann.strip line) := by
  unfold Boltzmann.strip
  obtain ⟨a, h1, h2, h3⟩ := dropWhile_split Boltzmann.isSpace line
  generalize line.dropWhile Boltzmann.isSpace = m at *
  obtain ⟨b, g1, g2, g3⟩ := dropWhile_split Boltzmann.isSpace m.reverse
  generalize m.reverse.dropWhile Boltzmann.isSpace = t at *
  have hm : m = t.reverse ++ b.reverse := by rw [← List.reverse_reverse m, g1, List.reverse_append]
  refine ⟨a, b.reverse, by rw [h1, hm, List.append_assoc], ?_, ?_, ?_⟩
  · intro c hc
    rcases List.mem_append.mp hc with h | h
    · exact h2 c h
    · exact g2 c (List.mem_reverse.mp h)
  · intro c hc
    apply h3 c
    rw [hm]
    cases h : t.reverse with
    | nil => rw [h] at hc; cases hc
    | cons x xs => rw [h] at hc; exact hc
  · intro c hc
    rw [List.getLast?_reverse] at hc
    exact g3 c hc

theorem trimmed_unique {line l l' : Str} (h : Trimmed line l) (h' : Trimmed line l') : l = l' := by
  have key : ∀ l, Trimmed line l → Boltzmann.strip line = l := by
    rintro l ⟨a, b, rfl, h2, h3, h4⟩
    have ha : ∀ c ∈ a, Boltzmann.isSpace c = true := fun c hc => h2 c (List.mem_append_left _ hc)
    have hb : ∀ c ∈ b, Boltzmann.isSpace c = true := fun c hc => h2 c (List.mem_append_right _ hc)
    have drop : ∀ (s t : Str), (∀ c ∈ s, Boltzmann.isSpace c = true) → (s ++ t).dropWhile Boltzmann.isSpace =
        t.dropWhile Boltzmann.isSpace := by
      intro s t hs
      induction s with
      | nil => rfl
      | cons x s ih =>
        rw [List.cons_append, List.dropWhile_cons, hs x List.mem_cons_self]
        exact ih fun c hc => hs c (List.mem_cons_of_mem _ hc)
    have keep : ∀ (t : Str), (∀ c, t.head? = some c → Boltzmann.isSpace c = false) →
        t.dropWhile Boltzmann.isSpace = t := by
      intro t ht
      cases t with
      | nil => rfl
      | cons x t => rw [List.dropWhile_cons, ht x rfl]; rfl
    unfold Boltzmann.strip
    rw [List.append_assoc, drop a _ ha]
    cases l with
    | nil =>
      have : (([] : Str) ++ b).dropWhile Boltzmann.isSpace = [] := by
        have := drop b [] hb
        rwa [List.append_nil] at this
      rw [this]; rfl
    | cons x l =>
      rw [keep (x :: l ++ b) (fun c hc => h3 c hc), List.reverse_append,
        drop _ _ (fun c hc => hb c (List.mem_reverse.mp hc)), keep _ (fun c hc => ?_), List.reverse_reverse]
      rw [List.head?_reverse] at hc
      exact h4 c hc
  rw [← key l h, key l' h']

/-- C153. The names read from a file are its lines without the blanks at their ends, in the order of the file; empty lines
and comments are left out. -/
theorem load_spec (lines : List Str) :
    (∀ l, l ∈ loadCombs lines ↔ (∃ line ∈ lines, Trimmed line l) ∧ l ≠ [] ∧ l.head? ≠ some '#') ∧
    (∀ more, loadCombs (lines ++ more) = loadCombs lines ++ loadCombs more) := by
  refine ⟨fun l => ?_, fun more => by simp [loadCombs]⟩
  unfold loadCombs
  rw [List.mem_filter, List.mem_map]
  have e : ((stripPrefix ['#'] l).isNone && decide (0 < l.length)) = true ↔ l ≠ [] ∧ l.head? ≠ some '#' := by
    cases l with
    | nil => simp
    | cons x l =>
      by_cases hx : x = '#'
      · subst hx; simp [stripPrefix]
      · have : stripPrefix ['#'] (x :: l) = none := by
          cases hs : stripPrefix ['#'] (x :: l) with
          | none => rfl
          | some r =>
            have := (stripPrefix_eq_some _ _ _).mp hs
            simp only [List.cons_append, List.nil_append, List.cons.injEq] at this
            exact absurd this.1 hx
        rw [this]
        simp [hx]
  rw [e]
  refine and_congr_left fun _ => ⟨?_, ?_⟩
  · rintro ⟨line, h1, rfl⟩
    exact ⟨line, h1, strip_trimmed line⟩
  · rintro ⟨line, h1, h2⟩
    exact ⟨line, h1, trimmed_unique (strip_trimmed line) h2⟩

example : loadCombs ["# sums".toList, "".toList, "  [WL] + [GCph]\t".toList] = ["[WL] + [GCph]".toList] := by decide +kernel

/-! ### What is in the shipped files -/

/-- C153. The file has the combinations that are meant, in this order. -/
theorem shipped_read : loadCombs combLines = shipped.map fun c => c.comb.text := by decide +kernel

/-- The observables of the selected data vectors, in the order of the file. -/
def selected : List (List Obs) :=
  [[.wl], [.ph], [.sp], [.wl, .ph], [.wl, .ph, .wlph], [.wl, .wlph], [.ph, .wlph], [.wlph], [.wl, .sp], [.wl, .sp, .wlsp],
   [.wl, .wlsp], [.sp, .wlsp], [.wlsp], [.ph, .sp], [.ph, .sp, .phsp], [.ph, .phsp], [.sp, .phsp], [.phsp],
   [.wl, .ph, .sp], [.wl, .ph, .sp, .wlph, .wlsp, .phsp], [.wl, .ph, .sp, .wlph, .phsp], [.wl, .ph, .sp, .wlph, .wlsp],
   [.wl, .ph, .sp, .wlsp, .phsp], [.wl, .ph, .sp, .wlph], [.wl, .ph, .sp, .wlsp], [.wl, .ph, .sp, .phsp],
   [.wl, .ph, .wlph, .wlsp, .phsp], [.wl, .ph, .wlph, .wlsp], [.wl, .ph, .wlph, .phsp], [.wl, .ph, .wlsp, .phsp],
   [.wl, .ph, .wlsp], [.wl, .ph, .phsp], [.sp, .wlph]]

/-- The names of the matrices of a run say what they are of. -/
theorem base_labels : baseNames = selected.map label := by decide +kernel

/-- The name in front of the colon, which the program does not read, is that of the matrix. -/
theorem written_labels : (loadCombs FTask.selectedLines).map (fun l => (splitChar ':' l).head?) = baseNames.map some := by
  rw [base_labels]
  decide +kernel

/-- Decidable form of `Comb.Valid`. -/
theorem valid_of {c : Comb} (h : c.operands.all (fun s => !s.contains ' ' && s != ['+'] && s != ['-']) = true) : c.Valid := by
  intro s hs
  have := List.all_eq_true.mp h s hs
  simp only [Bool.and_eq_true, Bool.not_eq_true', bne_iff_ne, ne_eq] at this
  refine ⟨fun hm => ?_, this.1.2, this.2⟩
  have h2 := List.contains_iff_mem.mpr hm
  rw [this.1.1] at h2
  cases h2

theorem shipped_valid : ∀ c ∈ shipped.map OComb.comb, c.Valid ∧ c.terms ≠ [] := by
  have h1 : (shipped.map OComb.comb).all (fun c => c.operands.all (fun s => !s.contains ' ' && s != ['+'] && s != ['-'])) = true := by
    decide +kernel
  have h2 : shipped.all (fun c => decide (c.terms ≠ [])) = true := by decide +kernel
  intro c hc
  refine ⟨valid_of (List.all_eq_true.mp h1 c hc), ?_⟩
  obtain ⟨o, ho, rfl⟩ := List.mem_map.mp hc
  have := of_decide_eq_true (List.all_eq_true.mp h2 o ho)
  intro e
  exact this (List.map_eq_nil_iff.mp e)

/-- Every operand of the list is a matrix of the run or the external one. -/
theorem operands_known : ∀ c ∈ shipped, ∀ l ∈ c.operands, label l ∈ baseNames ∨ l = [.pk] := by
  have h : shipped.all (fun c => c.operands.all fun l => selected.contains l || l == [.pk]) = true := by decide +kernel
  intro c hc l hl
  have := List.all_eq_true.mp (List.all_eq_true.mp h c hc) l hl
  rw [Bool.or_eq_true] at this
  rcases this with h | h
  · left
    rw [base_labels]
    exact List.mem_map.mpr ⟨l, List.contains_iff_mem.mp h, rfl⟩
  · right
    exact eq_of_beq h

/-- C153. No observable is counted twice or negatively in a combination of the list, and never both the angular spectrum of
spectroscopic clustering and its spectrum in three dimensions. -/
theorem counted_once : ∀ c ∈ shipped, (∀ s, c.tally s = 0 ∨ c.tally s = 1) ∧ ¬ (c.tally .sp = 1 ∧ c.tally .pk = 1) := by
  have h : shipped.all (fun c => decide ((∀ s, c.tally s = 0 ∨ c.tally s = 1) ∧ ¬ (c.tally .sp = 1 ∧ c.tally .pk = 1))) = true := by
    decide +kernel
  intro c hc
  exact of_decide_eq_true (List.all_eq_true.mp h c hc)

/-- One combination is listed twice, no other. -/
theorem listed_twice : ∀ c ∈ shipped, shipped.count c = if c = ⟨[.wl, .ph, .wlph], [(true, [.sp])]⟩ then 2 else 1 := by
  have h : (shipped.all fun c => decide (shipped.count c = if c = ⟨[.wl, .ph, .wlph], [(true, [.sp])]⟩ then 2 else 1)) = true := by
    decide +kernel
  intro c hc
  exact of_decide_eq_true (List.all_eq_true.mp h c hc)

/-! ### What is computed -/

section Evaluate

variable {N K : Type} [LinearOrder N] [Field K] [DecidableEq K]

theorem mem_operands_comb (c : OComb) (o : Str) : o ∈ c.comb.operands ↔ ∃ l ∈ c.operands, o = label l := by
  simp only [OComb.comb, Comb.operands, OComb.operands, List.map_map, List.mem_cons, List.mem_map, Function.comp]
  constructor
  · rintro (rfl | ⟨x, hx, rfl⟩)
    · exact ⟨_, Or.inl rfl, rfl⟩
    · exact ⟨_, Or.inr ⟨x, hx, rfl⟩, rfl⟩
  · rintro ⟨l, rfl | ⟨x, hx, rfl⟩, rfl⟩
    · exact Or.inl rfl
    · exact Or.inr ⟨x, hx, rfl⟩

theorem present_iff {Fs : Dict Str Ref} (hbase : ∀ l ∈ baseNames, (Fs.lookup l).isSome) {c : OComb} (hc : c ∈ shipped) :
    c.comb.Present Fs ↔ (c.Pk → (Fs.lookup external).isSome) := by
  unfold Comb.Present OComb.Pk
  constructor
  · intro h hpk
    exact h _ ((mem_operands_comb c _).mpr ⟨_, hpk, rfl⟩)
  · intro h o ho
    obtain ⟨l, hl, rfl⟩ := (mem_operands_comb c o).mp ho
    rcases operands_known c hc l hl with hb | rfl
    · exact hbase _ hb
    · exact h hl

/-- C153. Whatever the matrices of a run are: with the external matrix all combinations of the list are stored, without it
exactly those that do not need it. Each is the signed sum of the matrices it names; no other matrix changes. -/
theorem evaluated {en : Finset N → List N} (hen : Iteration en) (M : Str → FM N K) (h : Heap N K) (Fs : Dict Str Ref)
    (hM : ∀ o t, Operand o → Fs.lookup o = some t → h[t]? = some (M o) ∧ (M o).WF)
    (hbase : ∀ l ∈ baseNames, (Fs.lookup l).isSome) :
    ∃ ext Fs', evalAll en h Fs (loadCombs combLines) = .ok (h ++ ext, Fs') ∧
      (∀ k, k ∉ loadCombs combLines → Fs'.lookup k = Fs.lookup k) ∧
      (∀ c ∈ shipped, (c.Pk → (Fs.lookup external).isSome) →
        ∃ r R, Fs'.lookup c.comb.text = some r ∧ (h ++ ext)[r]? = some R ∧ R.WF ∧ IsComb M c.comb R) ∧
      (∀ c ∈ shipped, c.Pk → Fs.lookup external = none → Fs'.lookup c.comb.text = Fs.lookup c.comb.text) := by
  obtain ⟨ext, Fs', e1, e2, e3, e4, _⟩ := combinations_all hen M (shipped.map OComb.comb) shipped_valid h Fs hM
  have hmap : (shipped.map OComb.comb).map Comb.text = loadCombs combLines := by
    rw [shipped_read, List.map_map]; rfl
  rw [hmap] at e1 e2
  refine ⟨ext, Fs', e1, e2, ?_, ?_⟩
  · intro c hc hpk
    obtain ⟨r, R, g1, _, g3, g4, _, _, g7⟩ := e3 _ (List.mem_map_of_mem hc) ((present_iff hbase hc).mpr hpk)
    exact ⟨r, R, g1, g3, g4, g7⟩
  · intro c hc hpk hn
    refine e4 _ (List.mem_map_of_mem hc) fun hp => ?_
    have := (present_iff hbase hc).mp hp hpk
    rw [hn] at this
    cases this

omit [DecidableEq K] in
theorem sum_count (l : List Obs) (f : Obs → K) : (l.map f).sum = ∑ s, (l.count s : K) * f s := by
  induction l with
  | nil => simp
  | cons x l ih =>
    rw [List.map_cons, List.sum_cons, ih]
    have : ∀ s : Obs, ((x :: l).count s : K) * f s = (if x = s then f s else 0) + (l.count s : K) * f s := by
      intro s
      rw [List.count_cons]
      by_cases hs : x = s
      · simp [hs]; ring
      · simp [hs]
    simp only [this, Finset.sum_add_distrib]
    congr 1
    simp

omit [DecidableEq K] in
theorem sum_content (l : List Obs) (hl : l.Nodup) (f : Obs → K) : (l.map f).sum = ∑ s, (if s ∈ l then f s else 0) := by
  rw [sum_count]
  refine Finset.sum_congr rfl fun s _ => ?_
  by_cases h : s ∈ l
  · rw [List.count_eq_one_of_mem hl h, if_pos h]; simp
  · rw [List.count_eq_zero_of_not_mem h, if_neg h]; simp

omit [DecidableEq K] in
/-- C153. If the matrices add up over their observables, as they do for independent ones, every combination counts each
observable as often as it is added less as often as it is subtracted. -/
theorem entries_tally (c : OComb) (M : Str → FM N K) (A : Obs → N → N → K)
    (hA : ∀ l ∈ c.operands, ∀ p q, (M (label l)).matrix.ent p q = (l.map fun s => A s p q).sum) {R : FM N K}
    (hR : IsComb M c.comb R) (p q : N) : R.matrix.ent p q = ∑ s, (c.tally s : K) * A s p q := by
  rw [hR.ent]
  have hf : (M c.comb.first).matrix.ent p q = ∑ s, (c.first.count s : K) * A s p q := by
    rw [show c.comb.first = label c.first from rfl, hA _ List.mem_cons_self, sum_count]
  have ht : ∀ ts : List (Bool × List Obs), (∀ x ∈ ts, x ∈ c.terms) →
      ((ts.map fun x => (x.1, label x.2)).map fun x => if x.1 then (M x.2).matrix.ent p q
        else - (M x.2).matrix.ent p q).sum =
      ∑ s, (((ts.map fun x => if x.1 then (x.2.count s : Int) else -(x.2.count s : Int)).sum : Int) : K) * A s p q := by
    intro ts
    induction ts with
    | nil => intro _; simp
    | cons x ts ih =>
      intro hx
      have hm : x.2 ∈ c.operands := List.mem_cons_of_mem _ (List.mem_map_of_mem (hx x List.mem_cons_self))
      rw [List.map_cons, List.map_cons, List.sum_cons, ih fun y hy => hx y (List.mem_cons_of_mem _ hy)]
      simp only [List.map_cons, List.sum_cons, Int.cast_add, add_mul, Finset.sum_add_distrib]
      congr 1
      rw [hA _ hm, sum_count]
      cases x.1
      · simp
      · simp
  rw [hf, show c.comb.terms = c.terms.map fun x => (x.1, label x.2) from rfl, ht _ fun _ h => h,
    ← Finset.sum_add_distrib]
  refine Finset.sum_congr rfl fun s _ => ?_
  unfold OComb.tally
  push_cast
  ring

theorem mem_all (s : Obs) : s ∈ Obs.all := by cases s <;> decide

omit [DecidableEq K] in
/-- C153. For matrices that add up over their observables, every combination of the list is the sum over its observables,
each once. -/
theorem entries_content {c : OComb} (hc : c ∈ shipped) (M : Str → FM N K) (A : Obs → N → N → K)
    (hA : ∀ l ∈ c.operands, ∀ p q, (M (label l)).matrix.ent p q = (l.map fun s => A s p q).sum) {R : FM N K}
    (hR : IsComb M c.comb R) (p q : N) : R.matrix.ent p q = (c.content.map fun s => A s p q).sum := by
  rw [entries_tally c M A hA hR, sum_content c.content (List.Nodup.filter _ (by decide))]
  refine Finset.sum_congr rfl fun s _ => ?_
  have hm : s ∈ c.content ↔ 0 < c.tally s := by
    unfold OComb.content
    rw [List.mem_filter]
    simp [mem_all]
  rcases (counted_once c hc).1 s with h | h
  · rw [if_neg (by rw [hm, h]; decide), h]; simp
  · rw [if_pos (by rw [hm, h]; decide), h]; simp

end Evaluate

/-- C153. For matrices that add up over their observables, each of them nowhere negative as a form, no combination of the
list is negative anywhere, although some are differences. -/
theorem nonneg {N K : Type} [LinearOrder N] [Field K] [LinearOrder K] [IsStrictOrderedRing K] {c : OComb} (hc : c ∈ shipped)
    (M : Str → FM N K) (A : Obs → N → N → K)
    (hA : ∀ l ∈ c.operands, ∀ p q, (M (label l)).matrix.ent p q = (l.map fun s => A s p q).sum) {R : FM N K}
    (hR : IsComb M c.comb R) (S : Finset N) (x : N → K)
    (hpos : ∀ s, 0 ≤ ∑ p ∈ S, ∑ q ∈ S, x p * A s p q * x q) :
    0 ≤ ∑ p ∈ S, ∑ q ∈ S, x p * R.matrix.ent p q * x q := by
  have : ∀ l : List Obs, ∑ p ∈ S, ∑ q ∈ S, x p * (l.map fun s => A s p q).sum * x q =
      (l.map fun s => ∑ p ∈ S, ∑ q ∈ S, x p * A s p q * x q).sum := by
    intro l
    induction l with
    | nil => simp
    | cons s l ih =>
      rw [List.map_cons, List.sum_cons, ← ih]
      simp only [List.map_cons, List.sum_cons, mul_add, add_mul, Finset.sum_add_distrib]
  simp only [entries_content hc M A hA hR, this]
  refine List.sum_nonneg fun y hy => ?_
  obtain ⟨s, _, rfl⟩ := List.mem_map.mp hy
  exact hpos s

/-! ### The final results -/

/-- C153. The final results of a run with all its matrices have exactly the loaded matrices and the combinations of the
list, the latter without those that need a missing external matrix. -/
theorem result_names {N K : Type} [LinearOrder N] [Field K] [DecidableEq K] {en : Finset N → List N} (hen : Iteration en)
    (sq : K → K) {w0 wa : N} (hw : w0 ≠ wa) (h : Heap N K) (d : Dict Str Ref) (M : Str → FM N K)
    (hk : (d.map Prod.fst).Nodup) (hn : (d.map Prod.snd).Nodup)
    (hM : ∀ k r, (k, r) ∈ d → h[r]? = some (M k) ∧ (M k).WF ∧ Disjoint (M k).cosmo (M k).nuis ∧ (M k).margFlag = true)
    (hbase : ∀ l ∈ baseNames, l ∈ d.map Prod.fst) (fixed : Finset N) (mode : NuisMode)
    {h' : Heap N K} {Fs : Dict Str Ref} {errs : List (List (N × K) × Option K)}
    (hok : createResults en sq w0 wa h d fixed mode (loadCombs combLines) = (h', .ok (Fs, errs))) (k : Str) :
    k ∈ Fs.map Prod.fst ↔ k ∈ d.map Prod.fst ∨
      ∃ c ∈ shipped, k = c.comb.text ∧ (c.Pk → external ∈ d.map Prod.fst) := by
  have hmap : (shipped.map OComb.comb).map Comb.text = loadCombs combLines := by
    rw [shipped_read, List.map_map]; rfl
  rw [← hmap] at hok
  obtain ⟨_, f2, f3, f4⟩ := final_results hen sq hw h d M hk hn hM fixed mode _ shipped_valid hok
  constructor
  · intro hk'
    obtain ⟨x, hx, rfl⟩ := List.mem_map.mp hk'
    obtain ⟨i, hi, rfl⟩ := List.mem_iff_getElem.mp hx
    obtain ⟨F, out, _, _, _, _, g | ⟨c, hc, e, ho, _⟩⟩ := f4 i hi
    · exact Or.inl g.1
    · obtain ⟨o, hos, rfl⟩ := List.mem_map.mp hc
      exact Or.inr ⟨o, hos, e, fun hpk => ho _ ((mem_operands_comb o _).mpr ⟨_, hpk, rfl⟩)⟩
  · rintro (h1 | ⟨c, hc, rfl, hpk⟩)
    · exact f2 k h1
    · refine f3 _ (List.mem_map_of_mem hc) fun o ho => ?_
      obtain ⟨l, hl, rfl⟩ := (mem_operands_comb c o).mp ho
      rcases operands_known c hc l hl with hb | rfl
      · exact hbase _ hb
      · exact hpk hl

/-- Every combination of the list is a sum, or takes the angular spectrum of spectroscopic clustering from its first matrix
and then adds. -/
theorem shipped_form : ∀ c ∈ shipped, (∀ x ∈ c.terms, x.1 = true) ∨
    ∃ ts, c.terms = (false, [Obs.sp]) :: ts ∧ ∀ x ∈ ts, x.1 = true := by
  have h : shipped.all (fun c => decide (∀ x ∈ c.terms, x.1 = true) ||
      (decide (c.terms.head? = some (false, [Obs.sp])) && decide (∀ x ∈ c.terms.tail, x.1 = true))) = true := by decide +kernel
  intro c hc
  have := List.all_eq_true.mp h c hc
  rw [Bool.or_eq_true, Bool.and_eq_true] at this
  rcases this with h1 | ⟨h1, h2⟩
  · exact Or.inl (of_decide_eq_true h1)
  · have h1 := of_decide_eq_true h1
    have h2 := of_decide_eq_true h2
    cases ht : c.terms with
    | nil => rw [ht] at h1; cases h1
    | cons t ts =>
      rw [ht] at h1 h2
      simp only [List.head?_cons, Option.some.injEq] at h1
      exact Or.inr ⟨ts, by rw [h1], h2⟩

/-- C153. The final results of a run are produced without an exception for each of the three treatments of nuisance
parameters, although some of the combinations are differences: it is enough that the matrices are positive definite and that
those from which `[GCsp]` is subtracted have more information than it. -/
theorem results_succeed {N : Type} [LinearOrder N] {en : Finset N → List N} (hen : Iteration en) (sq : ℝ → ℝ) {w0 wa : N}
    (hw : w0 ≠ wa) (h : Heap N ℝ) (d : Dict Str Ref) (M : Str → FM N ℝ)
    (hk : (d.map Prod.fst).Nodup) (hn : (d.map Prod.snd).Nodup) (fixed : Finset N)
    (hM : ∀ k r, (k, r) ∈ d → h[r]? = some (M k) ∧ PD (M k) ∧ Disjoint (M k).cosmo (M k).nuis ∧
      (M k).margFlag = true ∧ fixed ⊆ (M k).cosmo ∪ (M k).nuis)
    (hmore : ∀ c ∈ shipped, (false, [Obs.sp]) ∈ c.terms → label c.first ∈ d.map Prod.fst → label [.sp] ∈ d.map Prod.fst →
      MoreThan (M (label c.first)) (M (label [.sp])))
    (mode : NuisMode) :
    ∃ h' Fs errs, createResults en sq w0 wa h d fixed mode (loadCombs combLines) = (h', .ok (Fs, errs)) := by
  have hmap : (shipped.map OComb.comb).map Comb.text = loadCombs combLines := by
    rw [shipped_read, List.map_map]; rfl
  rw [← hmap]
  refine final_results_succeed_of hen sq hw h d M hk hn fixed hM mode _ fun c hc => ?_
  obtain ⟨v1, v2⟩ := shipped_valid c hc
  refine ⟨v1, v2, fun P R hP hR hI => ?_⟩
  obtain ⟨o, ho, rfl⟩ := List.mem_map.mp hc
  rcases shipped_form o ho with hp | ⟨ts, ht, hp⟩
  · refine sum_posDef hI hR ?_ fun k hk => (hP k hk).1
    intro x hx
    obtain ⟨y, hy, rfl⟩ := List.mem_map.mp hx
    exact hp y hy
  · have hfirst : label o.first ∈ o.comb.operands := List.mem_cons_self
    have hterms : o.comb.terms = (false, label [.sp]) :: ts.map fun x => (x.1, label x.2) := by
      unfold OComb.comb; rw [ht]; rfl
    have hsp : label [.sp] ∈ o.comb.operands := by
      unfold Comb.operands; rw [hterms]; simp
    obtain ⟨_, d1, p1⟩ := hP _ hfirst
    obtain ⟨_, d2, p2⟩ := hP _ hsp
    obtain ⟨⟨k1, r1⟩, m1, e1⟩ := List.mem_map.mp d1
    obtain ⟨⟨k2, r2⟩, m2, e2⟩ := List.mem_map.mp d2
    simp only at e1 e2
    subst e1 e2
    obtain ⟨_, pd1, dis1, _⟩ := hM _ _ m1
    obtain ⟨_, pd2, _⟩ := hM _ _ m2
    refine difference_posDef hI hR hterms ?_ (fun k hk => (hP k hk).1) ?_
    · intro x hx
      obtain ⟨y, hy, rfl⟩ := List.mem_map.mp hx
      exact hp y hy
    · exact more_prepared pd1 pd2 (hmore o ho (by rw [ht]; exact List.mem_cons_self) d1 d2) dis1 p1 p2

/-- C153. Without more information it may fail: if a matrix from which `[GCsp]` is subtracted says the same as `[GCsp]` on
one cosmological parameter that is not fixed, no results of this treatment of nuisance parameters are produced at all. -/
theorem same_information_refused {N K : Type} [LinearOrder N] [Field K] [DecidableEq K] {en : Finset N → List N}
    (hen : Iteration en) (sq : K → K) {w0 wa : N} (hw : w0 ≠ wa) (h : Heap N K) (d : Dict Str Ref) (M : Str → FM N K)
    (hk : (d.map Prod.fst).Nodup) (hn : (d.map Prod.snd).Nodup)
    (hM : ∀ k r, (k, r) ∈ d → h[r]? = some (M k) ∧ (M k).WF ∧ Disjoint (M k).cosmo (M k).nuis ∧ (M k).margFlag = true)
    (fixed : Finset N) {mode : NuisMode} (hmode : mode ≠ .margBefore) {c : OComb} (hc : c ∈ shipped)
    (ht : c.terms = [(false, [.sp])]) (h1 : label c.first ∈ d.map Prod.fst) (h2 : label [.sp] ∈ d.map Prod.fst)
    (hnew : c.comb.text ∉ d.map Prod.fst) (hcos : (M (label c.first)).cosmo = (M (label [.sp])).cosmo)
    (hnuis : (M (label c.first)).nuis = (M (label [.sp])).nuis) {p : N} (hp : p ∈ (M (label c.first)).cosmo \ fixed)
    (hsame : ∀ q, (M (label c.first)).matrix.ent p q = (M (label [.sp])).matrix.ent p q) :
    ∀ h' out, createResults en sq w0 wa h d fixed mode (loadCombs combLines) ≠ (h', .ok out) := by
  rintro h' ⟨Fs, errs⟩ hok
  have hmap : (shipped.map OComb.comb).map Comb.text = loadCombs combLines := by
    rw [shipped_read, List.map_map]; rfl
  rw [← hmap] at hok
  obtain ⟨_, _, f3, f4⟩ := final_results hen sq hw h d M hk hn hM fixed mode _ shipped_valid hok
  have hops : ∀ o ∈ c.comb.operands, o = label c.first ∨ o = label [.sp] := by
    intro o ho
    obtain ⟨l, hl, rfl⟩ := (mem_operands_comb c o).mp ho
    unfold OComb.operands at hl
    rw [ht] at hl
    simp only [List.map_cons, List.map_nil, List.mem_cons, List.not_mem_nil, or_false] at hl
    rcases hl with rfl | rfl
    · exact Or.inl rfl
    · exact Or.inr rfl
  have hin := f3 c.comb (List.mem_map_of_mem hc) fun o ho => by
    rcases hops o ho with rfl | rfl
    · exact h1
    · exact h2
  obtain ⟨x, hx, hxt⟩ := List.mem_map.mp hin
  obtain ⟨i, hi, rfl⟩ := List.mem_iff_getElem.mp hx
  obtain ⟨F, out, _, _, wF, ⟨V, hV, _⟩, g | ⟨c', hc', e, _, P, hP, hI⟩⟩ := f4 i hi
  · exact hnew (hxt ▸ g.1)
  · have : c' = c.comb := text_injective (shipped_valid c' hc').1 (shipped_valid c.comb (List.mem_map_of_mem hc)).1
      (by rw [← e, hxt])
    subst this
    have m1 : label c.first ∈ c.comb.operands := List.mem_cons_self
    have m2 : label [.sp] ∈ c.comb.operands :=
      (mem_operands_comb c _).mpr ⟨[.sp], by unfold OComb.operands; rw [ht]; simp, rfl⟩
    obtain ⟨w1, _, c1, r1⟩ := hP _ m1
    obtain ⟨w2, _, c2, r2⟩ := hP _ m2
    have hpF : p ∈ F.cosmo ∪ F.nuis :=
      Finset.mem_union_left _ ((hI.cosmo p).mpr ⟨_, m1, by rw [c1]; exact hp⟩)
    have hent : ∀ q, F.matrix.ent p q = (P (label c.first)).matrix.ent p q - (P (label [.sp])).matrix.ent p q := by
      intro q
      rw [hI.ent, show c.comb.terms = [(false, label [.sp])] from by unfold OComb.comb; rw [ht]; rfl]
      simp only [List.map_cons, List.map_nil, List.sum_cons, List.sum_nil, Bool.false_eq_true, if_false, add_zero]
      rw [show c.comb.first = label c.first from rfl, sub_eq_add_neg]
    have hz : ∀ q, F.matrix.ent p q = 0 := by
      intro q
      rw [hent, sub_eq_zero]
      have hpars : (P (label c.first)).cosmo = (P (label [.sp])).cosmo := by rw [c1, c2, hcos]
      cases mode with
      | margBefore => exact absurd rfl hmode
      | fixed =>
        obtain ⟨n1, e1⟩ := r1
        obtain ⟨n2, e2⟩ := r2
        by_cases hq : q ∈ (P (label c.first)).cosmo
        · rw [e1 p (by rw [c1]; exact hp) q hq, e2 p (by rw [c2, ← hcos]; exact hp) q (hpars ▸ hq), hsame]
        · rw [On.ent w1, On.ent w2, n1, n2, Finset.union_empty, Finset.union_empty, if_neg fun h => hq h.2,
            if_neg fun h => hq (hpars ▸ h.2)]
      | margAfter =>
        obtain ⟨n1, e1⟩ := r1
        obtain ⟨n2, e2⟩ := r2
        have hpars' : (P (label c.first)).cosmo ∪ (P (label c.first)).nuis = (P (label [.sp])).cosmo ∪ (P (label [.sp])).nuis := by
          rw [hpars, n1, n2, hnuis]
        by_cases hq : q ∈ (P (label c.first)).cosmo ∪ (P (label c.first)).nuis
        · rw [e1 p (Finset.mem_union_left _ (by rw [c1]; exact hp)) q hq,
            e2 p (Finset.mem_union_left _ (by rw [c2, ← hcos]; exact hp)) q (hpars' ▸ hq), hsame]
        · rw [On.ent w1, On.ent w2, if_neg fun h => hq h.2, if_neg fun h => hq (hpars' ▸ h.2)]
    have hone := inverse_sum.mp hV p hpF p hpF
    rw [Finset.sum_eq_zero fun q hq => by rw [← ent_val wF hpF hq, hz q, zero_mul], if_pos rfl] at hone
    exact zero_ne_one hone

/-! ### A run -/

/-- The matrix of some observables: twice the unit matrix for each, with parameters 0, 1, 2 and a nuisance parameter. -/
noncomputable def exM (k : Nat) (n : Str) : FM ℕ ℝ :=
  { matrix := ⟨[0, 1, 2, 3], [0, 1, 2, 3], fun a b => if a = b then 2 * k else 0⟩, name := n, cosmo := {0, 1, 2}, nuis := {3} }

theorem exM_quad (k : Nat) (n : Str) (x : ℕ → ℝ) :
    quad {0, 1, 2, 3} (exM k n).matrix.val x = ∑ a ∈ ({0, 1, 2, 3} : Finset ℕ), 2 * k * (x a) ^ 2 := by
  unfold quad
  refine Finset.sum_congr rfl (fun a ha => ?_)
  rw [Finset.sum_eq_single a]
  · simp [exM]; ring
  · intro b _ hb; simp [exM, hb.symm]
  · intro h; exact absurd ha h

theorem exM_pars (k : Nat) (n : Str) : (exM k n).cosmo ∪ (exM k n).nuis = {0, 1, 2, 3} := by
  show ({0, 1, 2} : Finset ℕ) ∪ {3} = {0, 1, 2, 3}
  decide

theorem exM_WF (k : Nat) (n : Str) : (exM k n).WF := by
  unfold FM.WF
  rw [exM_pars]
  exact ⟨rfl, (by decide : ([0, 1, 2, 3] : List ℕ).Nodup), fun a => by simp [exM]⟩

theorem exM_PD {k : Nat} (hk : 0 < k) (n : Str) : PD (exM k n) := by
  refine ⟨exM_WF k n, ?_⟩
  rw [exM_pars, block_posDef_iff]
  refine ⟨fun a _ b _ => by simp only [exM, eq_comm], fun x ⟨a, ha, hx⟩ => ?_⟩
  rw [exM_quad]
  have : (0 : ℝ) < k := by exact_mod_cast hk
  refine Finset.sum_pos' (fun i _ => by positivity) ⟨a, ha, by positivity⟩

theorem exM_more {j k : Nat} (hjk : j < k) (m n : Str) : MoreThan (exM k n) (exM j m) := by
  refine ⟨Finset.Subset.refl _, Finset.Subset.refl _, fun x ⟨a, ha, hx⟩ => ?_⟩
  rw [exM_pars] at ha ⊢
  have e : ∀ i l, quad {0, 1, 2, 3} (exM i l).matrix.ent x = quad {0, 1, 2, 3} (exM i l).matrix.val x := by
    intro i l
    unfold quad
    refine Finset.sum_congr rfl fun p hp => Finset.sum_congr rfl fun q hq => ?_
    rw [ent_val (exM_WF i l) (by rw [exM_pars]; exact hp) (by rw [exM_pars]; exact hq)]
  rw [e, e, exM_quad, exM_quad]
  have : (j : ℝ) < k := by exact_mod_cast hjk
  refine Finset.sum_lt_sum (fun i _ => ?_) ⟨a, ha, ?_⟩
  · exact mul_le_mul_of_nonneg_right (by linarith) (by positivity)
  · exact mul_lt_mul_of_pos_right (by linarith) (by positivity)

/-- A run with three of its matrices and the external one: the combinations of these are computed, with nuisance parameters
marginalised before. -/
example (sq : ℝ → ℝ) : ∃ h' Fs errs, createResults (fun s : Finset ℕ => s.sort (· ≤ ·)) sq 1 2
    [exM 1 "[GCsp]".toList, exM 3 "[WL+GCsp+XC(WL,GCsp)]".toList, exM 4 "[GCsp(Pk)]".toList]
    [("[GCsp]".toList, 0), ("[WL+GCsp+XC(WL,GCsp)]".toList, 1), ("[GCsp(Pk)]".toList, 2)] {0} .margBefore
    (loadCombs combLines) = (h', .ok (Fs, errs)) := by
  refine results_succeed sortedIteration sq (by decide) _ _
    (fun k => if k = "[GCsp]".toList then exM 1 "[GCsp]".toList
      else if k = "[WL+GCsp+XC(WL,GCsp)]".toList then exM 3 "[WL+GCsp+XC(WL,GCsp)]".toList
      else exM 4 "[GCsp(Pk)]".toList) (by decide +kernel) (by decide) {0} ?_ ?_ .margBefore
  · intro k r hkr
    simp only [List.mem_cons, List.not_mem_nil, or_false, Prod.mk.injEq] at hkr
    rcases hkr with ⟨rfl, rfl⟩ | ⟨rfl, rfl⟩ | ⟨rfl, rfl⟩
    · rw [if_pos rfl]
      exact ⟨rfl, exM_PD (by decide) _, by simp [exM], rfl, by simp [exM]⟩
    · rw [if_neg (by decide +kernel), if_pos rfl]
      exact ⟨rfl, exM_PD (by decide) _, by simp [exM], rfl, by simp [exM]⟩
    · rw [if_neg (by decide +kernel), if_neg (by decide +kernel)]
      exact ⟨rfl, exM_PD (by decide) _, by simp [exM], rfl, by simp [exM]⟩
  · intro c hc hm h1 _
    have hsel : shipped.all (fun c => !decide ((false, [Obs.sp]) ∈ c.terms) ||
        !decide (label c.first ∈ ["[GCsp]".toList, "[WL+GCsp+XC(WL,GCsp)]".toList, "[GCsp(Pk)]".toList]) ||
        decide (label c.first = "[WL+GCsp+XC(WL,GCsp)]".toList)) = true := by decide +kernel
    have := List.all_eq_true.mp hsel c hc
    rw [Bool.or_eq_true, Bool.or_eq_true, Bool.not_eq_true', Bool.not_eq_true', decide_eq_false_iff_not,
      decide_eq_false_iff_not, decide_eq_true_iff] at this
    rcases this with (h | h) | h
    · exact absurd hm h
    · exact absurd h1 h
    · rw [h, if_neg (by decide +kernel), if_pos rfl, if_pos (by decide +kernel)]
      exact exM_more (by decide) _ _

/-- A matrix with one parameter. -/
def exE (k : ℚ) (n : Str) : FM ℕ ℚ := { matrix := ⟨[0], [0], fun _ _ => k⟩, name := n, cosmo := {0}, nuis := ∅ }

/-- Three observables with one unit each, less one of them. -/
example (M : Str → FM ℕ ℚ) (h1 : M (label [.wl, .sp, .wlsp]) = exE 3 "a".toList) (h2 : M (label [.sp]) = exE 1 "b".toList)
    {R : FM ℕ ℚ} (hR : IsComb M (OComb.comb ⟨[.wl, .sp, .wlsp], [(false, [.sp])]⟩) R) : R.matrix.ent 0 0 = 2 := by
  have := entries_content (c := ⟨[.wl, .sp, .wlsp], [(false, [.sp])]⟩) (by decide +kernel) M
    (fun _ p q => if p = 0 ∧ q = 0 then 1 else 0) (by
      intro l hl p q
      simp only [OComb.operands, List.map_cons, List.map_nil, List.mem_cons, List.not_mem_nil, or_false] at hl
      rcases hl with rfl | rfl
      · rw [h1]
        by_cases h : p = 0 ∧ q = 0
        · simp [exE, DF.ent, h]; norm_num
        · simp [exE, DF.ent, h]
      · rw [h2]
        by_cases h : p = 0 ∧ q = 0
        · simp [exE, DF.ent, h]
        · simp [exE, DF.ent, h]) hR 0 0
  rw [this, show OComb.content ⟨[.wl, .sp, .wlsp], [(false, [.sp])]⟩ = [.wl, .wlsp] from by decide +kernel]
  norm_num

/-- The same matrix under two names: nothing is produced. -/
example (sq : ℝ → ℝ) : ∀ h' out, createResults (fun s : Finset ℕ => s.sort (· ≤ ·)) sq 1 2
    [exM 1 "[GCsp]".toList, exM 1 "[WL+GCsp+XC(WL,GCsp)]".toList]
    [("[GCsp]".toList, 0), ("[WL+GCsp+XC(WL,GCsp)]".toList, 1)] {0} .margAfter (loadCombs combLines) ≠ (h', .ok out) := by
  refine same_information_refused sortedIteration sq (by decide) _ _
    (fun k => if k = "[GCsp]".toList then exM 1 "[GCsp]".toList else exM 1 "[WL+GCsp+XC(WL,GCsp)]".toList)
    (by decide +kernel) (by decide) ?_ {0} (by decide) (c := ⟨[.wl, .sp, .wlsp], [(false, [.sp])]⟩) (by decide +kernel) rfl
    (by decide +kernel) (by decide +kernel) (by decide +kernel) ?_ ?_ (p := 1) ?_ ?_
  · intro k r hkr
    simp only [List.mem_cons, List.not_mem_nil, or_false, Prod.mk.injEq] at hkr
    rcases hkr with ⟨rfl, rfl⟩ | ⟨rfl, rfl⟩
    · rw [if_pos rfl]
      exact ⟨rfl, exM_WF _ _, by simp [exM], rfl⟩
    · rw [if_neg (by decide +kernel)]
      exact ⟨rfl, exM_WF _ _, by simp [exM], rfl⟩
  all_goals rw [if_neg (by decide +kernel)]
  · rw [if_pos (by decide +kernel)]; rfl
  · rw [if_pos (by decide +kernel)]; rfl
  · simp [exM]
  · intro q
    rw [if_pos (by decide +kernel)]; rfl

/-- The matrices of a run, here all the same, without the external one. -/
example : ∃ ext Fs', evalAll (fun s : Finset ℕ => s.sort (· ≤ ·)) [exF] ((selected.map label).map fun n => (n, 0)) (loadCombs combLines) =
    .ok ([exF] ++ ext, Fs') ∧ (Fs'.lookup "[WL] + [GCph]".toList).isSome ∧
    Fs'.lookup "[WL] + [GCsp(Pk)]".toList = none := by
  have hl : ∀ o t, ((selected.map label).map fun n => (n, (0 : Ref))).lookup o = some t → t = 0 := by
    intro o t
    generalize selected.map label = l
    induction l with
    | nil => intro h; cases h
    | cons x l ih =>
      intro h
      rw [List.map_cons, List.lookup_cons] at h
      split at h
      · cases h; rfl
      · exact ih h
  obtain ⟨ext, Fs', e1, _, e3, e4⟩ := evaluated sortedIteration (fun _ => exF) [exF] ((selected.map label).map fun n => (n, 0))
    (fun o t _ h => by rw [hl o t h]; exact ⟨rfl, exF_WF⟩)
    (by
      have : ((selected.map label).all fun l => (((selected.map label).map fun n => (n, (0 : Ref))).lookup l).isSome) = true := by
        decide +kernel
      rw [base_labels]
      exact fun l h => List.all_eq_true.mp this l h)
  refine ⟨ext, Fs', e1, ?_, ?_⟩
  · obtain ⟨r, R, g, _⟩ := e3 ⟨[.wl], [(true, [.ph])]⟩ (by decide +kernel) (fun h => absurd h (by decide +kernel))
    rw [show "[WL] + [GCph]".toList = (OComb.comb ⟨[.wl], [(true, [.ph])]⟩).text from by decide +kernel, g]
    rfl
  · rw [show "[WL] + [GCsp(Pk)]".toList = (OComb.comb ⟨[.wl], [(true, [.pk])]⟩).text from by decide +kernel,
      e4 ⟨[.wl], [(true, [.pk])]⟩ (by decide +kernel) (by decide +kernel) (by decide +kernel)]
    decide +kernel

end Seyfert.Combos
