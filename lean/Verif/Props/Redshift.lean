import Verif.Model.Redshift
import Verif.Lemmas.PyNum
import Verif.Lemmas.Names
import Verif.Props.Batch
import Mathlib.Algebra.BigOperators.Group.List.Basic
import Mathlib.Tactic.FieldSimp
import Mathlib.Tactic.Ring

/-!
C44, C45, C68: overlap of redshift bins, noise between photometric and spectroscopic galaxies, bias per bin.
-/

set_option linter.unusedSectionVars false

namespace Seyfert.Redshift

section
variable {K : Type} [LinearOrder K]

/-! ### C44: overlap of bins -/

/-- A bin in the wrong order, or empty, is refused, and nothing else is. -/
theorem overlap_refused (l₁ r₁ l₂ r₂ : K) :
    overlap l₁ r₁ l₂ r₂ = .error .wrongOrder ↔ r₁ ≤ l₁ ∨ r₂ ≤ l₂ := by
  unfold overlap
  split_ifs with h1 h2 h3 <;> simp_all

/-- If there is an overlap, its ends are in order and its points are the common points of the two bins. -/
theorem overlap_some (l₁ r₁ l₂ r₂ a b : K) (h : overlap l₁ r₁ l₂ r₂ = .ok (some (a, b))) :
    a < b ∧ ∀ z, (a ≤ z ∧ z ≤ b) ↔ ((l₁ ≤ z ∧ z ≤ r₁) ∧ (l₂ ≤ z ∧ z ≤ r₂)) := by
  unfold overlap at h
  split_ifs at h with h1 h2 h3
  · cases h
  injection h with h
  injection h with h
  obtain ⟨rfl, rfl⟩ := Prod.mk.inj h
  rw [not_or, not_le, not_le] at h3
  rw [not_le] at h1 h2
  refine ⟨by simp [h1, h2, h3.1, h3.2], fun z => ?_⟩
  rw [max_le_iff, le_min_iff]
  tauto

/-- There is no overlap exactly if the two bins have at most one point in common. -/
theorem overlap_none (l₁ r₁ l₂ r₂ : K) (h₁ : l₁ < r₁) (h₂ : l₂ < r₂) :
    overlap l₁ r₁ l₂ r₂ = .ok none ↔
      ∀ z w, (l₁ ≤ z ∧ z ≤ r₁) ∧ (l₂ ≤ z ∧ z ≤ r₂) → (l₁ ≤ w ∧ w ≤ r₁) ∧ (l₂ ≤ w ∧ w ≤ r₂) → z = w := by
  constructor
  · intro h
    unfold overlap at h
    split_ifs at h with h1 h2 h3
    swap
    · injection h with h
      cases h
    rintro z w ⟨⟨a, b⟩, c, d⟩ ⟨⟨a', b'⟩, c', d'⟩
    rcases h3 with h3 | h3
    · exact le_antisymm ((b.trans h3).trans c') ((b'.trans h3).trans c)
    · exact le_antisymm ((d.trans h3).trans a') ((d'.trans h3).trans a)
  · intro h
    rcases e : overlap l₁ r₁ l₂ r₂ with err | o
    · have he : err = .wrongOrder := by
        unfold overlap at e
        split_ifs at e <;> simp_all
      subst he
      rcases (overlap_refused _ _ _ _).mp e with h' | h'
      · exact absurd h₁ (not_lt.mpr h')
      · exact absurd h₂ (not_lt.mpr h')
    · rcases o with _ | ⟨a, b⟩
      · rfl
      · obtain ⟨hab, hm⟩ := overlap_some _ _ _ _ _ _ e
        have := h a b ((hm a).mp ⟨le_rfl, hab.le⟩) ((hm b).mp ⟨hab.le, le_rfl⟩)
        exact absurd this hab.ne

/-- The overlap does not depend on the order of the two bins. -/
theorem overlap_symm (l₁ r₁ l₂ r₂ : K) : overlap l₁ r₁ l₂ r₂ = overlap l₂ r₂ l₁ r₁ := by
  unfold overlap
  by_cases h1 : r₁ ≤ l₁ <;> by_cases h2 : r₂ ≤ l₂ <;> simp only [h1, h2, if_true, if_false]
  rw [max_comm, min_comm]
  by_cases h3 : r₁ ≤ l₂ <;> by_cases h4 : r₂ ≤ l₁ <;> simp [h3, h4]

example : overlap (0 : Int) 2 1 3 = .ok (some (1, 2)) ∧ overlap (0 : Int) 1 1 2 = .ok none := by decide

/-- What an additive quantity, such as the number of galaxies, contributes over an overlap. -/
def contribution {G : Type} [AddCommGroup G] (f : K → G) : Except Err (Option (K × K)) → G
  | .ok (some (a, b)) => f b - f a
  | _ => 0

theorem contribution_eq {G : Type} [AddCommGroup G] (f : K → G) (l₁ r₁ l r : K) (h₁ : l₁ < r₁) (h : l < r) :
    contribution f (overlap l₁ r₁ l r) = f (max l (min r r₁)) - f (max l (min r l₁)) := by
  unfold overlap contribution
  rw [if_neg (not_le.mpr h₁), if_neg (not_le.mpr h)]
  by_cases h3 : r₁ ≤ l ∨ r ≤ l₁
  · rw [if_pos h3]
    rcases h3 with h3 | h3
    · rw [max_eq_left ((min_le_right _ _).trans h3), max_eq_left ((min_le_right _ _).trans (h₁.le.trans h3)), sub_self]
    · rw [min_eq_left h3, min_eq_left (h3.trans h₁.le), sub_self]
  · rw [if_neg h3]
    rw [not_or, not_le, not_le] at h3
    simp only
    rw [max_eq_right (le_min h.le h3.1.le), min_eq_right h3.2.le]

/-- The overlaps of the bins of a list of increasing edges with a bin inside their range make up this bin: for every
additive quantity the contributions add up to the contribution of the bin. -/
theorem overlaps_partition {G : Type} [AddCommGroup G] (f : K → G) (edges : List K) (hs : edges.Pairwise (· < ·))
    (l r : K) (h : l < r) (e₀ e₁ : K) (h₀ : edges.head? = some e₀) (h₁ : edges.getLast? = some e₁)
    (hl : e₀ ≤ l) (hr : r ≤ e₁) :
    ((bins edges).map fun b => contribution f (overlap b.1 b.2 l r)).sum = f r - f l := by
  have key : ∀ (edges : List K), edges.Pairwise (· < ·) → ∀ e₀ e₁, edges.head? = some e₀ → edges.getLast? = some e₁ →
      ((bins edges).map fun b => contribution f (overlap b.1 b.2 l r)).sum =
        f (max l (min r e₁)) - f (max l (min r e₀)) := by
    intro edges
    induction edges with
    | nil => intro _ e₀ e₁ h0; simp at h0
    | cons a t ih =>
      intro hs e₀ e₁ h0 h1
      simp only [List.head?_cons, Option.some.injEq] at h0
      subst h0
      cases t with
      | nil =>
        simp only [List.getLast?_singleton, Option.some.injEq] at h1
        subst h1
        simp [bins]
      | cons b t =>
        have hab : a < b := (List.pairwise_cons.mp hs).1 b List.mem_cons_self
        rw [bins, List.map_cons, List.sum_cons, contribution_eq f a b l r hab h,
          ih hs.of_cons b e₁ rfl (by rw [List.getLast?_cons_cons] at h1; exact h1)]
        abel
  rw [key edges hs e₀ e₁ h₀ h₁, min_eq_left hr, max_eq_right h.le, min_eq_right (hl.trans h.le), max_eq_left hl]

example : ((bins [0, 2, 5, (9 : Int)]).map fun b => contribution id (overlap b.1 b.2 1 7)).sum = 6 := by decide

/-! ### The noise between photometric and spectroscopic galaxies -/

variable {F : Type} [Field F]

/-- The entries of the noise matrix of one spectroscopic bin, weighted with the numbers of photometric galaxies, add
up to the number of spectroscopic galaxies of that bin counted with the integration rule, divided by the stored
number: to one if the stored number is the integral. The rule is any additive one. -/
theorem noise_sum (f : K → F) (edges : List K) (hs : edges.Pairwise (· < ·)) (n : List F) (hn : n.length = edges.length - 1)
    (hn0 : ∀ x ∈ n, x ≠ 0) (l r : K) (h : l < r) (e₀ e₁ : K) (h₀ : edges.head? = some e₀)
    (h₁ : edges.getLast? = some e₁) (hl : e₀ ≤ l) (hr : r ≤ e₁) (N : F) (hN : N = f r - f l) (hN0 : N ≠ 0) :
    (((bins edges).zip n).map fun p =>
      p.2 * ((noiseEntry (fun a b => f b - f a) p.1 (l, r) p.2 N).toOption.getD 0)).sum = 1 := by
  have hlen : (bins edges).length = edges.length - 1 := by
    clear hs hn h₀ h₁
    induction edges with
    | nil => rfl
    | cons a t ih =>
      cases t with
      | nil => rfl
      | cons b t => rw [bins, List.length_cons, ih]; simp
  have hord : ∀ b ∈ bins edges, b.1 < b.2 := by
    clear hlen h₀ h₁ hn
    induction edges with
    | nil => simp [bins]
    | cons a t ih =>
      cases t with
      | nil => simp [bins]
      | cons c t =>
        rw [bins]
        intro b hb
        rcases List.mem_cons.mp hb with rfl | hb
        · exact (List.pairwise_cons.mp hs).1 c List.mem_cons_self
        · exact ih hs.of_cons b hb
  have e : (((bins edges).zip n).map fun p =>
      p.2 * ((noiseEntry (fun a b => f b - f a) p.1 (l, r) p.2 N).toOption.getD 0)) =
      ((bins edges).map fun b => contribution f (overlap b.1 b.2 l r)).map (· / N) := by
    have e2 : ∀ (bs : List (K × K)) (n : List F), n.length = bs.length → (∀ x ∈ n, x ≠ 0) → (∀ b ∈ bs, b.1 < b.2) →
        ((bs.zip n).map fun p =>
          p.2 * ((noiseEntry (fun a b => f b - f a) p.1 (l, r) p.2 N).toOption.getD 0)) =
        (bs.map fun b => contribution f (overlap b.1 b.2 l r)).map (· / N) := by
      intro bs
      induction bs with
      | nil => intro n _ _ _; simp
      | cons b bs ih =>
        intro n hn hn0 hb
        cases n with
        | nil => simp at hn
        | cons x n =>
          rw [List.zip_cons_cons, List.map_cons, List.map_cons, List.map_cons,
            ih n (by simpa using hn) (fun y hy => hn0 y (List.mem_cons_of_mem _ hy))
              (fun y hy => hb y (List.mem_cons_of_mem _ hy))]
          congr 1
          have hx : x ≠ 0 := hn0 x List.mem_cons_self
          unfold noiseEntry
          rcases ho : overlap b.1 b.2 l r with er | o
          · simp [contribution, Except.toOption]
          · rcases o with _ | ⟨a, c⟩
            · simp [contribution, Except.toOption]
            · simp only [contribution, Except.toOption, Option.getD_some]
              field_simp
    exact e2 _ _ (by rw [hn, hlen]) hn0 hord
  have hsum : ∀ l : List F, (l.map (· / N)).sum = l.sum / N := by
    intro l
    induction l with
    | nil => simp
    | cons x l ih => rw [List.map_cons, List.sum_cons, ih, List.sum_cons, add_div]
  rw [e, hsum, overlaps_partition f edges hs l r h e₀ e₁ h₀ h₁ hl hr, ← hN, div_self hN0]

theorem mapM_okR {A B E : Type} (f : A → Except E B) (g : A → B) (l : List A)
    (h : ∀ a ∈ l, f a = .ok (g a)) : l.mapM f = .ok (l.map g) := by
  induction l with
  | nil => rfl
  | cons a l ih =>
    rw [List.mapM_cons, h a List.mem_cons_self, ih fun b hb => h b (List.mem_cons_of_mem _ hb)]
    rfl

theorem mapM_errR {A B E : Type} (f : A → Except E B) (l : List A) (a : A) (ha : a ∈ l)
    (h : ∃ e, f a = .error e) : ∃ e, l.mapM f = .error e := by
  induction l with
  | nil => cases ha
  | cons b l ih =>
    rw [List.mapM_cons]
    cases hb : f b with
    | error e => exact ⟨e, rfl⟩
    | ok v =>
      rcases List.mem_cons.mp ha with rfl | ha
      · obtain ⟨e, he⟩ := h; rw [hb] at he; cases he
      · obtain ⟨e, he⟩ := ih ha
        exact ⟨e, by rw [he]; rfl⟩

/-- C44. The whole noise matrix: if every bin is in order, it has one row per photometric bin and one column per
spectroscopic bin, and an entry is the integral over the common interval divided by the two numbers of galaxies, or zero
if the bins have no common interval. -/
theorem noise_matrix_spec (m : K → K → F) (ph sp : List ((K × K) × F)) (hp : ∀ p ∈ ph, p.1.1 < p.1.2)
    (hs : ∀ s ∈ sp, s.1.1 < s.1.2) :
    ∃ M : List (List F), noiseMatrix m ph sp = .ok M ∧ M.length = ph.length ∧
      ∀ (i : Nat) (p : (K × K) × F), ph[i]? = some p → ∃ row : List F, M[i]? = some row ∧ row.length = sp.length ∧
        ∀ (j : Nat) (s : (K × K) × F), sp[j]? = some s → row[j]? = some
          (if max p.1.1 s.1.1 < min p.1.2 s.1.2 then m (max p.1.1 s.1.1) (min p.1.2 s.1.2) / (p.2 * s.2) else 0) := by
  have entry : ∀ p ∈ ph, ∀ s ∈ sp, noiseEntry m p.1 s.1 p.2 s.2 = .ok
      (if max p.1.1 s.1.1 < min p.1.2 s.1.2 then m (max p.1.1 s.1.1) (min p.1.2 s.1.2) / (p.2 * s.2) else 0) := by
    intro p hp' s hs'
    have h1 := hp p hp'
    have h2 := hs s hs'
    have hiff : max p.1.1 s.1.1 < min p.1.2 s.1.2 ↔ ¬ (p.1.2 ≤ s.1.1 ∨ s.1.2 ≤ p.1.1) := by
      rw [max_lt_iff, lt_min_iff, lt_min_iff]
      constructor
      · rintro ⟨⟨_, h3⟩, h4, _⟩ (h | h)
        · exact absurd h (not_le.mpr h4)
        · exact absurd h (not_le.mpr h3)
      · intro h
        rw [not_or, not_le, not_le] at h
        exact ⟨⟨h1, h.2⟩, h.1, h2⟩
    unfold noiseEntry overlap
    rw [if_neg (not_le.mpr h1), if_neg (not_le.mpr h2)]
    by_cases h : p.1.2 ≤ s.1.1 ∨ s.1.2 ≤ p.1.1
    · rw [if_pos h, if_neg (fun h' => hiff.mp h' h)]
    · rw [if_neg h, if_pos (hiff.mpr h), max_comm s.1.1, min_comm s.1.2]
  refine ⟨ph.map fun p => sp.map fun s =>
    (if max p.1.1 s.1.1 < min p.1.2 s.1.2 then m (max p.1.1 s.1.1) (min p.1.2 s.1.2) / (p.2 * s.2) else 0), ?_, ?_, ?_⟩
  · unfold noiseMatrix
    exact mapM_okR _ _ _ fun p hp' => mapM_okR _ _ _ fun s hs' => entry p hp' s hs'
  · simp
  · intro i p hi
    refine ⟨_, by rw [List.getElem?_map, hi]; rfl, by simp, ?_⟩
    intro j s hj
    rw [List.getElem?_map, hj]
    rfl

/-- C44. A bin out of order makes the whole computation fail, if there is a bin of the other probe. -/
theorem noise_matrix_refused (m : K → K → F) (ph sp : List ((K × K) × F)) (p s) (hp : p ∈ ph) (hs : s ∈ sp)
    (h : p.1.2 ≤ p.1.1 ∨ s.1.2 ≤ s.1.1) : ∃ e, noiseMatrix m ph sp = .error e := by
  unfold noiseMatrix
  refine mapM_errR _ _ p hp (mapM_errR _ _ s hs ⟨.wrongOrder, ?_⟩)
  unfold noiseEntry
  rw [(overlap_refused _ _ _ _).mpr h]

example : noiseMatrix (fun a b : Rat => b - a) [((0, 2), 3), ((2, 4), 2)] [((1, 3), 5)] = .ok [[1 / 15], [1 / 10]] ∧
    (noiseMatrix (fun a b : Rat => b - a) [((2, 0), 3)] [((1, 3), 5)]).toOption = none := by decide +kernel

end

/-! ### C45: the piecewise bias -/

section
variable {K V : Type} [LinearOrder K]

theorem lastTrue_false (d : V) (l : List (Bool × V)) (h : ∀ q ∈ l, q.1 = false) : lastTrue d l = d := by
  unfold lastTrue
  induction l with
  | nil => rfl
  | cons q l ih =>
    rw [List.foldl_cons, h q List.mem_cons_self]
    exact ih (fun p hp => h p (List.mem_cons_of_mem _ hp))

theorem lastTrue_at (d : V) (l : List (Bool × V)) (k : Nat) (v : V) (h : l[k]? = some (true, v))
    (hl : ∀ j q, k < j → l[j]? = some q → q.1 = false) : lastTrue d l = v := by
  induction l generalizing d k with
  | nil => simp at h
  | cons p l ih =>
    cases k with
    | zero =>
      simp only [List.getElem?_cons_zero, Option.some.injEq] at h
      subst h
      have e : lastTrue d ((true, v) :: l) = lastTrue v l := rfl
      rw [e]
      apply lastTrue_false
      intro q hq
      obtain ⟨j, hj⟩ := List.mem_iff_getElem?.mp hq
      exact hl (j + 1) q (by omega) (by simpa using hj)
    | succ k =>
      have e : lastTrue d (p :: l) = lastTrue (if p.1 then p.2 else d) l := rfl
      rw [e]
      exact ih _ k (by simpa using h) (fun j q hj hq => hl (j + 1) q (by omega) (by simpa using hq))

theorem bins_getElem (edges : List K) (i : Nat) (a b : K) :
    (bins edges)[i]? = some (a, b) ↔ edges[i]? = some a ∧ edges[i + 1]? = some b := by
  induction edges generalizing i with
  | nil => simp [bins]
  | cons x t ih =>
    cases t with
    | nil => cases i <;> simp [bins]
    | cons y t =>
      rw [bins]
      cases i with
      | zero => simp
      | succ i => rw [List.getElem?_cons_succ, ih]; simp

theorem bins_length (edges : List K) : (bins edges).length = edges.length - 1 := by
  induction edges with
  | nil => rfl
  | cons a t ih =>
    cases t with
    | nil => rfl
    | cons b t => rw [bins, List.length_cons, ih]; simp

/-- The bias at redshift `z`: the value of the bin that contains `z`, where a bin contains its lower and not its upper
edge; below the first edge the first value, from the last edge on the last value. -/
def IsBias (edges : List K) (b : List V) (z : K) (v : V) : Prop :=
  (∀ e, edges.head? = some e → z < e → b.head? = some v) ∧
  (∀ (i : Nat) a c, edges[i]? = some a → edges[i + 1]? = some c → a ≤ z → z < c → b[i]? = some v) ∧
  (∀ e, edges.getLast? = some e → e ≤ z → b.getLast? = some v)

theorem conditions_value (zero : V) (edges : List K) (hs : edges.Pairwise (· < ·)) (b : List V)
    (hb : b.length = edges.length - 1) (b0 b1 : V) (e0 e1 z : K) (h0 : b.head? = some b0) (h1 : b.getLast? = some b1)
    (h2 : edges.head? = some e0) (h3 : edges.getLast? = some e1) :
    IsBias edges b z (lastTrue zero (conditions edges b b0 b1 e0 e1 z)) := by
  have hlt : ∀ (i j : Nat) a c, i < j → edges[i]? = some a → edges[j]? = some c → a < c := by
    intro i j a c hij hi hj
    obtain ⟨hi', rfl⟩ := List.getElem?_eq_some_iff.mp hi
    obtain ⟨hj', rfl⟩ := List.getElem?_eq_some_iff.mp hj
    exact List.pairwise_iff_getElem.mp hs i j hi' hj' hij
  have hle : ∀ (i j : Nat) a c, i ≤ j → edges[i]? = some a → edges[j]? = some c → a ≤ c := by
    intro i j a c hij hi hj
    rcases Nat.lt_or_eq_of_le hij with h | rfl
    · exact (hlt i j a c h hi hj).le
    · rw [hi] at hj
      exact (Option.some.inj hj).le
  have hn : 0 < b.length := by
    cases b with
    | nil => simp at h0
    | cons _ _ => simp
  have he0 : edges[0]? = some e0 := by rw [← List.head?_eq_getElem?]; exact h2
  have he1 : edges[edges.length - 1]? = some e1 := by rw [← List.getLast?_eq_getElem?]; exact h3
  have hb1 : b[b.length - 1]? = some b1 := by rw [← List.getLast?_eq_getElem?]; exact h1
  have hzl : ((bins edges).zip b).length = b.length := by
    rw [List.length_zip, bins_length, hb, min_self]
  -- the entries of the list of conditions
  have c0 : (conditions edges b b0 b1 e0 e1 z)[0]? = some (decide (z < e0), b0) := rfl
  have cm : ∀ (i : Nat) a c v, edges[i]? = some a → edges[i + 1]? = some c → b[i]? = some v →
      (conditions edges b b0 b1 e0 e1 z)[i + 1]? = some (decide (a ≤ z ∧ z ≤ c), v) := by
    intro i a c v ha hc hv
    obtain ⟨hi, _⟩ := List.getElem?_eq_some_iff.mp hv
    have hz : ((bins edges).zip b)[i]? = some ((a, c), v) :=
      List.getElem?_zip_eq_some.mpr ⟨(bins_getElem edges i a c).mpr ⟨ha, hc⟩, hv⟩
    unfold conditions
    rw [List.cons_append, List.getElem?_cons_succ, List.getElem?_append_left (by rw [List.length_map, hzl]; exact hi),
      List.getElem?_map, hz]
    rfl
  have cl : (conditions edges b b0 b1 e0 e1 z)[b.length + 1]? = some (decide (e1 < z), b1) := by
    unfold conditions
    rw [List.cons_append, List.getElem?_cons_succ, List.getElem?_append_right (by rw [List.length_map, hzl]),
      List.length_map, hzl, Nat.sub_self]
    rfl
  have clen : (conditions edges b b0 b1 e0 e1 z).length = b.length + 2 := by
    unfold conditions
    simp [hzl]
  -- every later entry
  have later : ∀ (j : Nat) q, (conditions edges b b0 b1 e0 e1 z)[j]? = some q → j ≠ 0 →
      (∃ (i : Nat) (a c : K), j = i + 1 ∧ i < b.length ∧ edges[i]? = some a ∧ edges[i + 1]? = some c ∧ q.1 = decide (a ≤ z ∧ z ≤ c)) ∨
      (j = b.length + 1 ∧ q.1 = decide (e1 < z)) := by
    intro j q hq hj
    obtain ⟨hjl, _⟩ := List.getElem?_eq_some_iff.mp hq
    rw [clen] at hjl
    by_cases hjb : j = b.length + 1
    · right
      subst hjb
      rw [cl] at hq
      cases hq
      exact ⟨rfl, rfl⟩
    · left
      obtain ⟨i, rfl⟩ : ∃ i, j = i + 1 := ⟨j - 1, by omega⟩
      have hi : i < b.length := by omega
      obtain ⟨a, ha⟩ : ∃ a, edges[i]? = some a := ⟨edges[i]'(by omega), List.getElem?_eq_getElem (by omega)⟩
      obtain ⟨c, hc⟩ : ∃ c, edges[i + 1]? = some c := ⟨edges[i + 1]'(by omega), List.getElem?_eq_getElem (by omega)⟩
      rw [cm i a c _ ha hc (List.getElem?_eq_getElem hi)] at hq
      cases hq
      exact ⟨i, a, c, rfl, hi, ha, hc, rfl⟩
  refine ⟨?_, ?_, ?_⟩
  · intro e he hz
    rw [h2] at he
    cases he
    rw [h0]
    congr 1
    refine (lastTrue_at zero _ 0 b0 (by rw [c0, decide_eq_true hz]) ?_).symm
    intro j q hj hq
    rcases later j q hq (by omega) with ⟨i, a, c, rfl, hi, ha, hc, e⟩ | ⟨rfl, e⟩
    · rw [e, decide_eq_false_iff_not]
      rintro ⟨h, -⟩
      exact absurd (lt_of_lt_of_le hz ((hle 0 i _ _ (by omega) he0 ha).trans h)) (lt_irrefl _)
    · rw [e, decide_eq_false_iff_not]
      intro h
      exact absurd (lt_trans hz (lt_of_le_of_lt (hle 0 _ _ _ (by omega) he0 he1) h)) (lt_irrefl _)
  · intro i a c ha hc hz1 hz2
    obtain ⟨hil, _⟩ := List.getElem?_eq_some_iff.mp hc
    have hi : i < b.length := by omega
    rw [List.getElem?_eq_getElem hi]
    congr 1
    refine (lastTrue_at zero _ (i + 1) b[i]
      (by rw [cm i a c _ ha hc (List.getElem?_eq_getElem hi), decide_eq_true ⟨hz1, hz2.le⟩]) ?_).symm
    intro j q hj hq
    rcases later j q hq (by omega) with ⟨i', a', c', rfl, hi', ha', hc', e⟩ | ⟨rfl, e⟩
    · rw [e, decide_eq_false_iff_not]
      rintro ⟨h, -⟩
      exact absurd (lt_of_lt_of_le hz2 ((hle (i + 1) i' _ _ (by omega) hc ha').trans h)) (lt_irrefl _)
    · rw [e, decide_eq_false_iff_not]
      intro h
      exact absurd (lt_trans hz2 (lt_of_le_of_lt (hle (i + 1) _ _ _ (by omega) hc he1) h)) (lt_irrefl _)
  · intro e he hz
    rw [h3] at he
    cases he
    rw [h1]
    congr 1
    rcases lt_or_eq_of_le hz with hz | hz
    · refine (lastTrue_at zero _ (b.length + 1) b1 (by rw [cl, decide_eq_true hz]) ?_).symm
      intro j q hj hq
      obtain ⟨hjl, _⟩ := List.getElem?_eq_some_iff.mp hq
      omega
    · subst hz
      obtain ⟨a, ha⟩ : ∃ a, edges[b.length - 1]? = some a :=
        ⟨edges[b.length - 1]'(by omega), List.getElem?_eq_getElem (by omega)⟩
      have hc : edges[b.length - 1 + 1]? = some e1 := by
        rw [show b.length - 1 + 1 = edges.length - 1 by omega]
        exact he1
      refine (lastTrue_at zero _ (b.length - 1 + 1) b1
        (by rw [cm _ a e1 b1 ha hc hb1, decide_eq_true ⟨hle _ _ _ _ (by omega) ha hc, le_rfl⟩]) ?_).symm
      intro j q hj hq
      rcases later j q hq (by omega) with ⟨i', a', c', rfl, hi', ha', hc', e⟩ | ⟨rfl, e⟩
      · omega
      · rw [e, decide_eq_false_iff_not]
        exact lt_irrefl _

/-- The piecewise bias: one row per bin, each with the bias at every redshift of the grid. -/
theorem piecewise_values (zero : V) (edges : List K) (hs : edges.Pairwise (· < ·)) (pars : List (Str × V))
    (grid : List K) (rows : List (List V)) (h : piecewise zero edges pars grid = .ok rows) :
    ∃ b, sortedValues pars = .ok b ∧ rows.length = edges.length - 1 ∧
      ∀ row ∈ rows, row.length = grid.length ∧
        ∀ (m : Nat) z v, grid[m]? = some z → row[m]? = some v → IsBias edges b z v := by
  unfold piecewise at h
  rcases hb : sortedValues pars with e | b
  · rw [hb] at h
    exact absurd h (by simp)
  · rw [hb] at h
    simp only at h
    split_ifs at h with hl
    refine ⟨b, rfl, ?_⟩
    split at h
    · rename_i b0 b1 e0 e1 h0 h1 h2 h3
      simp only [Except.ok.injEq] at h
      subst h
      refine ⟨by rw [List.length_replicate, hl], fun row hrow => ?_⟩
      rw [List.eq_of_mem_replicate hrow]
      refine ⟨by simp, fun m z v hz hv => ?_⟩
      rw [List.getElem?_map, hz] at hv
      cases hv
      exact conditions_value zero edges hs b hl b0 b1 e0 e1 z h0 h1 h2 h3
    · exact absurd h (by simp)

/-- A wrong number of values is refused, the right number accepted. -/
theorem piecewise_number (zero : V) (edges : List K) (pars : List (Str × V)) (grid : List K) (b : List V)
    (hb : sortedValues pars = .ok b) :
    (b.length ≠ edges.length - 1 → piecewise zero edges pars grid = .error .biasError) ∧
    (b.length = edges.length - 1 → 0 < b.length → ∃ rows, piecewise zero edges pars grid = .ok rows) := by
  unfold piecewise
  rw [hb]
  constructor
  · intro h
    simp [h]
  · intro h h0
    simp only [h, if_true]
    obtain ⟨x, hx⟩ : ∃ x, b.head? = some x := ⟨b.head (by rintro rfl; simp at h0), List.head?_eq_some_head _⟩
    obtain ⟨y, hy⟩ : ∃ y, b.getLast? = some y :=
      ⟨b.getLast (by rintro rfl; simp at h0), List.getLast?_eq_some_getLast _⟩
    have hne : edges ≠ [] := by rintro rfl; simp at h; simp [h] at h0
    rw [hx, hy, List.head?_eq_some_head hne, List.getLast?_eq_some_getLast hne]
    exact ⟨_, rfl⟩

/-- The number that a parameter name gives. -/
def idx (q : Str × V) : Nat := (biasIndex q.1).getD 0

/-- The values are taken in the numerical order of the numbers in the parameter names. -/
theorem sorted_by_index (pars : List (Str × V)) (h : ∀ q ∈ pars, (biasIndex q.1).isSome) :
    ∃ ps : List (Str × V), ps.Perm pars ∧ ps.Pairwise (fun p q => idx p ≤ idx q) ∧ sortedValues pars = .ok (ps.map (·.2)) := by
  refine ⟨pars.insertionSort (fun p q => idx p ≤ idx q), List.perm_insertionSort _ _, ?_, ?_⟩
  · have : Std.Total (fun p q : Str × V => idx p ≤ idx q) := ⟨fun a b => le_total _ _⟩
    have : IsTrans (Str × V) (fun p q => idx p ≤ idx q) := ⟨fun a b c => le_trans⟩
    exact List.pairwise_insertionSort _ _
  · unfold sortedValues
    rw [if_pos (List.all_eq_true.mpr h)]
    rfl

/-- The order of the parameter dictionary does not matter, if the numbers are distinct. -/
theorem order_irrelevant (pars pars' : List (Str × V)) (hp : pars.Perm pars')
    (hd : pars.Pairwise (fun p q => idx p ≠ idx q)) : sortedValues pars = sortedValues pars' := by
  by_cases h : ∀ q ∈ pars, (biasIndex q.1).isSome
  · obtain ⟨ps, p1, s1, e1⟩ := sorted_by_index pars h
    obtain ⟨ps', p2, s2, e2⟩ := sorted_by_index pars' (fun q hq => h q (hp.mem_iff.mpr hq))
    rw [e1, e2]
    have hperm : ps.Perm ps' := (p1.trans hp).trans p2.symm
    have hd' : ps.Pairwise (fun p q => idx p ≠ idx q) :=
      (p1.pairwise_iff (fun {a b} hab => Ne.symm hab)).mpr hd
    have hd2 : ps'.Pairwise (fun p q => idx p ≠ idx q) :=
      (hperm.pairwise_iff (fun {a b} hab => Ne.symm hab)).mp hd'
    have l1 : ps.Pairwise (fun p q => idx p < idx q) :=
      (s1.and hd').imp (fun hab => lt_of_le_of_ne hab.1 hab.2)
    have l2 : ps'.Pairwise (fun p q => idx p < idx q) :=
      (s2.and hd2).imp (fun hab => lt_of_le_of_ne hab.1 hab.2)
    have : ps = ps' := List.Perm.eq_of_pairwise (fun a b _ _ hab hba => absurd (hab.trans hba) (lt_irrefl _)) l1 l2 hperm
    rw [this]
  · have h' : ¬ ∀ q ∈ pars', (biasIndex q.1).isSome := fun hh => h (fun q hq => hh q (hp.mem_iff.mp hq))
    unfold sortedValues
    rw [if_neg (by rwa [List.all_eq_true]), if_neg (by rwa [List.all_eq_true])]

theorem biasIndex_append (a : Str) (ha : ∀ c ∈ a, isDigit c = false) (s : Str) : biasIndex (a ++ s) = biasIndex s := by
  induction a with
  | nil => rfl
  | cons c a ih =>
    rw [List.cons_append, biasIndex, ha c List.mem_cons_self]
    exact ih (fun d hd => ha d (List.mem_cons_of_mem _ hd))

/-- A name made of letters and a number gives this number, also when it has several digits. -/
theorem biasIndex_name (a : Str) (ha : ∀ c ∈ a, isDigit c = false) (n : Nat) : biasIndex (a ++ decStr n) = some n := by
  rw [biasIndex_append a ha]
  have h := Batch.span_all isDigit (decStr n) (decStr_digits n) [] (by simp)
  rw [List.append_nil] at h
  rcases hd : decStr n with _ | ⟨c, s⟩
  · exact absurd hd (decStr_ne_nil n)
  · have hc : isDigit c = true := decStr_digits n c (by rw [hd]; exact List.mem_cons_self)
    rw [biasIndex, hc, if_pos rfl, ← hd, h, decVal_decStr]

example : sortedValues [("bgph2".toList, 'b'), ("bgph10".toList, 'c'), ("bgph1".toList, 'a')] =
    .ok ['a', 'b', 'c'] := by decide +kernel

example : piecewise 0 [0, 10, (20 : Int)] [("b2".toList, (7 : Int)), ("b1".toList, 5)] [-1, 0, 5, 10, 15, 20, 25] =
    .ok [[5, 5, 5, 7, 7, 7, 7], [5, 5, 5, 7, 7, 7, 7]] := by decide +kernel

/-! ### C68: the constant bias -/

/-- The constant bias gives each bin the value at its place in the dictionary. -/
theorem constant_values_partial (edges : List K) (pars : List (Str × V)) (grid : List K) :
    (pars.length ≠ edges.length - 1 → constant edges pars grid = .error .biasError) ∧
    (pars.length = edges.length - 1 →
      ∃ rows, constant edges pars grid = .ok rows ∧ rows.length = pars.length ∧
        ∀ (i : Nat) (row : List V) (q : Str × V), rows[i]? = some row → pars[i]? = some q → row = List.replicate grid.length q.2) := by
  unfold constant
  constructor
  · intro h
    rw [if_neg h]
  · intro h
    rw [if_pos h]
    refine ⟨_, rfl, by simp, fun i row q hr hq => ?_⟩
    rw [List.getElem?_map, hq] at hr
    cases hr
    rfl

/-- Witness: the order of the dictionary matters, so values read from a file, which come in alphabetical order with
number 10 before number 2, go to the wrong bins. -/
theorem constant_order_matters :
    constant [0, 1, 2, (3 : Int)] [("b1".toList, 'x'), ("b10".toList, 'z'), ("b2".toList, 'y')] [(0 : Int)] =
      .ok [['x'], ['z'], ['y']] ∧
    (piecewise '0' [0, 1, 2, (3 : Int)] [("b1".toList, 'x'), ("b10".toList, 'z'), ("b2".toList, 'y')] [1, 2]) =
      .ok [['y', 'z'], ['y', 'z'], ['y', 'z']] := by
  decide +kernel

end

end Seyfert.Redshift
