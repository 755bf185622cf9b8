import Verif.Spec.SCamera
import Verif.Lemmas.Names
import Verif.Lemmas.PyStr
import Verif.Lemmas.PyDict
import Verif.Props.Names

/-!
C135. Conversion of the angular spectra of another code.
C136. Derivatives of the angular spectra of another code.
-/

namespace Seyfert.SCam

open Stored (N)

/-! ### The files of the cosmologies -/

section last
variable {A K : Type}

theorem lastOf_nil (f : A → Option K) (k : K) (a : A) : ¬ LastOf f [] k a := by
  rintro ⟨pre, post, h, _⟩
  cases pre <;> cases h

/-- An element is the last one of its kind either in the tail, or as the head when the tail has none. -/
theorem lastOf_cons (f : A → Option K) (l : List A) (k : K) (a b : A) :
    LastOf f (b :: l) k a ↔ LastOf f l k a ∨ (b = a ∧ f a = some k ∧ ∀ x ∈ l, f x ≠ some k) := by
  constructor
  · rintro ⟨pre, post, h, h1, h2⟩
    cases pre with
    | nil =>
      obtain ⟨e1, e2⟩ := List.cons.inj h
      subst e1 e2
      exact Or.inr ⟨rfl, h1, h2⟩
    | cons p pre =>
      exact Or.inl ⟨pre, post, (List.cons.inj h).2, h1, h2⟩
  · rintro (⟨pre, post, h, h1, h2⟩ | ⟨e, h1, h2⟩)
    · exact ⟨b :: pre, post, by rw [h]; rfl, h1, h2⟩
    · exact ⟨[], l, by rw [e]; rfl, h1, h2⟩

theorem lastOf_exists [DecidableEq K] (f : A → Option K) (l : List A) (k : K) :
    (∃ a, LastOf f l k a) ↔ ∃ a ∈ l, f a = some k := by
  induction l with
  | nil => simp [lastOf_nil]
  | cons b l ih =>
    simp only [lastOf_cons, exists_or, ih, List.mem_cons, exists_eq_or_imp]
    by_cases h : ∃ a ∈ l, f a = some k
    · simp [h]
    · simp only [h, false_or, or_false]
      constructor
      · rintro ⟨a, e, h1, _⟩
        rw [e]; exact h1
      · intro h1
        exact ⟨b, rfl, h1, fun x hx hk => h ⟨x, hx, hk⟩⟩

theorem lastOf_unique {f : A → Option K} {l : List A} {k : K} {a b : A} (ha : LastOf f l k a) (hb : LastOf f l k b) :
    a = b := by
  induction l with
  | nil => exact absurd ha (lastOf_nil f k a)
  | cons c l ih =>
    rw [lastOf_cons] at ha hb
    have none_in : ∀ {y : A}, LastOf f l k y → (∀ x ∈ l, f x ≠ some k) → False := by
      rintro y ⟨pre, post, h, h1, _⟩ h2
      exact h2 y (by rw [h]; simp) h1
    rcases ha with ha | ⟨e, _, h⟩ <;> rcases hb with hb | ⟨e', _, h'⟩
    · exact ih ha hb
    · exact (none_in ha h').elim
    · exact (none_in hb h).elim
    · exact e.symm.trans e'

/-- When no two elements are of one kind, the order of the list does not matter. -/
theorem lastOf_single {f : A → Option K} {l : List A} {k : K} {a : A} (h : (l.filterMap f).Nodup) :
    LastOf f l k a ↔ a ∈ l ∧ f a = some k := by
  induction l with
  | nil => simp [lastOf_nil]
  | cons b l ih =>
    have hl : (l.filterMap f).Nodup := by
      cases hb : f b with
      | none => rwa [List.filterMap_cons_none hb] at h
      | some j => rw [List.filterMap_cons_some hb] at h; exact (List.nodup_cons.1 h).2
    rw [lastOf_cons, ih hl, List.mem_cons]
    constructor
    · rintro (⟨h1, h2⟩ | ⟨e, h1, _⟩)
      · exact ⟨Or.inr h1, h2⟩
      · exact ⟨Or.inl e.symm, h1⟩
    · rintro ⟨e | h1, h2⟩
      · refine Or.inr ⟨e.symm, h2, fun x hx hk => ?_⟩
        rw [← e, List.filterMap_cons_some h2] at h
        exact (List.nodup_cons.1 h).1 (List.mem_filterMap.2 ⟨x, hx, hk⟩)
      · exact Or.inl ⟨h1, h2⟩

end last

theorem cosmoFiles_ok_iff (c : Param.Coll ℚ) (d : Dict Key Content) (l : List (Str × Content)) :
    (∃ e, cosmoFiles c d l = .ok e) ↔ ∀ f ∈ l, ∃ k, cosmoOf c f = some k := by
  induction l generalizing d with
  | nil => simp [cosmoFiles]
  | cons f l ih =>
    obtain ⟨n, x⟩ := f
    unfold cosmoFiles
    cases h : Ext.parseIST c n with
    | error e => simp [cosmoOf, h, Except.toOption]
    | ok k =>
      have hk : cosmoOf c (n, x) = some k := by simp [cosmoOf, h, Except.toOption]
      rw [List.forall_mem_cons, hk]
      show (∃ e, cosmoFiles c (PyDict.set d k x) l = .ok e) ↔ _
      rw [ih]
      exact ⟨fun h => ⟨⟨k, rfl⟩, h⟩, fun h => h.2⟩

theorem cosmoFiles_lookup (c : Param.Coll ℚ) {d e : Dict Key Content} {l : List (Str × Content)}
    (h : cosmoFiles c d l = .ok e) (k : Key) (x : Content) :
    e.lookup k = some x ↔ (∃ n, LastOf (cosmoOf c) l k (n, x)) ∨
      (d.lookup k = some x ∧ ∀ f ∈ l, cosmoOf c f ≠ some k) := by
  induction l generalizing d with
  | nil =>
    obtain rfl : d = e := by injection h
    simp [lastOf_nil]
  | cons f l ih =>
    obtain ⟨n, y⟩ := f
    unfold cosmoFiles at h
    cases hp : Ext.parseIST c n with
    | error e => rw [hp] at h; cases h
    | ok j =>
      rw [hp] at h
      rw [ih h]
      have hj : cosmoOf c (n, y) = some j := by simp [cosmoOf, hp, Except.toOption]
      simp only [lastOf_cons, exists_or, or_assoc, List.forall_mem_cons, hj]
      refine or_congr_right ?_
      rw [PyDict.lookup_set]
      constructor
      · rintro ⟨h1, h2⟩
        by_cases e : k = j
        · rw [if_pos e] at h1
          injection h1 with h1
          subst h1 e
          exact Or.inl ⟨n, rfl, hj, h2⟩
        · rw [if_neg e] at h1
          exact Or.inr ⟨h1, fun e' => e (Option.some.inj e').symm, h2⟩
      · rintro (⟨m, e, h1, h2⟩ | ⟨h1, h2, h3⟩)
        · obtain ⟨e1, e2⟩ := Prod.mk.inj e
          subst e1 e2
          have : k = j := (Option.some.inj (hj.symm.trans h1)).symm
          rw [if_pos this]
          exact ⟨rfl, h2⟩
        · rw [if_neg (fun e => h2 (by rw [e]))]
          exact ⟨h1, h3⟩

theorem cosmoFiles_nodup (c : Param.Coll ℚ) {d e : Dict Key Content} {l : List (Str × Content)}
    (h : cosmoFiles c d l = .ok e) (hd : (d.map (·.1)).Nodup) : (e.map (·.1)).Nodup := by
  induction l generalizing d with
  | nil =>
    obtain rfl : d = e := by injection h
    exact hd
  | cons f l ih =>
    obtain ⟨n, y⟩ := f
    unfold cosmoFiles at h
    cases hp : Ext.parseIST c n with
    | error e => rw [hp] at h; cases h
    | ok j => rw [hp] at h; exact ih h (PyDict.nodup_set _ _ _ hd)

theorem cosmoFiles_keys (c : Param.Coll ℚ) {e : Dict Key Content} {l : List (Str × Content)}
    (h : cosmoFiles c [] l = .ok e) (k : Key) : k ∈ e.map (·.1) ↔ ∃ f ∈ l, cosmoOf c f = some k := by
  rw [← PyDict.lookup_isSome_iff, Option.isSome_iff_exists, ← lastOf_exists]
  constructor
  · rintro ⟨x, hx⟩
    rcases (cosmoFiles_lookup c h k x).1 hx with ⟨n, hn⟩ | ⟨h1, _⟩
    · exact ⟨_, hn⟩
    · cases h1
  · rintro ⟨⟨n, x⟩, hn⟩
    exact ⟨x, (cosmoFiles_lookup c h k x).2 (Or.inl ⟨n, hn⟩)⟩

theorem sameKeys_iff (d d' : Dict Key Content) :
    sameKeys d d' = true ↔ ∀ k, k ∈ d.map (·.1) ↔ k ∈ d'.map (·.1) := by
  unfold sameKeys
  rw [Bool.and_eq_true, List.all_eq_true, List.all_eq_true]
  simp only [List.contains_iff_mem]
  constructor
  · rintro ⟨h1, h2⟩ k
    constructor
    · intro hk
      obtain ⟨q, hq, rfl⟩ := List.mem_map.1 hk
      exact h1 q hq
    · intro hk
      obtain ⟨q, hq, rfl⟩ := List.mem_map.1 hk
      exact h2 q hq
  · intro h
    exact ⟨fun q hq => (h q.1).1 (List.mem_map_of_mem hq), fun q hq => (h q.1).2 (List.mem_map_of_mem hq)⟩

/-- The files are accepted exactly if every name is understood and the three directories have files of the same
cosmologies. -/
theorem build_ok_iff (c : Param.Coll ℚ) (s : Src) : (∃ d, build c s = .ok d) ↔
    (∀ f ∈ s.ph ++ s.sp ++ s.xc, ∃ k, cosmoOf c f = some k) ∧
    (∀ k, (∃ f ∈ s.ph, cosmoOf c f = some k) ↔ ∃ f ∈ s.sp, cosmoOf c f = some k) ∧
    ∀ k, (∃ f ∈ s.ph, cosmoOf c f = some k) ↔ ∃ f ∈ s.xc, cosmoOf c f = some k := by
  have hall : (∀ f ∈ s.ph ++ s.sp ++ s.xc, ∃ k, cosmoOf c f = some k) ↔ (∃ e, cosmoFiles c [] s.ph = .ok e) ∧
      (∃ e, cosmoFiles c [] s.sp = .ok e) ∧ ∃ e, cosmoFiles c [] s.xc = .ok e := by
    rw [cosmoFiles_ok_iff, cosmoFiles_ok_iff, cosmoFiles_ok_iff]
    simp only [List.forall_mem_append, and_assoc]
  rw [hall]
  unfold build
  cases h1 : cosmoFiles c [] s.ph with
  | error e => simp
  | ok ph => cases h2 : cosmoFiles c [] s.sp with
    | error e => simp
    | ok sp => cases h3 : cosmoFiles c [] s.xc with
      | error e => simp
      | ok xc =>
        simp only [← cosmoFiles_keys c h1, ← cosmoFiles_keys c h2, ← cosmoFiles_keys c h3, ← sameKeys_iff]
        cases sameKeys ph sp <;> cases sameKeys ph xc <;> simp

/-- Each cosmology gets the last listed file of its name from each of the three directories. -/
theorem build_files {c : Param.Coll ℚ} {s : Src} {d : Dict Key (Content × Content × Content)} (h : build c s = .ok d) :
    (d.map (·.1)).Nodup ∧ ∀ k a b x, (k, a, b, x) ∈ d ↔ (∃ n, LastOf (cosmoOf c) s.ph k (n, a)) ∧
      (∃ n, LastOf (cosmoOf c) s.sp k (n, b)) ∧ ∃ n, LastOf (cosmoOf c) s.xc k (n, x) := by
  unfold build at h
  cases h1 : cosmoFiles c [] s.ph with
  | error e => rw [h1] at h; cases h
  | ok ph => cases h2 : cosmoFiles c [] s.sp with
    | error e => rw [h1, h2] at h; cases h
    | ok sp => cases h3 : cosmoFiles c [] s.xc with
      | error e => rw [h1, h2, h3] at h; cases h
      | ok xc =>
        rw [h1, h2, h3] at h
        dsimp only at h
        cases hs : sameKeys ph sp with
        | false => rw [hs] at h; cases h
        | true => cases hx : sameKeys ph xc with
          | false => rw [hs, hx] at h; cases h
          | true =>
            rw [hs, hx] at h
            injection h with h
            have hn := cosmoFiles_nodup c h1 List.nodup_nil
            constructor
            · rw [← h]
              refine List.Nodup.sublist ?_ hn
              clear * -
              induction ph with
              | nil => exact List.Sublist.refl _
              | cons q ph ih =>
                rw [List.filterMap_cons]
                split
                · exact ih.trans (List.sublist_cons_self _ _)
                · next r hr =>
                  have : r.1 = q.1 := by
                    split at hr
                    · injection hr with hr
                      rw [← hr]
                    · cases hr
                  rw [List.map_cons, List.map_cons, this]
                  exact ih.cons_cons _
            · intro k a b x
              have l1 := cosmoFiles_lookup c h1 k a
              have l2 := cosmoFiles_lookup c h2 k b
              have l3 := cosmoFiles_lookup c h3 k x
              simp only [List.lookup_nil, reduceCtorEq, false_and, or_false] at l1 l2 l3
              rw [← l1, ← l2, ← l3, ← h, List.mem_filterMap]
              constructor
              · rintro ⟨q, hq, hm⟩
                split at hm
                · next b' x' hb hx =>
                  injection hm with hm
                  obtain ⟨e1, e2⟩ := Prod.mk.inj hm
                  obtain ⟨e2, e3⟩ := Prod.mk.inj e2
                  obtain ⟨e3, e4⟩ := Prod.mk.inj e3
                  subst e1 e2 e3 e4
                  exact ⟨PyDict.lookup_of_mem ph hn hq, hb, hx⟩
                · cases hm
              · rintro ⟨ha, hb, hx⟩
                refine ⟨(k, a), PyDict.mem_of_lookup ha, ?_⟩
                simp only [hb, hx]

/-! ### Reading the spectra -/

theorem mapM_length {A B E : Type} (f : A → Except E B) : ∀ (l : List A) (r : List B), l.mapM f = .ok r →
    r.length = l.length
  | [], r, h => by
    rw [List.mapM_nil] at h
    injection h with h
    rw [← h]; rfl
  | a :: l, r, h => by
    rw [List.mapM_cons] at h
    cases ha : f a with
    | error e => rw [ha] at h; cases h
    | ok b =>
      rw [ha] at h
      cases hl : l.mapM f with
      | error e => rw [hl] at h; cases h
      | ok r' =>
        rw [hl] at h
        injection h with h
        rw [← h, List.length_cons, List.length_cons, mapM_length f l r' hl]

theorem mapM_mem {A B E : Type} (f : A → Except E B) : ∀ (l : List A) (r : List B), l.mapM f = .ok r →
    ∀ b ∈ r, ∃ a ∈ l, f a = .ok b
  | [], r, h => by
    rw [List.mapM_nil] at h
    injection h with h
    rw [← h]; simp
  | a :: l, r, h => by
    rw [List.mapM_cons] at h
    cases ha : f a with
    | error e => rw [ha] at h; cases h
    | ok b =>
      rw [ha] at h
      cases hl : l.mapM f with
      | error e => rw [hl] at h; cases h
      | ok r' =>
        rw [hl] at h
        injection h with h
        rw [← h]
        intro x hx
        rcases List.mem_cons.1 hx with e | hx
        · exact ⟨a, List.mem_cons_self, by rw [e]; exact ha⟩
        · obtain ⟨y, hy, e⟩ := mapM_mem f l r' hl x hx
          exact ⟨y, List.mem_cons_of_mem _ hy, e⟩

theorem readRow_shape {ps : List (Nat × Nat)} {shape : Nat × Nat} {sym : Bool} {vs : List ℚ}
    {x : (Nat → Nat → ℚ) × Nat × Nat} (h : Ext.readRow ps shape sym vs = .ok x) :
    x.2 = if shape.1 < shape.2 then (shape.2, shape.1) else shape := by
  unfold Ext.readRow at h
  split at h
  · cases h
  · injection h with h
    rw [← h]
    split <;> rfl

/-- The table of a file has at least two rows, and all matrices have one shape. -/
theorem readCl_table {first : Bool} {hdr : List Str} {rows : List (ℚ × List ℚ)} {sym : Bool}
    {t : List (ℚ × (Nat → Nat → ℚ) × Nat × Nat)} (h : Ext.readCl first hdr rows sym = .ok t) :
    t ≠ [] ∧ ∃ shape, ∀ r ∈ t, r.2.2 = shape := by
  unfold Ext.readCl at h
  split at h
  · cases h
  · split at h
    · cases h
    · next ps shape _ =>
      split at h
      · cases h
      · split at h
        · cases h
        · next hr =>
          constructor
          · have := mapM_length _ _ _ h
            intro e
            rw [e] at this
            exact hr (Or.inl (by rw [← this]; simp))
          · refine ⟨if shape.1 < shape.2 then (shape.2, shape.1) else shape, fun r hrt => ?_⟩
            obtain ⟨a, _, ha⟩ := mapM_mem _ _ _ h r hrt
            split at ha
            · cases ha
            · next x hx =>
              injection ha with ha
              rw [← ha]
              exact readRow_shape hx

theorem table_head {p1 p2 : Str} {x : Content} {t : List (ℚ × (Nat → Nat → ℚ) × Nat × Nat)}
    (h : table p1 p2 x = .ok t) (shape : Nat × Nat) :
    t.head?.map (·.2.2) = some shape ↔ ∀ r ∈ t, r.2.2 = shape := by
  have ht : t ≠ [] ∧ ∃ shape, ∀ r ∈ t, r.2.2 = shape := by
    unfold table at h
    split at h
    · cases h
    · next t' e =>
      injection h with h
      rw [← h]
      exact readCl_table e
  obtain ⟨h1, s, h2⟩ := ht
  obtain ⟨a, r, rfl⟩ := List.exists_cons_of_ne_nil h1
  constructor
  · intro e b hb
    rw [h2 b hb, ← h2 a List.mem_cons_self]
    exact Option.some.inj e
  · intro e
    exact congrArg some (e a List.mem_cons_self)

theorem readProbe_iff {probe p1 p2 : Str} {shape : Nat × Nat} (h1 : probeMap.lookup probe = some (p1, p2))
    (h2 : shapes.lookup probe = some shape) (x : Content) (k : Str) (cl : Stored.Cl Arr) (n : Nat) :
    readProbe probe x = .ok ((k, cl), n) ↔ k = p1 ++ '_' :: p2 ∧ Reads p1 p2 shape x n cl := by
  unfold readProbe
  rw [h1, h2]
  dsimp only
  have hbe : (p1 == p2) = decide (p1 = p2) := by
    rw [Bool.eq_iff_iff, beq_iff_eq, decide_eq_true_iff]
  unfold Reads
  cases ht : table p1 p2 x with
  | error e =>
    constructor
    · intro h; cases h
    · rintro ⟨_, t, h, _⟩
      unfold table at ht
      rw [hbe, h] at ht
      cases ht
  | ok t =>
    have ht' : Ext.readCl x.first x.header x.rows (decide (p1 = p2)) = .ok t := by
      rw [← hbe]
      unfold table at ht
      split at ht
      · cases ht
      · next e => injection ht with ht; rw [e, ht]
    dsimp only
    by_cases hs : t.head?.map (·.2.2) = some shape
    · rw [if_pos hs]
      rw [table_head ht] at hs
      constructor
      · intro h
        injection h with h
        obtain ⟨h, e3⟩ := Prod.mk.inj h
        obtain ⟨e1, e2⟩ := Prod.mk.inj h
        subst e1 e2 e3
        exact ⟨rfl, t, ht', hs, rfl, rfl, rfl, rfl, rfl, rfl, rfl⟩
      · rintro ⟨e1, t', ht2, _, e3, e4, e5, e6, e7, e8, e9⟩
        rw [ht'] at ht2
        injection ht2 with ht2
        subst ht2 e1 e3
        obtain ⟨a1, a2, a3, a4, a5, a6⟩ := cl
        simp only at e4 e5 e6 e7 e8 e9
        subst e4 e5 e6 e7 e8 e9
        rfl
    · rw [if_neg hs]
      constructor
      · intro h; cases h
      · rintro ⟨_, t', ht2, hs', _⟩
        rw [ht'] at ht2
        injection ht2 with ht2
        subst ht2
        exact absurd ((table_head ht shape).2 hs') hs

/-- The three files of a cosmology. -/
theorem readProbes_iff (a b x : Content) (d : Dict Str (Stored.Cl Arr)) (ns : List Nat) :
    readProbes [] [] [("GCph".toList, a), ("GCsp".toList, b), ("XC".toList, x)] = .ok (d, ns) ↔
    ∃ (n : Nat × Nat × Nat) (A B X : Stored.Cl Arr), Reads phot phot (10, 10) a n.1 A ∧ Reads spec spec (4, 4) b n.2.1 B ∧ Reads phot spec (10, 4) x n.2.2 X ∧
      d = [("PhotometricGalaxy_PhotometricGalaxy".toList, A), ("SpectroscopicGalaxy_SpectroscopicGalaxy".toList, B),
        ("PhotometricGalaxy_SpectroscopicGalaxy".toList, X)] ∧ ns = [n.1, n.1, n.2.1, n.2.1, n.2.2, n.2.2] := by
  have i1 := readProbe_iff (probe := "GCph".toList) (p1 := phot) (p2 := phot) (shape := (10, 10)) rfl rfl a
  have i2 := readProbe_iff (probe := "GCsp".toList) (p1 := spec) (p2 := spec) (shape := (4, 4)) rfl rfl b
  have i3 := readProbe_iff (probe := "XC".toList) (p1 := phot) (p2 := spec) (shape := (10, 4)) rfl rfl x
  constructor
  · intro h
    unfold readProbes at h
    cases h1 : readProbe "GCph".toList a with
    | error e => rw [h1] at h; cases h
    | ok q1 =>
      obtain ⟨⟨k1, A⟩, n1⟩ := q1
      rw [h1] at h
      dsimp only at h
      unfold readProbes at h
      cases h2 : readProbe "GCsp".toList b with
      | error e => rw [h2] at h; cases h
      | ok q2 =>
        obtain ⟨⟨k2, B⟩, n2⟩ := q2
        rw [h2] at h
        dsimp only at h
        unfold readProbes at h
        cases h3 : readProbe "XC".toList x with
        | error e => rw [h3] at h; cases h
        | ok q3 =>
          obtain ⟨⟨k3, X⟩, n3⟩ := q3
          rw [h3] at h
          dsimp only at h
          unfold readProbes at h
          obtain ⟨e1, r1⟩ := (i1 _ _ _).1 h1
          obtain ⟨e2, r2⟩ := (i2 _ _ _).1 h2
          obtain ⟨e3, r3⟩ := (i3 _ _ _).1 h3
          injection h with h
          obtain ⟨ed, en⟩ := Prod.mk.inj h
          refine ⟨(n1, n2, n3), A, B, X, r1, r2, r3, ?_, en.symm⟩
          rw [← ed, e1, e2, e3]
          rfl
  · rintro ⟨⟨n1, n2, n3⟩, A, B, X, r1, r2, r3, rfl, rfl⟩
    have h1 := (i1 _ _ _).2 ⟨rfl, r1⟩
    have h2 := (i2 _ _ _).2 ⟨rfl, r2⟩
    have h3 := (i3 _ _ _).2 ⟨rfl, r3⟩
    unfold readProbes
    rw [h1]
    dsimp only
    unfold readProbes
    rw [h2]
    dsimp only
    unfold readProbes
    rw [h3]
    rfl

/-! ### The conversion -/

/-- The program never saves spectra which come without kernel: after the arrays of the first spectra it stops. -/
theorem save_stops (A : Stored.Cl Arr) (r : List (Str × Stored.Cl Arr)) {x : Content} {n : Nat}
    (h : Reads phot phot (10, 10) x n A) : ∃ c l, A.c = some c ∧ A.ells = some l ∧
    saveNew { cls := ("PhotometricGalaxy_PhotometricGalaxy".toList, A) :: r } =
      (.error .attributeError, ⟨[["cls".toList], ["cls".toList, "PhotometricGalaxy_PhotometricGalaxy".toList]],
        [(["cls".toList, "PhotometricGalaxy_PhotometricGalaxy".toList, "c_lij".toList], .num c),
          (["cls".toList, "PhotometricGalaxy_PhotometricGalaxy".toList, "l_bin_centers".toList], .num l)], []⟩) := by
  obtain ⟨t, _, _, _, e1, e2, e3, e4, e5, e6⟩ := h
  obtain ⟨a1, a2, a3, a4, a5, a6⟩ := A
  simp only at e1 e2 e3 e4 e5 e6
  subst e1 e2 e3 e4 e5 e6
  exact ⟨_, _, rfl, rfl, rfl⟩

/-- The conversion never succeeds, whatever the files. -/
theorem convert_raises (c : Param.Coll ℚ) (s : Src) : (convert c s).1 ≠ .ok () := by
  unfold convert convertWith
  cases build c s with
  | error e => nofun
  | ok d =>
    cases d with
    | nil => nofun
    | cons q d =>
      obtain ⟨k, a, b, x⟩ := q
      dsimp only
      unfold loop
      cases hr : readProbes [] [] [("GCph".toList, a), ("GCsp".toList, b), ("XC".toList, x)] with
      | error e => nofun
      | ok r =>
        obtain ⟨cls, ns⟩ := r
        obtain ⟨n, A, B, X, r1, _, _, rfl, _⟩ := (readProbes_iff a b x cls ns).1 hr
        obtain ⟨c, l, _, _, hs⟩ := save_stops A _ r1
        dsimp only
        rw [if_neg (by rw [List.map_nil, List.contains_nil]; nofun), hs]
        nofun

/-- What it leaves: nothing, or one directory, the one of the first cosmology, with the arrays of the photometric
galaxies and nothing else; no other spectra and no other cosmology are there. -/
theorem convert_left (c : Param.Coll ℚ) (s : Src) : (convert c s).2 = [] ∨
    ∃ k a b x d A n, build c s = .ok ((k, a, b, x) :: d) ∧ Reads phot phot (10, 10) a n A ∧
      (convert c s).1 = .error (.stored .attributeError) ∧ ∃ f, (convert c s).2 = [(Names.jobDir k.1 k.2, f)] ∧
        ∃ y l, A.c = some y ∧ A.ells = some l ∧
        f.data = [(["cls".toList, "PhotometricGalaxy_PhotometricGalaxy".toList, "c_lij".toList], .num y),
          (["cls".toList, "PhotometricGalaxy_PhotometricGalaxy".toList, "l_bin_centers".toList], .num l)] := by
  unfold convert convertWith
  cases build c s with
  | error e => exact Or.inl rfl
  | ok d =>
    cases d with
    | nil => exact Or.inl rfl
    | cons q d =>
      obtain ⟨k, a, b, x⟩ := q
      dsimp only
      unfold loop
      cases hr : readProbes [] [] [("GCph".toList, a), ("GCsp".toList, b), ("XC".toList, x)] with
      | error e => exact Or.inl rfl
      | ok r =>
        obtain ⟨cls, ns⟩ := r
        obtain ⟨n, A, B, X, r1, _, _, rfl, _⟩ := (readProbes_iff a b x cls ns).1 hr
        obtain ⟨y, l, hy, hl, hs⟩ := save_stops A _ r1
        dsimp only
        rw [if_neg (by rw [List.map_nil, List.contains_nil]; nofun), hs]
        exact Or.inr ⟨k, a, b, x, d, A, n.1, rfl, r1, rfl, _, rfl, y, l, hy, hl, rfl⟩

theorem loop_cons (save : Stored.Coll Arr → Except Stored.Err Unit × File) (out : Dict Str File) (ls : List Nat) (k : Key)
    (a b x : Content) (r : Dict Key (Content × Content × Content)) : loop save out ls ((k, a, b, x) :: r) =
    match readProbes [] [] [("GCph".toList, a), ("GCsp".toList, b), ("XC".toList, x)] with
    | .error e => (.error e, out)
    | .ok (cls, ns) =>
      if (out.map (·.1)).contains (Names.jobDir k.1 k.2) then (.error .fileExists, out)
      else match save { cls := cls } with
        | (.error e, f) => (.error (.stored e), out ++ [(Names.jobDir k.1 k.2, f)])
        | (.ok (), f) => loop save (out ++ [(Names.jobDir k.1 k.2, f)]) (ls ++ ns) r := rfl

theorem loop_converts {save : Stored.Coll Arr → Except Stored.Err Unit × File} {file : Stored.Coll Arr → File}
    (hs : ∀ o, save o = (.ok (), file o)) {d : Dict Key (Content × Content × Content)} {os : Dict Str File}
    {ns : List (Nat × Nat × Nat)} (h : List.Forall₂ (fun q o => Converted file o.1 q o.2) d (ns.zip os))
    (hl : ns.length = os.length) :
    ∀ (out : Dict Str File) (ls : List Nat), (d.map (·.1)).Nodup → (∀ q ∈ d, Names.jobDir q.1.1 q.1.2 ∉ out.map (·.1)) →
    loop save out ls d = loop save (out ++ os) (ls ++ ns.flatMap fun n => [n.1, n.1, n.2.1, n.2.1, n.2.2, n.2.2]) [] := by
  induction d generalizing os ns with
  | nil =>
    intro out ls _ _
    generalize hz : ns.zip os = z at h
    cases h
    cases ns with
    | nil => cases os with
      | nil => simp
      | cons o os => cases hl
    | cons n ns => cases os with
      | nil => cases hl
      | cons o os => cases hz
  | cons q d ih =>
    intro out ls hd ho
    cases ns with
    | nil => cases h
    | cons n ns =>
      cases os with
      | nil => cases h
      | cons o os =>
        rw [List.zip_cons_cons] at h
        obtain ⟨k, a, b, x⟩ := q
        cases h with
        | cons h1 h2 =>
          obtain ⟨e1, A, B, X, r1, r2, r3, e2⟩ := h1
          dsimp only at e1 e2 r1 r2 r3
          have hr := (readProbes_iff a b x _ _).2 ⟨n, A, B, X, r1, r2, r3, rfl, rfl⟩
          have hk := ho (k, a, b, x) List.mem_cons_self
          rw [loop_cons, hr]
          dsimp only
          rw [if_neg (by rw [List.contains_iff_mem]; exact hk), hs]
          dsimp only
          rw [← e1, ← e2, ih h2 (Nat.succ.inj hl)]
          · rw [List.append_assoc, List.append_assoc]
            rfl
          · exact (List.nodup_cons.1 hd).2
          · intro q hq
            rw [List.map_append, List.mem_append]
            rintro (hm | hm)
            · exact ho q (List.mem_cons_of_mem _ hq) hm
            · rw [List.map_singleton, List.mem_singleton, e1] at hm
              obtain ⟨f1, f2⟩ := Names.jobDir_injective hm
              exact (List.nodup_cons.1 hd).1 (by
                have : q.1 = k := Prod.ext f1 f2
                show k ∈ d.map (·.1)
                rw [← this]
                exact List.mem_map_of_mem hq)

theorem loop_converts_conv {save : Stored.Coll Arr → Except Stored.Err Unit × File} {file : Stored.Coll Arr → File}
    (hs : ∀ o, save o = (.ok (), file o)) {d : Dict Key (Content × Content × Content)} :
    ∀ (out : Dict Str File) (ls : List Nat), (loop save out ls d).1 = .ok () →
    ∃ (ns : List (Nat × Nat × Nat)) (os : Dict Str File), ns.length = os.length ∧
      List.Forall₂ (fun q o => Converted file o.1 q o.2) d (ns.zip os) := by
  induction d with
  | nil => exact fun _ _ _ => ⟨[], [], rfl, List.Forall₂.nil⟩
  | cons q d ih =>
    intro out ls h
    obtain ⟨k, a, b, x⟩ := q
    rw [loop_cons] at h
    cases hr : readProbes [] [] [("GCph".toList, a), ("GCsp".toList, b), ("XC".toList, x)] with
    | error e => rw [hr] at h; cases h
    | ok r =>
      obtain ⟨cls, n6⟩ := r
      rw [hr] at h
      dsimp only at h
      split at h
      · cases h
      · rw [hs] at h
        obtain ⟨ns, os, hl, hf⟩ := ih _ _ h
        obtain ⟨n, A, B, X, r1, r2, r3, rfl, _⟩ := (readProbes_iff a b x cls n6).1 hr
        exact ⟨n :: ns, (Names.jobDir k.1 k.2, _) :: os, by rw [List.length_cons, List.length_cons, hl],
          List.Forall₂.cons ⟨rfl, A, B, X, r1, r2, r3, rfl⟩ hf⟩

theorem dedup_one {l : List Nat} : l.dedup.length = 1 ↔ ∃ n, l ≠ [] ∧ ∀ x ∈ l, x = n := by
  rw [List.length_eq_one_iff]
  constructor
  · rintro ⟨n, h⟩
    refine ⟨n, ?_, fun x hx => ?_⟩
    · rintro rfl; cases h
    · rw [← List.mem_dedup, h, List.mem_singleton] at hx
      exact hx
  · rintro ⟨n, h1, h2⟩
    refine ⟨n, ?_⟩
    obtain ⟨y, r, rfl⟩ := List.exists_cons_of_ne_nil h1
    have hn := List.nodup_dedup (y :: r)
    have hm : ∀ x, x ∈ (y :: r).dedup ↔ x = n := by
      intro x
      rw [List.mem_dedup]
      exact ⟨h2 x, fun e => by rw [e, ← h2 y List.mem_cons_self]; exact List.mem_cons_self⟩
    generalize (y :: r).dedup = z at hn hm
    cases z with
    | nil => exact absurd ((hm n).2 rfl) (by simp)
    | cons u z =>
      cases z with
      | nil => rw [(hm u).1 List.mem_cons_self]
      | cons v z =>
        exfalso
        have h1 := (hm u).1 List.mem_cons_self
        have h2 := (hm v).1 (by simp)
        rw [h1, h2] at hn
        exact (List.nodup_cons.1 hn).1 List.mem_cons_self

/-- If spectra without kernel could be saved, the conversion would succeed exactly when there is a cosmology, all files
can be read and have the shapes of their probes, and all have one number of multipoles; then there is one directory for
each cosmology, with the spectra of its own three files. -/
theorem convert_ok_partial {save : Stored.Coll Arr → Except Stored.Err Unit × File} {file : Stored.Coll Arr → File}
    (hs : ∀ o, save o = (.ok (), file o)) (c : Param.Coll ℚ) (s : Src) (out : Dict Str File) :
    convertWith save c s = (.ok (), out) ↔
      ∃ d n, build c s = .ok d ∧ d ≠ [] ∧ List.Forall₂ (Converted file (n, n, n)) d out := by
  have key : ∀ (ns : List (Nat × Nat × Nat)) (n : Nat),
      (∀ x ∈ ns.flatMap (fun n => [n.1, n.1, n.2.1, n.2.1, n.2.2, n.2.2]), x = n) → ∀ x ∈ ns, x = (n, n, n) := by
    intro ns n h x hx
    have h1 := h x.1 (List.mem_flatMap.2 ⟨x, hx, by simp⟩)
    have h2 := h x.2.1 (List.mem_flatMap.2 ⟨x, hx, by simp⟩)
    have h3 := h x.2.2 (List.mem_flatMap.2 ⟨x, hx, by simp⟩)
    exact Prod.ext h1 (Prod.ext h2 h3)
  unfold convertWith
  cases hb : build c s with
  | error e =>
    constructor
    · intro h; cases h
    · rintro ⟨d, n, h, _⟩; cases h
  | ok d =>
    dsimp only
    have hnd := (build_files hb).1
    constructor
    · intro h
      obtain ⟨ns, os, hl, hf⟩ := loop_converts_conv hs (d := d) [] [] (by rw [h])
      rw [loop_converts hs hf hl [] [] hnd (by simp), loop] at h
      simp only [List.nil_append] at h
      split at h
      · next h1 =>
        obtain ⟨n, h2, h3⟩ := dedup_one.1 h1
        have h4 := key ns n h3
        obtain ⟨_, rfl⟩ := Prod.mk.inj h
        refine ⟨d, n, rfl, ?_, ?_⟩
        · rintro rfl
          generalize hz : ns.zip os = z at hf
          cases hf
          cases ns with
          | nil => exact h2 rfl
          | cons n ns => cases os with
            | nil => cases hl
            | cons o os => cases hz
        · clear * - hf hl h4
          induction d generalizing ns os with
          | nil =>
            generalize hz : ns.zip os = z at hf
            cases hf
            cases os with
            | nil => exact List.Forall₂.nil
            | cons o os => cases ns with
              | nil => cases hl
              | cons n ns => cases hz
          | cons q d ih =>
            cases ns with
            | nil => cases hf
            | cons m ns => cases os with
              | nil => cases hf
              | cons o os =>
                rw [List.zip_cons_cons] at hf
                cases hf with
                | cons h1 h2 =>
                  refine List.Forall₂.cons ?_ (ih ns os (Nat.succ.inj hl) h2 fun x hx => h4 x (List.mem_cons_of_mem _ hx))
                  rw [← h4 m List.mem_cons_self]
                  exact h1
      · split at h <;> cases h
    · rintro ⟨d', n, e, hne, hf⟩
      injection e with e
      subst e
      have hz : List.Forall₂ (fun q (o : (Nat × Nat × Nat) × (Str × File)) => Converted file o.1 q o.2) d
          ((List.replicate out.length (n, n, n)).zip out) := by
        clear * - hf
        induction hf with
        | nil => exact List.Forall₂.nil
        | cons h _ ih => exact List.Forall₂.cons h ih
      rw [loop_converts hs hz (by rw [List.length_replicate]) [] [] hnd (by simp), loop]
      have hlen : out ≠ [] := by
        rintro rfl
        cases hf
        exact hne rfl
      rw [if_pos (dedup_one.2 ⟨n, ?_, ?_⟩)]
      · rfl
      · obtain ⟨o, r, rfl⟩ := List.exists_cons_of_ne_nil hlen
        nofun
      · intro x hx
        rw [List.nil_append, List.mem_flatMap] at hx
        obtain ⟨y, hy, hx⟩ := hx
        rw [List.eq_of_mem_replicate hy] at hx
        simpa using hx

/-- Files with different numbers of multipoles would be refused only after everything has been written, and with an
exception about types: the numbers can not be joined to a message. -/
theorem convert_counts {save : Stored.Coll Arr → Except Stored.Err Unit × File} {file : Stored.Coll Arr → File}
    (hs : ∀ o, save o = (.ok (), file o)) {c : Param.Coll ℚ} {s : Src} {d : Dict Key (Content × Content × Content)}
    (hb : build c s = .ok d) {ns : List (Nat × Nat × Nat)} {os : Dict Str File} (hl : ns.length = os.length)
    (hf : List.Forall₂ (fun q o => Converted file o.1 q o.2) d (ns.zip os))
    (hn : ∃ a ∈ ns, ∃ b ∈ ns, a ≠ b ∨ a.1 ≠ a.2.1 ∨ a.1 ≠ a.2.2) :
    convertWith save c s = (.error .typeError, os) := by
  unfold convertWith
  rw [hb]
  dsimp only
  rw [loop_converts hs hf hl [] [] (build_files hb).1 (by simp), loop]
  obtain ⟨a, ha, b, hb, hab⟩ := hn
  have mem : ∀ y ∈ ns, ∀ v, v = y.1 ∨ v = y.2.1 ∨ v = y.2.2 →
      v ∈ [] ++ ns.flatMap fun n => [n.1, n.1, n.2.1, n.2.1, n.2.2, n.2.2] := by
    intro y hy v hv
    rw [List.nil_append, List.mem_flatMap]
    refine ⟨y, hy, ?_⟩
    rcases hv with rfl | rfl | rfl <;> simp
  rw [if_neg, if_neg]
  · rfl
  · intro e
    have := mem a ha a.1 (Or.inl rfl)
    rw [e] at this
    cases this
  · intro h1
    obtain ⟨n, _, h⟩ := dedup_one.1 h1
    have h2 : ∀ y ∈ ns, y = (n, n, n) := fun y hy =>
      Prod.ext (h _ (mem y hy _ (Or.inl rfl))) (Prod.ext (h _ (mem y hy _ (Or.inr (Or.inl rfl))))
        (h _ (mem y hy _ (Or.inr (Or.inr rfl)))))
    rw [h2 a ha, h2 b hb] at hab
    rcases hab with e | e | e <;> exact e rfl

/-! ### Derivatives -/

theorem lookup_subdir (s p1 p2 : Str) : probeMap.lookup s = some (p1, p2) ↔ Subdir s p1 p2 := by
  constructor
  · intro h
    have h := PyDict.mem_of_lookup h
    unfold probeMap at h
    rcases List.mem_cons.1 h with h | h
    · obtain ⟨e1, e2⟩ := Prod.mk.inj h
      obtain ⟨e2, e3⟩ := Prod.mk.inj e2
      rw [e1, e2, e3]
      exact .ph
    · rcases List.mem_cons.1 h with h | h
      · obtain ⟨e1, e2⟩ := Prod.mk.inj h
        obtain ⟨e2, e3⟩ := Prod.mk.inj e2
        rw [e1, e2, e3]
        exact .sp
      · obtain ⟨e1, e2⟩ := Prod.mk.inj (List.mem_singleton.1 h)
        obtain ⟨e2, e3⟩ := Prod.mk.inj e2
        rw [e1, e2, e3]
        exact .xc
  · intro h
    cases h <;> rfl

theorem lookup_parNames (e v : Str) : Ext.parNames.lookup e = some v ↔ (e, v) ∈ Ext.parNames :=
  ⟨fun h => PyDict.mem_of_lookup h, fun h => PyDict.lookup_of_mem Ext.parNames (by decide +kernel) h⟩

theorem readDer_iff (f : Str × Str × Content) (v k : Str) (t : Der) :
    readDer f = .ok (v, k, t) ↔ IsDer f v k t := by
  have hbe : ∀ p1 p2 : Str, (p1 == p2) = decide (p1 = p2) := by
    intro p1 p2
    rw [Bool.eq_iff_iff, beq_iff_eq, decide_eq_true_iff]
  have key : ∀ (p1 p2 : Str) (x : Content) r, table p1 p2 x = .ok r ↔
      Ext.readCl x.first x.header x.rows (decide (p1 = p2)) = .ok r := by
    intro p1 p2 x r
    unfold table
    rw [hbe]
    cases Ext.readCl x.first x.header x.rows (decide (p1 = p2)) with
    | error e => constructor <;> intro h <;> cases h
    | ok y => constructor <;> intro h <;> injection h with h <;> rw [h]
  unfold readDer IsDer
  cases hm : matchDer f.2.1 with
  | none =>
    constructor
    · intro h; cases h
    · rintro ⟨p1, p2, ext, r, _, _, _, h, _⟩; cases h
  | some g =>
    obtain ⟨g1, g2⟩ := g
    dsimp only
    by_cases hg : g1 = g2
    · subst hg
      rw [if_neg (fun h => h rfl)]
      cases hp : probeMap.lookup f.1 with
      | none =>
        constructor
        · intro h; cases h
        · rintro ⟨p1, p2, ext, r, h, _⟩
          rw [← lookup_subdir, hp] at h
          cases h
      | some q =>
        obtain ⟨p1, p2⟩ := q
        dsimp only
        cases hn : Ext.parNames.lookup g1 with
        | none =>
          constructor
          · intro h; cases h
          · rintro ⟨q1, q2, ext, r, _, _, h, h', _⟩
            rw [← lookup_parNames] at h
            rw [(Prod.mk.inj (Option.some.inj h')).1, h] at hn
            cases hn
        | some w =>
          dsimp only
          constructor
          · intro h
            cases ht : table p1 p2 f.2.2 with
            | error e => rw [ht] at h; cases h
            | ok r =>
              rw [ht] at h
              injection h with h
              obtain ⟨e1, h⟩ := Prod.mk.inj h
              obtain ⟨e2, e3⟩ := Prod.mk.inj h
              exact ⟨p1, p2, g1, r, (lookup_subdir _ _ _).1 hp, e2.symm, by rw [← e1]; exact (lookup_parNames _ _).1 hn, rfl,
                (key _ _ _ _).1 ht, e3.symm⟩
          · rintro ⟨q1, q2, ext, r, h1, h2, h3, h4, h5, h6⟩
            rw [← lookup_subdir, hp] at h1
            obtain ⟨e1, e2⟩ := Prod.mk.inj (Option.some.inj h1)
            subst e1 e2
            obtain ⟨e3, _⟩ := Prod.mk.inj (Option.some.inj h4)
            subst e3
            rw [← lookup_parNames, hn] at h3
            rw [(key _ _ _ _).2 h5, h2, h6, Option.some.inj h3]
            rfl
    · rw [if_pos hg]
      constructor
      · intro h; cases h
      · rintro ⟨p1, p2, ext, r, _, _, _, h, _⟩
        obtain ⟨e1, e2⟩ := Prod.mk.inj (Option.some.inj h)
        exact absurd (e1.trans e2.symm) hg

/-- A file belongs to one parameter and one pair of probes and has one table. -/
theorem isDer_unique {f : Str × Str × Content} {v v' k k' : Str} {t t' : Der} (h : IsDer f v k t) (h' : IsDer f v' k' t') :
    v = v' ∧ k = k' ∧ t = t' := by
  rw [← readDer_iff] at h h'
  rw [h] at h'
  injection h' with h'
  obtain ⟨e1, h'⟩ := Prod.mk.inj h'
  exact ⟨e1, Prod.mk.inj h'⟩

theorem readDers_ok (l : List (Str × Str × Content)) : ∀ d : Dict Str (Dict Str Der),
    (∃ e, readDers d l = .ok e) ↔ ∀ f ∈ l, ∃ v k t, IsDer f v k t := by
  induction l with
  | nil => intro d; simp [readDers]
  | cons f l ih =>
    intro d
    rw [List.forall_mem_cons, readDers]
    cases h : readDer f with
    | error e =>
      constructor
      · rintro ⟨_, h⟩; cases h
      · rintro ⟨⟨v, k, t, h'⟩, _⟩
        rw [← readDer_iff, h] at h'
        cases h'
    | ok q =>
      obtain ⟨v, k, t⟩ := q
      dsimp only
      rw [ih]
      exact ⟨fun h' => ⟨⟨v, k, t, (readDer_iff f v k t).1 h⟩, h'⟩, fun h' => h'.2⟩

/-- The reading succeeds exactly if every file found is understood. -/
theorem ders_ok_iff (l : List (Str × Str × Content)) :
    (∃ d, readDers [] l = .ok d) ↔ ∀ f ∈ l, ∃ v k t, IsDer f v k t := readDers_ok l []

/-- The entry for a parameter and a pair of probes. -/
def entry (d : Dict Str (Dict Str Der)) (v k : Str) : Option Der := (d.lookup v).bind (·.lookup k)

theorem entry_set (d : Dict Str (Dict Str Der)) (v k : Str) (t : Der) (v' k' : Str) :
    entry (PyDict.set d v (PyDict.set ((d.lookup v).getD []) k t)) v' k' =
      if v' = v ∧ k' = k then some t else entry d v' k' := by
  unfold entry
  rw [PyDict.lookup_set]
  by_cases h : v' = v
  · subst h
    rw [if_pos rfl, Option.bind_some, PyDict.lookup_set]
    by_cases h' : k' = k
    · rw [if_pos h', if_pos ⟨rfl, h'⟩]
    · rw [if_neg h', if_neg (fun h => h' h.2)]
      cases d.lookup v' <;> rfl
  · rw [if_neg h, if_neg (fun h' => h h'.1)]

theorem readDers_entry {l : List (Str × Str × Content)} : ∀ {d e : Dict Str (Dict Str Der)}, readDers d l = .ok e →
    ∀ v k t, entry e v k = some t ↔
      (∃ pre f post, l = pre ++ f :: post ∧ IsDer f v k t ∧ ∀ g ∈ post, ∀ t', ¬ IsDer g v k t') ∨
      (entry d v k = some t ∧ ∀ g ∈ l, ∀ t', ¬ IsDer g v k t') := by
  induction l with
  | nil =>
    intro d e h v k t
    obtain rfl : d = e := by injection h
    constructor
    · exact fun h => Or.inr ⟨h, by simp⟩
    · rintro (⟨pre, f, post, h, _⟩ | h)
      · cases pre <;> cases h
      · exact h.1
  | cons f l ih =>
    intro d e h v k t
    rw [readDers] at h
    cases hf : readDer f with
    | error e => rw [hf] at h; cases h
    | ok q =>
      obtain ⟨v1, k1, t1⟩ := q
      rw [hf] at h
      have hd := (readDer_iff f v1 k1 t1).1 hf
      rw [ih h, entry_set]
      constructor
      · rintro (⟨pre, g, post, e1, h1, h2⟩ | ⟨h1, h2⟩)
        · exact Or.inl ⟨f :: pre, g, post, by rw [e1]; rfl, h1, h2⟩
        · by_cases hv : v = v1 ∧ k = k1
          · rw [if_pos hv] at h1
            obtain ⟨e1, e2⟩ := hv
            injection h1 with h1
            subst e1 e2 h1
            exact Or.inl ⟨[], f, l, rfl, hd, h2⟩
          · rw [if_neg hv] at h1
            refine Or.inr ⟨h1, fun g hg t' ht => ?_⟩
            rcases List.mem_cons.1 hg with rfl | hg
            · obtain ⟨e1, e2, _⟩ := isDer_unique ht hd
              exact hv ⟨e1, e2⟩
            · exact h2 g hg t' ht
      · rintro (⟨pre, g, post, e1, h1, h2⟩ | ⟨h1, h2⟩)
        · cases pre with
          | nil =>
            obtain ⟨e1, e2⟩ := List.cons.inj e1
            subst e1 e2
            obtain ⟨e1, e2, e3⟩ := isDer_unique h1 hd
            rw [if_pos ⟨e1, e2⟩, e3]
            exact Or.inr ⟨rfl, h2⟩
          | cons p pre => exact Or.inl ⟨pre, g, post, (List.cons.inj e1).2, h1, h2⟩
        · refine Or.inr ⟨?_, fun g hg => h2 g (List.mem_cons_of_mem _ hg)⟩
          rw [if_neg]
          · exact h1
          · rintro ⟨e1, e2⟩
            subst e1 e2
            exact h2 f List.mem_cons_self t1 hd

/-- The result has, for each parameter and pair of probes, the derivatives of the last file found for them, and nothing
else. -/
theorem ders_last {l : List (Str × Str × Content)} {d : Dict Str (Dict Str Der)} (h : readDers [] l = .ok d)
    (v k : Str) (t : Der) : (d.lookup v).bind (·.lookup k) = some t ↔
      ∃ pre f post, l = pre ++ f :: post ∧ IsDer f v k t ∧ ∀ g ∈ post, ∀ t', ¬ IsDer g v k t' := by
  have := readDers_entry h v k t
  have hn : entry [] v k ≠ some t := nofun
  unfold entry at this hn
  rw [this]
  constructor
  · rintro (h | ⟨h, _⟩)
    · exact h
    · exact absurd h hn
  · exact Or.inl

/-- With one file for each parameter and pair of probes, every file is in the result, in whatever order they are
found. -/
theorem ders_each_partial {l : List (Str × Str × Content)} {d : Dict Str (Dict Str Der)} (h : readDers [] l = .ok d)
    (hl : l.Nodup) (h1 : ∀ f ∈ l, ∀ g ∈ l, ∀ v k t t', IsDer f v k t → IsDer g v k t' → f = g) (v k : Str) (t : Der) :
    (d.lookup v).bind (·.lookup k) = some t ↔ ∃ f ∈ l, IsDer f v k t := by
  rw [ders_last h]
  constructor
  · rintro ⟨pre, f, post, e, hf, _⟩
    exact ⟨f, by rw [e]; simp, hf⟩
  · rintro ⟨f, hf, hd⟩
    obtain ⟨pre, post, e⟩ := List.append_of_mem hf
    refine ⟨pre, f, post, e, hd, fun g hg t' hd' => ?_⟩
    have : f = g := h1 f hf g (by rw [e]; simp [hg]) v k t t' hd hd'
    subst this
    rw [e] at hl
    exact (List.nodup_cons.1 (List.nodup_append.1 hl).2.1).1 hg

/-! ### Names of files of derivatives -/

theorem endDer_hit (p : Str) (hp : Names.GoodName p) : endDer ('-' :: (p ++ "-Stef.dat".toList)) = some p := by
  have hs : Names.spanChars Names.isAlnum (p ++ "-Stef.dat".toList) = (p, "-Stef.dat".toList) :=
    Names.spanChars_stop Names.isAlnum p '-' "Stef.dat".toList hp.2 (by decide)
  show (if (Names.spanChars Names.isAlnum (p ++ "-Stef.dat".toList)).1 = [] then none else _) = _
  rw [hs, if_neg hp.1]
  rfl

theorem endDer_other {c : Char} (s : Str) (h : c ≠ '-') : endDer (c :: s) = none := by
  unfold endDer
  split
  · next e => exact absurd (List.cons.inj e).1 h
  · rfl

theorem lastDer_tail (p : Str) (hp : ∀ c ∈ p, Names.isAlnum c = true) : lastDer (p ++ "-Stef.dat".toList) = none := by
  induction p with
  | nil => decide +kernel
  | cons c p ih =>
    have hc := hp c List.mem_cons_self
    have h1 : c ≠ '-' := by rintro rfl; revert hc; decide
    show (if c = '\n' then none else lastDer (p ++ "-Stef.dat".toList)).or (endDer (c :: (p ++ "-Stef.dat".toList))) = none
    rw [ih (fun x hx => hp x (List.mem_cons_of_mem _ hx)), endDer_other _ h1]
    split <;> rfl

theorem lastDer_hit (mid p : Str) (hm : '\n' ∉ mid) (hp : Names.GoodName p) :
    lastDer (mid ++ '-' :: (p ++ "-Stef.dat".toList)) = some p := by
  induction mid with
  | nil =>
    show (if '-' = '\n' then none else lastDer (p ++ "-Stef.dat".toList)).or _ = _
    rw [lastDer_tail p hp.2, endDer_hit p hp]
    rfl
  | cons c mid ih =>
    show (if c = '\n' then none else lastDer (mid ++ '-' :: (p ++ "-Stef.dat".toList))).or _ = _
    rw [ih (fun h => hm (List.mem_cons_of_mem _ h)), if_neg (fun e => hm (by rw [e]; exact List.mem_cons_self))]
    rfl

/-- The parameter of a file is the one named behind `dCijGGd` and again before `-Stef.dat`; in between there may be
anything that does not continue the name. -/
theorem der_name (p mid : Str) (hp : Names.GoodName p) (hm : '\n' ∉ mid) (hd : ∀ c ∈ mid.head?, Names.isAlnum c = false)
    (q : Str) (hq : Names.GoodName q) :
    matchDer ("dCijGGd".toList ++ (p ++ (mid ++ '-' :: (q ++ "-Stef.dat".toList)))) = some (p, q) := by
  unfold matchDer
  rw [stripPrefix_append]
  dsimp only
  have hs : Names.spanChars Names.isAlnum (p ++ (mid ++ '-' :: (q ++ "-Stef.dat".toList))) =
      (p, mid ++ '-' :: (q ++ "-Stef.dat".toList)) := by
    cases mid with
    | nil => exact Names.spanChars_stop Names.isAlnum p '-' _ hp.2 (by decide)
    | cons c mid => exact Names.spanChars_stop Names.isAlnum p c _ hp.2 (hd c rfl)
  rw [hs, if_neg hp.1, lastDer_hit mid q hm hq]
  rfl

/-! ### What is not compared -/

theorem mapM_snd {E Y B : Type} (F : ℚ × List ℚ → Except E (Y × B))
    (hF : ∀ r r' z, r.2 = r'.2 → F r = .ok z → ∃ z', F r' = .ok z' ∧ z'.2 = z.2) :
    ∀ {l l' : List (ℚ × List ℚ)} {t : List (Y × B)}, l.map (·.2) = l'.map (·.2) → l.mapM F = .ok t →
      ∃ t', l'.mapM F = .ok t' ∧ t'.map (·.2) = t.map (·.2)
  | [], [], t, _, ht => ⟨t, ht, rfl⟩
  | [], r :: l', t, h, ht => by cases h
  | r :: l, [], t, h, ht => by cases h
  | r :: l, r' :: l', t, h, ht => by
    rw [List.map_cons, List.map_cons] at h
    obtain ⟨e1, e2⟩ := List.cons.inj h
    rw [List.mapM_cons] at ht
    rw [List.mapM_cons]
    cases hr : F r with
    | error e => rw [hr] at ht; cases ht
    | ok z =>
      obtain ⟨z', h1, h2⟩ := hF r r' z e1 hr
      rw [hr] at ht
      cases hl : l.mapM F with
      | error e => rw [hl] at ht; cases ht
      | ok t0 =>
        rw [hl] at ht
        injection ht with ht
        obtain ⟨t1, h3, h4⟩ := mapM_snd F hF e2 hl
        rw [h1, h3]
        refine ⟨z' :: t1, rfl, ?_⟩
        rw [← ht, List.map_cons, List.map_cons, h2, h4]

theorem readCl_mults {first : Bool} {hdr : List Str} {rows rows' : List (ℚ × List ℚ)} {sym : Bool}
    (h : rows.map (·.2) = rows'.map (·.2)) {t : List (ℚ × (Nat → Nat → ℚ) × Nat × Nat)}
    (ht : Ext.readCl first hdr rows sym = .ok t) :
    ∃ t', Ext.readCl first hdr rows' sym = .ok t' ∧ t'.map (·.2) = t.map (·.2) := by
  have hlen : rows.length = rows'.length := by
    have := congrArg List.length h
    rwa [List.length_map, List.length_map] at this
  have hsnd : ∀ (P : List ℚ → Prop), (∀ r ∈ rows, P r.2) ↔ ∀ r ∈ rows', P r.2 := by
    intro P
    have e : ∀ l : List (ℚ × List ℚ), (∀ r ∈ l, P r.2) ↔ ∀ y ∈ l.map (·.2), P y := by
      intro l
      rw [List.forall_mem_map]
    rw [e, e, h]
  unfold Ext.readCl at ht ⊢
  split at ht
  · cases ht
  · next hfirst =>
    rw [if_neg hfirst]
    split at ht
    · cases ht
    · next ps shape hix =>
      split at ht
      · cases ht
      · next h1 =>
        rw [if_neg (by
          rw [not_not] at h1 ⊢
          have a := (hsnd fun y => ∀ r' ∈ rows, y.length = r'.2.length).1 h1
          exact fun r hr => (hsnd fun y => r.2.length = y.length).1 (a r hr))]
        split at ht
        · cases ht
        · next h2 =>
          rw [if_neg (by
            rw [← hlen]
            rintro (h3 | ⟨r, hr, e⟩)
            · exact h2 (Or.inl h3)
            · have : ∀ r ∈ rows, r.2 ≠ [] := fun r hr e => h2 (Or.inr ⟨r, hr, e⟩)
              exact (hsnd fun y => y ≠ []).1 this r hr e)]
          refine mapM_snd _ (fun r r' z e hz => ?_) h ht
          rw [← e]
          split at hz
          · cases hz
          · next x hx =>
            injection hz with hz
            exact ⟨(r'.1, x), rfl, by rw [← hz]⟩

/-- The multipoles of the files are not looked at: with other ones, the same derivatives are read. -/
theorem ders_multipoles {f : Str × Str × Content} {v k : Str} {t : Der} (h : IsDer f v k t) {rows : List (ℚ × List ℚ)}
    (hr : f.2.2.rows.map (·.2) = rows.map (·.2)) : IsDer (f.1, f.2.1, { f.2.2 with rows := rows }) v k t := by
  obtain ⟨p1, p2, ext, r, h1, h2, h3, h4, h5, h6⟩ := h
  obtain ⟨r', h7, h8⟩ := readCl_mults hr h5
  exact ⟨p1, p2, ext, r', h1, h2, h3, h4, h7, by rw [h6, h8]⟩

/-! ### Examples -/

/-- Spectra with entries in the first and the last bins. -/
def exFile (hdr : String) (l1 l2 v : ℚ) : Content := ⟨true, [hdr.toList], [(l1, [v, 2]), (l2, [3, 4])]⟩

def exPh (l v : ℚ) : Content := exFile "# 1-1 10-10" 10 l v
def exSp (l : ℚ) : Content := exFile "# 1-1 4-4" 10 l 1
def exXc : Content := exFile "# 1-1 10-4" 10 20 1

def exPars : Param.Coll ℚ := ⟨[], none, none, none, some [(1 / 80, 2)], none⟩

/-- Two cosmologies; the spectroscopic files have a different second multipole. -/
def exSrc : Src :=
  ⟨[("fid.dat".toList, exPh 20 1), ("Om_pl_eps_1p3E-2.dat".toList, exPh 20 5)],
   [("Om_pl_eps_1p3E-2.dat".toList, exSp 30), ("fid.dat".toList, exSp 30)],
   [("fid.dat".toList, exXc), ("Om_pl_eps_1p3E-2.dat".toList, exXc)]⟩

theorem exSrc_build : build exPars exSrc = .ok [(("central".toList, 0), exPh 20 1, exSp 30, exXc),
    (("Omm".toList, 2), exPh 20 5, exSp 30, exXc)] := by
  have h : (build exPars exSrc).toOption = some [(("central".toList, 0), exPh 20 1, exSp 30, exXc),
    (("Omm".toList, 2), exPh 20 5, exSp 30, exXc)] := by decide +kernel
  cases hb : build exPars exSrc with
  | error e => rw [hb] at h; cases h
  | ok d => rw [hb] at h; rw [Option.some.inj h]

/-- The conversion of these files stops at the first cosmology. -/
example : (convert exPars exSrc).2.map (·.1) = ["dvar_central_step_0".toList] := by
  rcases convert_left exPars exSrc with h | ⟨k, a, b, x, d, A, n, hb, _, _, f, h, _⟩
  · exfalso
    have : (convert exPars exSrc).2 ≠ [] := by
      unfold convert convertWith
      rw [exSrc_build]
      nofun
    exact this h
  · rw [exSrc_build] at hb
    injection hb with hb
    obtain ⟨e, _⟩ := List.cons.inj hb
    obtain ⟨e, _⟩ := Prod.mk.inj e
    rw [h, ← e]
    show [Names.jobDir "central".toList 0] = _
    decide +kernel

theorem exPh_reads (l v : ℚ) : ∃ A, Reads phot phot (10, 10) (exPh l v) 2 A := by
  have h : ∃ A, readProbe "GCph".toList (exPh l v) = .ok ((Stored.key phot phot, A), 2) := ⟨_, rfl⟩
  obtain ⟨A, h⟩ := h
  exact ⟨A, ((readProbe_iff rfl rfl _ _ _ _).1 h).2⟩

theorem exSp_reads (l : ℚ) : ∃ A, Reads spec spec (4, 4) (exSp l) 2 A := by
  have h : ∃ A, readProbe "GCsp".toList (exSp l) = .ok ((Stored.key spec spec, A), 2) := ⟨_, rfl⟩
  obtain ⟨A, h⟩ := h
  exact ⟨A, ((readProbe_iff rfl rfl _ _ _ _).1 h).2⟩

theorem exXc_reads : ∃ A, Reads phot spec (10, 4) exXc 2 A := by
  have h : ∃ A, readProbe "XC".toList exXc = .ok ((Stored.key phot spec, A), 2) := ⟨_, rfl⟩
  obtain ⟨A, h⟩ := h
  exact ⟨A, ((readProbe_iff rfl rfl _ _ _ _).1 h).2⟩

/-- Only numbers of multipoles are compared: could the spectra be saved, files of one cosmology with different
multipoles would be accepted. -/
theorem multipoles_accepted {save : Stored.Coll Arr → Except Stored.Err Unit × File} {file : Stored.Coll Arr → File}
    (hs : ∀ o, save o = (.ok (), file o)) : (exPh 20 1).rows.map (·.1) ≠ (exSp 30).rows.map (·.1) ∧
    ∃ out, convertWith save exPars exSrc = (.ok (), out) ∧
      out.map (·.1) = ["dvar_central_step_0".toList, "dvar_Omm_step_p_2".toList] := by
  obtain ⟨A, hA⟩ := exPh_reads 20 1
  obtain ⟨A', hA'⟩ := exPh_reads 20 5
  obtain ⟨B, hB⟩ := exSp_reads 30
  obtain ⟨X, hX⟩ := exXc_reads
  refine ⟨by decide +kernel, [(_, file _), (_, file _)], (convert_ok_partial hs exPars exSrc _).2 ⟨_, 2, exSrc_build, by nofun,
    List.Forall₂.cons ⟨rfl, A, B, X, hA, hB, hX, rfl⟩ (List.Forall₂.cons ⟨rfl, A', B, X, hA', hB, hX, rfl⟩ List.Forall₂.nil)⟩, ?_⟩
  show [Names.jobDir "central".toList 0, Names.jobDir "Omm".toList 2] = _
  decide +kernel

/-- Files whose names are not understood all count as the fiducial cosmology; which of them is taken depends on the
order in which the system lists them. -/
theorem order_matters : ∃ s s' : Src, s.ph.Perm s'.ph ∧ s.sp = s'.sp ∧ s.xc = s'.xc ∧
    ∃ d d', build exPars s = .ok d ∧ build exPars s' = .ok d' ∧ d ≠ d' := by
  refine ⟨⟨[("fid.dat".toList, exPh 20 1), ("test.dat".toList, exPh 20 5)], [("fid.dat".toList, exSp 30)], [("fid.dat".toList, exXc)]⟩,
    ⟨[("test.dat".toList, exPh 20 5), ("fid.dat".toList, exPh 20 1)], [("fid.dat".toList, exSp 30)], [("fid.dat".toList, exXc)]⟩,
    List.Perm.swap _ _ _, rfl, rfl, [(("central".toList, 0), exPh 20 5, exSp 30, exXc)],
    [(("central".toList, 0), exPh 20 1, exSp 30, exXc)], rfl, rfl, ?_⟩
  decide +kernel

/-- A file of derivatives. -/
theorem exDer : IsDer ("XC".toList, "dCijGGdOm-run3-Om-Stef.dat".toList, exXc) "Omm".toList
    "PhotometricGalaxy_SpectroscopicGalaxy".toList [((Ext.assign (fun _ _ => 0) [(0, 0), (9, 3)] [1, 2]), 10, 4),
      ((Ext.assign (fun _ _ => 0) [(0, 0), (9, 3)] [3, 4]), 10, 4)] :=
  ⟨_, _, "Om".toList, _, .xc, rfl, by decide +kernel, by decide +kernel, rfl, rfl⟩

/-- Of two files for one parameter and pair of probes, the one found last counts: the result depends on the order in
which the system lists them. -/
theorem ders_order : ∃ l l' : List (Str × Str × Content), l.Perm l' ∧ ∃ d d', readDers [] l = .ok d ∧ readDers [] l' = .ok d' ∧
    (d.lookup "Omm".toList).isSome ∧ d.lookup "Omm".toList ≠ d'.lookup "Omm".toList := by
  refine ⟨[("GCph".toList, "dCijGGdOm-a-Om-Stef.dat".toList, exPh 20 1), ("GCph".toList, "dCijGGdOm-b-Om-Stef.dat".toList, exPh 20 5)],
    [("GCph".toList, "dCijGGdOm-b-Om-Stef.dat".toList, exPh 20 5), ("GCph".toList, "dCijGGdOm-a-Om-Stef.dat".toList, exPh 20 1)],
    List.Perm.swap _ _ _, _, _, rfl, rfl, rfl, ?_⟩
  intro h
  have h2 := congrArg (fun o => o.map fun e : Dict Str Der => e.map fun q => q.2.map fun m => m.1 0 0) h
  revert h2
  decide +kernel

/-- The name of the parameter is given twice. -/
example : matchDer "dCijGGdOm-run3-Om-Stef.dat".toList = some ("Om".toList, "Om".toList) :=
  der_name "Om".toList "-run3".toList ⟨by decide +kernel, by decide +kernel⟩ (by decide +kernel) (by decide +kernel) "Om".toList
    ⟨by decide +kernel, by decide +kernel⟩

/-- Files with different names of parameters are refused. -/
example : (readDer ("XC".toList, "dCijGGdOm-run3-h-Stef.dat".toList, exXc)).toOption = none := rfl

/-- A directory which lacks the files of a cosmology is refused. -/
example : ¬ ∃ d, build exPars { exSrc with xc := [("fid.dat".toList, exXc)] } = .ok d := by
  rw [build_ok_iff]
  rintro ⟨_, _, h⟩
  obtain ⟨f, hf, e⟩ := (h ("Omm".toList, 2)).1 ⟨_, List.mem_cons_of_mem _ List.mem_cons_self, by decide +kernel⟩
  rw [List.mem_singleton.1 hf] at e
  revert e
  decide +kernel

end Seyfert.SCam
