import Verif.Model.External
import Verif.Props.External
import Verif.Props.Compare
import Verif.Lemmas.Names
import Verif.Lemmas.PyStr
import Verif.Lemmas.PyNum

/-!
C93. Tables of angular spectra are read with every column at the pair of bins named in the header.
C94. External Fisher matrices keep the entry of each pair of parameters.
-/

namespace Seyfert.Ext

open Names

/-! ### Pairs in the header -/

/-- A pair as it is written: two numbers with one character between them, and text up to the next pair. -/
structure PairText where
  a : Str
  sep : Char
  b : Str
  gap : Str

def PairText.text (t : PairText) : Str := t.a ++ t.sep :: (t.b ++ t.gap)

/-- Both numbers are digits, the character between them is not and does not end a line, the text after the pair has no
digits and is not empty. -/
structure PairText.Good (t : PairText) : Prop where
  a0 : t.a ≠ []
  ad : ∀ c ∈ t.a, isDigit c = true
  b0 : t.b ≠ []
  bd : ∀ c ∈ t.b, isDigit c = true
  sd : isDigit t.sep = false
  nl : t.sep ≠ '\n'
  g0 : t.gap ≠ []
  gd : ∀ c ∈ t.gap, isDigit c = false

theorem matchPair_good {t : PairText} (h : t.Good) (s : Str) :
    matchPair (t.text ++ s) = some ((decVal t.a, decVal t.b), t.gap ++ s) := by
  obtain ⟨g, gs, hg⟩ := List.exists_cons_of_ne_nil h.g0
  have e1 : digits (t.text ++ s) = (t.a, t.sep :: (t.b ++ (t.gap ++ s))) := by
    unfold PairText.text
    rw [List.append_assoc, List.cons_append, List.append_assoc]
    exact spanChars_stop isDigit _ _ _ h.ad h.sd
  have e2 : digits (t.b ++ (t.gap ++ s)) = (t.b, t.gap ++ s) := by
    rw [hg]
    exact spanChars_stop isDigit _ _ _ h.bd (h.gd g (by rw [hg]; exact List.mem_cons_self))
  unfold matchPair
  rw [e1]
  simp only
  rw [if_neg h.a0, e2]
  simp only
  rw [if_pos ⟨h.nl, h.b0⟩]

theorem findPairs_skip (g s : Str) (h : ∀ c ∈ g, isDigit c = false) (n : Nat) :
    findPairs (n + g.length) (g ++ s) = findPairs n s := by
  induction g with
  | nil => rfl
  | cons c g ih =>
    have hc := h c List.mem_cons_self
    have hm : matchPair (c :: (g ++ s)) = none := by
      have : digits (c :: (g ++ s)) = ([], c :: (g ++ s)) := by
        unfold digits spanChars
        rw [if_neg (by rw [hc]; decide)]
      unfold matchPair
      rw [this]
      rfl
    show findPairs (n + g.length + 1) (c :: (g ++ s)) = _
    rw [findPairs, hm]
    exact ih fun x hx => h x (List.mem_cons_of_mem _ hx)

theorem findPairs_texts (l : List PairText) (h : ∀ t ∈ l, t.Good) :
    ∀ n, (l.flatMap PairText.text).length ≤ n →
      findPairs n (l.flatMap PairText.text) = l.map fun t => (decVal t.a, decVal t.b) := by
  induction l with
  | nil =>
    intro n _
    cases n <;> rfl
  | cons t l ih =>
    intro n hn
    have ht := h t List.mem_cons_self
    have hlen : t.text.length = t.a.length + 1 + t.b.length + t.gap.length := by
      unfold PairText.text
      simp only [List.length_append, List.length_cons]
      omega
    rw [List.flatMap_cons, List.length_append, hlen] at hn
    obtain ⟨c, r, hc⟩ := List.exists_cons_of_ne_nil ht.a0
    obtain ⟨m, hm⟩ : ∃ m, n = (m + t.gap.length) + 1 := ⟨n - 1 - t.gap.length, by omega⟩
    have hcons : t.text ++ l.flatMap PairText.text =
        c :: (r ++ t.sep :: (t.b ++ t.gap) ++ l.flatMap PairText.text) := by
      unfold PairText.text
      rw [hc]
      rfl
    rw [List.flatMap_cons, List.map_cons, hm, hcons, findPairs, ← hcons, matchPair_good ht]
    simp only
    rw [findPairs_skip _ _ ht.gd, ih (fun t' ht' => h t' (List.mem_cons_of_mem _ ht'))]
    omega

/-- The pairs of a header are found one by one, whatever text without digits is before and between them. -/
theorem pairs_found (pre : Str) (hp : ∀ c ∈ pre, isDigit c = false) (l : List PairText) (h : ∀ t ∈ l, t.Good) :
    pairsOf (pre ++ l.flatMap PairText.text) = l.map fun t => (decVal t.a, decVal t.b) := by
  unfold pairsOf
  rw [List.length_append, Nat.add_comm, findPairs_skip _ _ hp, findPairs_texts l h _ (Nat.le_refl _)]

/-- In particular numbers written in decimal come back. -/
theorem pairs_found_decimal (pre : Str) (hp : ∀ c ∈ pre, isDigit c = false) (sep : Char) (hs : isDigit sep = false)
    (hn : sep ≠ '\n') (gap : Str) (g0 : gap ≠ []) (hg : ∀ c ∈ gap, isDigit c = false) (l : List (Nat × Nat)) :
    pairsOf (pre ++ l.flatMap fun p => decStr p.1 ++ sep :: (decStr p.2 ++ gap)) = l := by
  have := pairs_found pre hp (l.map fun p => (⟨decStr p.1, sep, decStr p.2, gap⟩ : PairText)) (by
    intro t ht
    obtain ⟨p, _, rfl⟩ := List.mem_map.mp ht
    exact ⟨decStr_ne_nil _, decStr_digits _, decStr_ne_nil _, decStr_digits _, hs, hn, g0, hg⟩)
  rw [List.flatMap_map, List.map_map] at this
  refine Eq.trans this ?_
  conv_rhs => rw [← List.map_id l]
  refine List.map_congr_left fun p _ => ?_
  show (decVal (decStr p.1), decVal (decStr p.2)) = p
  rw [decVal_decStr, decVal_decStr]

example : pairsOf "# l C(1,1) C(1,2) C(12,12) ".toList = [(1, 1), (1, 2), (12, 12)] := by decide +kernel

/-- Pairs written without a character between the numbers run together. -/
theorem compact_misread : pairsOf "# l 11 12 22".toList = [(11, 12), (2, 2)] := by decide +kernel

/-- A number before the pairs shifts all of them; the count can still be right, so that nothing is noticed. -/
theorem stray_digit_misread : pairsOf "# bin2 1-1 1-2 2-2".toList = [(2, 1), (1, 1), (2, 2)] := by decide +kernel

/-! ### Shape -/

theorem indices_eq {hdr : Str} {sym : Bool} {qs : List (Nat × Nat)} {n m : Nat} (h : indices hdr sym = .ok (qs, n, m)) :
    ∃ base, (base = 0 ∨ base = 1) ∧ qs = (pairsOf hdr).map (fun p => (p.1 - base, p.2 - base)) ∧
      (base = 0 ↔ ∃ p ∈ pairsOf hdr, p.1 = 0) ∧ (∀ p ∈ pairsOf hdr, base ≤ p.1 ∧ base ≤ p.2) ∧
      (∀ q ∈ qs, q.1 < n ∧ q.2 < m) ∧ (∃ q ∈ qs, q.1 + 1 = n) ∧ (∃ q ∈ qs, q.2 + 1 = m) ∧ (sym = true → n = m) := by
  unfold indices at h
  simp only at h
  split at h
  · next imin imax jmin jmax h1 h2 h3 h4 =>
    rw [List.min?_eq_some_iff] at h1 h3
    rw [List.max?_eq_some_iff] at h2 h4
    split at h
    · cases h
    next heq =>
    have heq : imin = jmin := by simpa using heq
    split at h
    · cases h
    next hsym =>
    have mem1 : ∀ p ∈ pairsOf hdr, imin ≤ p.1 ∧ p.1 ≤ imax ∧ imin ≤ p.2 ∧ p.2 ≤ jmax := fun p hp =>
      ⟨h1.2 _ (List.mem_map.mpr ⟨p, hp, rfl⟩), h2.2 _ (List.mem_map.mpr ⟨p, hp, rfl⟩),
        heq ▸ h3.2 _ (List.mem_map.mpr ⟨p, hp, rfl⟩), h4.2 _ (List.mem_map.mpr ⟨p, hp, rfl⟩)⟩
    obtain ⟨a, ha, ha'⟩ := List.mem_map.mp h2.1
    obtain ⟨b, hb, hb'⟩ := List.mem_map.mp h4.1
    obtain ⟨d, hd, hd'⟩ := List.mem_map.mp h1.1
    have hs : sym = true → imax = jmax := fun hs => by
      by_contra hne
      exact hsym ⟨hs, hne⟩
    split at h
    · next h0 =>
      cases h
      refine ⟨0, .inl rfl, by simp, ⟨fun _ => ⟨d, hd, hd'.trans h0⟩, fun _ => rfl⟩, fun p _ => ⟨Nat.zero_le _, Nat.zero_le _⟩,
        fun q hq => ?_, ⟨a, ha, by rw [ha']⟩, ⟨b, hb, by rw [hb']⟩, fun h => by rw [hs h]⟩
      have := mem1 q hq
      omega
    · next h0 =>
      cases h
      refine ⟨1, .inr rfl, rfl, ⟨fun h => absurd h (by decide), ?_⟩, fun p hp => ?_, ?_, ?_, ?_, hs⟩
      · rintro ⟨p, hp, h⟩
        have := (mem1 p hp).1
        omega
      · have := mem1 p hp
        omega
      · intro q hq
        obtain ⟨p, hp, rfl⟩ := List.mem_map.mp hq
        have := mem1 p hp
        simp only
        omega
      · refine ⟨_, List.mem_map.mpr ⟨a, ha, rfl⟩, ?_⟩
        have := mem1 a ha
        simp only
        omega
      · refine ⟨_, List.mem_map.mpr ⟨b, hb, rfl⟩, ?_⟩
        have := mem1 b hb
        simp only
        omega
  · cases h

/-! ### Values -/

theorem assign_other (f : Nat → Nat → ℚ) (ps : List (Nat × Nat)) (vs : List ℚ) {i j : Nat} (h : (i, j) ∉ ps) :
    assign f ps vs i j = f i j := by
  unfold assign
  induction ps generalizing f vs with
  | nil => rfl
  | cons p ps ih =>
    cases vs with
    | nil => rfl
    | cons v vs =>
      rw [List.zip_cons_cons, List.foldl_cons, ih _ _ (fun hx => h (List.mem_cons_of_mem _ hx))]
      rw [if_neg (fun e => h (by rw [e]; exact List.mem_cons_self))]

theorem assign_listed (f : Nat → Nat → ℚ) (ps : List (Nat × Nat)) (vs : List ℚ) (hp : ps.Nodup) {i j : Nat} {v : ℚ}
    (h : ((i, j), v) ∈ ps.zip vs) : assign f ps vs i j = v := by
  unfold assign
  induction ps generalizing f vs with
  | nil => cases h
  | cons p ps ih =>
    cases vs with
    | nil => cases h
    | cons w vs =>
      rw [List.nodup_cons] at hp
      rw [List.zip_cons_cons, List.foldl_cons]
      rw [List.zip_cons_cons, List.mem_cons] at h
      rcases h with h | h
      · cases h
        have := assign_other (fun a b => if (a, b) = (i, j) then v else f a b) ps vs hp.1
        unfold assign at this
        rw [this, if_pos rfl]
      · exact ih _ _ hp.2 h

theorem swap_zip {ps : List (Nat × Nat)} {vs : List ℚ} {i j : Nat} {v : ℚ} :
    ((i, j), v) ∈ (ps.map fun p => (p.2, p.1)).zip vs ↔ ((j, i), v) ∈ ps.zip vs := by
  induction ps generalizing vs with
  | nil => simp
  | cons p ps ih =>
    cases vs with
    | nil => simp
    | cons w vs =>
      rw [List.map_cons, List.zip_cons_cons, List.zip_cons_cons, List.mem_cons, List.mem_cons, ih]
      constructor
      · rintro (h | h)
        · cases h; exact .inl rfl
        · exact .inr h
      · rintro (h | h)
        · cases h; exact .inl rfl
        · exact .inr h

theorem zip_listed {A : Type} {ps : List (Nat × Nat)} {vs : List A} {p : Nat × Nat} {v : A} (h : (p, v) ∈ ps.zip vs) : p ∈ ps :=
  (List.of_mem_zip h).1

/-- Spectra of two different probes: the value of each column is at its pair, the other entries are zero; if there are
fewer rows than columns, rows and columns change places. -/
theorem readRow_cross {ps : List (Nat × Nat)} (hp : ps.Nodup) (shape : Nat × Nat) {vs : List ℚ}
    (hl : vs.length = ps.length) : ∃ f, readRow ps shape false vs =
      .ok (f, if shape.1 < shape.2 then (shape.2, shape.1) else shape) ∧
      (∀ i j v, ((i, j), v) ∈ ps.zip vs → (if shape.1 < shape.2 then f j i else f i j) = v) ∧
      ∀ i j, (i, j) ∉ ps → (if shape.1 < shape.2 then f j i else f i j) = 0 := by
  have h1 : readRow ps shape false vs = .ok (if shape.1 < shape.2 then
      (fun i j => assign (fun _ _ => 0) ps vs j i, shape.2, shape.1) else (assign (fun _ _ => 0) ps vs, shape.1, shape.2)) := by
    unfold readRow
    rw [if_neg (fun h => h.1 hl)]
    simp only
    rw [if_pos hl]
    rfl
  rw [h1]
  by_cases hs : shape.1 < shape.2
  · simp only [if_pos hs]
    exact ⟨_, rfl, fun i j v h => assign_listed _ ps vs hp h, fun i j h => assign_other (fun _ _ => 0) ps vs h⟩
  · simp only [if_neg hs]
    exact ⟨_, rfl, fun i j v h => assign_listed _ ps vs hp h, fun i j h => assign_other (fun _ _ => 0) ps vs h⟩

/-- Spectra of one probe: the value of each column is at its pair and at the pair the other way round, and the other
entries are zero.  No pair may be listed in both ways. -/
theorem readRow_auto {ps : List (Nat × Nat)} (hp : ps.Nodup) (hw : ∀ p ∈ ps, (p.2, p.1) ∈ ps → p.1 = p.2) (n : Nat)
    {vs : List ℚ} (hl : vs.length = ps.length) : ∃ f, readRow ps (n, n) true vs = .ok (f, n, n) ∧
      (∀ i j v, ((i, j), v) ∈ ps.zip vs → f i j = v ∧ f j i = v) ∧ (∀ i j, f i j = f j i) ∧
      ∀ i j, (i, j) ∉ ps → (j, i) ∉ ps → f i j = 0 := by
  have hp' : (ps.map fun p => (p.2, p.1)).Nodup := by
    refine hp.map ?_
    intro a b h
    cases a; cases b
    cases h
    rfl
  have hval : ∀ i j v, ((i, j), v) ∈ ps.zip vs →
      assign (assign (fun _ _ => 0) ps vs) (ps.map fun p => (p.2, p.1)) vs i j = v ∧
      assign (assign (fun _ _ => 0) ps vs) (ps.map fun p => (p.2, p.1)) vs j i = v := by
    intro i j v h
    have hmem := zip_listed h
    refine ⟨?_, assign_listed _ _ _ hp' (swap_zip.mpr h)⟩
    by_cases hij : i = j
    · subst hij
      exact assign_listed _ _ _ hp' (swap_zip.mpr h)
    · rw [assign_other _ _ _ ?_]
      · exact assign_listed _ _ _ hp h
      · intro hx
        obtain ⟨p, hpp, he⟩ := List.mem_map.mp hx
        obtain ⟨a, b⟩ := p
        cases he
        exact hij (hw _ hmem hpp)
  have hzero : ∀ i j, (i, j) ∉ ps → (j, i) ∉ ps →
      assign (assign (fun _ _ => 0) ps vs) (ps.map fun p => (p.2, p.1)) vs i j = 0 := by
    intro i j h1 h2
    rw [assign_other _ _ _ ?_, assign_other _ _ _ h1]
    intro hx
    obtain ⟨p, hpp, he⟩ := List.mem_map.mp hx
    obtain ⟨a, b⟩ := p
    cases he
    exact h2 hpp
  have hex : ∀ p ∈ ps, ∃ v, (p, v) ∈ ps.zip vs := by
    intro p hpm
    obtain ⟨t, ht, rfl⟩ := List.mem_iff_getElem.mp hpm
    exact ⟨vs[t], List.mem_iff_getElem.mpr ⟨t, by simp [List.length_zip]; omega, by simp⟩⟩
  refine ⟨assign (assign (fun _ _ => 0) ps vs) (ps.map fun p => (p.2, p.1)) vs, ?_, hval, ?_, hzero⟩
  · unfold readRow
    rw [if_neg (fun h => h.1 hl)]
    simp only
    rw [if_pos hl, if_pos trivial, if_neg (Nat.lt_irrefl _)]
  · intro i j
    by_cases h1 : (i, j) ∈ ps
    · obtain ⟨v, hv⟩ := hex _ h1
      rw [(hval i j v hv).1, (hval i j v hv).2]
    · by_cases h2 : (j, i) ∈ ps
      · obtain ⟨v, hv⟩ := hex _ h2
        rw [(hval j i v hv).1, (hval j i v hv).2]
      · rw [hzero i j h1 h2, hzero j i h2 h1]

/-- A row with one value puts it at every pair; any other number of values than pairs is refused. -/
theorem readRow_length (ps : List (Nat × Nat)) (shape : Nat × Nat) (sym : Bool) (vs : List ℚ) :
    (readRow ps shape sym vs = .error .valueError ↔ vs.length ≠ ps.length ∧ vs.length ≠ 1) ∧
    ∀ v, vs = [v] → ps.length ≠ 1 → readRow ps shape sym vs = readRow ps shape sym (List.replicate ps.length v) := by
  constructor
  · unfold readRow
    split
    · next h => exact ⟨fun _ => h, fun _ => rfl⟩
    · next h => exact ⟨fun h' => (by cases h'), fun h' => absurd h' h⟩
  · rintro v rfl hne
    unfold readRow
    have hne' : ¬ [v].length = ps.length := fun h => hne h.symm
    have hl : (List.replicate ps.length v).length = ps.length := List.length_replicate
    rw [if_neg (show ¬ ([v].length ≠ ps.length ∧ [v].length ≠ 1) from fun h => h.2 rfl),
      if_neg (show ¬ ((List.replicate ps.length v).length ≠ ps.length ∧ (List.replicate ps.length v).length ≠ 1) from
        fun h => h.1 hl)]
    simp only
    rw [if_neg hne', if_pos hl]
    rfl

/-! ### Whole tables -/

theorem mapM_ok {A B : Type} (f : A → Except Err B) (g : A → B) (l : List A) (h : ∀ a ∈ l, f a = .ok (g a)) :
    l.mapM f = .ok (l.map g) := by
  induction l with
  | nil => rfl
  | cons a l ih =>
    rw [List.mapM_cons, h a List.mem_cons_self, ih fun b hb => h b (List.mem_cons_of_mem _ hb)]
    rfl

/-- A table of the spectra between two different probes, with bins counted from one in the header: each value is at its
pair of bins. -/
theorem readCl_cross (hdr : Str) (ps : List (Nat × Nat)) (hps : pairsOf hdr = ps) (hp : ps.Nodup) (N M : Nat)
    (hN : ∀ p ∈ ps, 1 ≤ p.1 ∧ p.1 ≤ N ∧ 1 ≤ p.2 ∧ p.2 ≤ M) (h1 : (1, 1) ∈ ps) (h2 : (N, M) ∈ ps) (hMN : M ≤ N)
    (rows : List (ℚ × List ℚ)) (hr : 2 ≤ rows.length) (hv : ∀ r ∈ rows, r.2.length = ps.length) :
    ∃ g : ℚ × List ℚ → Nat → Nat → ℚ, readCl true [hdr] rows false = .ok (rows.map fun r => (r.1, g r, N, M)) ∧
      (∀ r ∈ rows, ∀ i j v, ((i, j), v) ∈ ps.zip r.2 → g r (i - 1) (j - 1) = v) ∧
      ∀ r ∈ rows, ∀ i j, (i + 1, j + 1) ∉ ps → g r i j = 0 := by
  have hind : indices hdr false = .ok (ps.map (fun p => (p.1 - 1, p.2 - 1)), N, M) := by
    have m1 : (ps.map (·.1)).min? = some 1 := List.min?_eq_some_iff.mpr
      ⟨List.mem_map.mpr ⟨_, h1, rfl⟩, fun b hb => by
        obtain ⟨p, hp, rfl⟩ := List.mem_map.mp hb
        exact (hN p hp).1⟩
    have m2 : (ps.map (·.1)).max? = some N := List.max?_eq_some_iff.mpr
      ⟨List.mem_map.mpr ⟨_, h2, rfl⟩, fun b hb => by
        obtain ⟨p, hp, rfl⟩ := List.mem_map.mp hb
        exact (hN p hp).2.1⟩
    have m3 : (ps.map (·.2)).min? = some 1 := List.min?_eq_some_iff.mpr
      ⟨List.mem_map.mpr ⟨_, h1, rfl⟩, fun b hb => by
        obtain ⟨p, hp, rfl⟩ := List.mem_map.mp hb
        exact (hN p hp).2.2.1⟩
    have m4 : (ps.map (·.2)).max? = some M := List.max?_eq_some_iff.mpr
      ⟨List.mem_map.mpr ⟨_, h2, rfl⟩, fun b hb => by
        obtain ⟨p, hp, rfl⟩ := List.mem_map.mp hb
        exact (hN p hp).2.2.2⟩
    unfold indices
    simp only
    rw [hps, m1, m2, m3, m4]
    rfl
  have hnd : (ps.map (fun p => (p.1 - 1, p.2 - 1))).Nodup := by
    refine List.Nodup.map_on ?_ hp
    intro a ha b hb e
    have e1 := congrArg Prod.fst e
    have e2 := congrArg Prod.snd e
    have := hN a ha
    have := hN b hb
    simp only at e1 e2
    exact Prod.ext (by omega) (by omega)
  have hrow : ∀ r ∈ rows, ∃ f, readRow (ps.map (fun p => (p.1 - 1, p.2 - 1))) (N, M) false r.2 = .ok (f, N, M) ∧
      (∀ i j v, ((i, j), v) ∈ (ps.map (fun p => (p.1 - 1, p.2 - 1))).zip r.2 → f i j = v) ∧
      ∀ i j, (i, j) ∉ ps.map (fun p => (p.1 - 1, p.2 - 1)) → f i j = 0 := by
    intro r hr'
    obtain ⟨f, e1, e2, e3⟩ := readRow_cross hnd (N, M) (vs := r.2) (by rw [List.length_map, hv r hr'])
    rw [if_neg (by simp only; omega)] at e1
    simp only [if_neg (show ¬ N < M by omega)] at e2 e3
    exact ⟨f, e1, e2, e3⟩
  classical
  refine ⟨fun r => if h : r ∈ rows then (hrow r h).choose else fun _ _ => 0, ?_, ?_, ?_⟩
  · unfold readCl
    rw [if_neg (by decide)]
    have hj : joinStr " ".toList [hdr] = hdr := rfl
    rw [hj, hind]
    simp only
    rw [if_neg (not_not.mpr fun r hr r' hr' => (hv r hr).trans (hv r' hr').symm), if_neg ?_]
    · refine mapM_ok _ _ _ fun r hr' => ?_
      rw [dif_pos hr']
      have := (hrow r hr').choose_spec.1
      generalize (hrow r hr').choose = f at this ⊢
      rw [this]
    · rintro (h | ⟨r, hr', h⟩)
      · omega
      · have := hv r hr'
        rw [h] at this
        rw [List.length_nil] at this
        rw [List.length_eq_zero_iff.mp this.symm] at h1
        cases h1
  · intro r hr' i j v h
    simp only
    rw [dif_pos hr']
    refine (hrow r hr').choose_spec.2.1 _ _ _ ?_
    have : (((i - 1, j - 1), v) : (Nat × Nat) × ℚ) = Prod.map (fun p : Nat × Nat => (p.1 - 1, p.2 - 1)) id ((i, j), v) := rfl
    rw [this, List.zip_map_left]
    exact List.mem_map.mpr ⟨_, h, rfl⟩
  · intro r hr' i j h
    simp only
    rw [dif_pos hr']
    refine (hrow r hr').choose_spec.2.2 _ _ fun hx => ?_
    obtain ⟨p, hp', he⟩ := List.mem_map.mp hx
    have := hN p hp'
    refine h ?_
    have e1 := congrArg Prod.fst he
    have e2 := congrArg Prod.snd he
    simp only at e1 e2
    rw [show (i + 1, j + 1) = p from Prod.ext (by simp only; omega) (by simp only; omega)]
    exact hp'

/-- The spectra of bins (1,1), (2,1), (2,2) between two probes. -/
example : ∃ g : ℚ × List ℚ → Nat → Nat → ℚ, readCl true ["# l C(1,1) C(2,1) C(2,2) ".toList] [(10, [1, 2, 3]), (20, [4, 5, 6])] false =
    .ok ([(10, [1, 2, 3]), (20, [4, 5, 6])].map fun r => (r.1, g r, 2, 2)) ∧ g (20, [4, 5, 6]) (2 - 1) (1 - 1) = 5 ∧
      g (20, [4, 5, 6]) 0 1 = 0 := by
  obtain ⟨g, h1, h2, h3⟩ := readCl_cross "# l C(1,1) C(2,1) C(2,2) ".toList [(1, 1), (2, 1), (2, 2)] (by decide +kernel)
    (by decide) 2 2 (by decide) (by decide) (by decide) (by decide) [(10, [1, 2, 3]), (20, [4, 5, 6])] (by decide)
    (by decide +kernel)
  exact ⟨g, h1, h2 _ (by simp) 2 1 5 (by simp), h3 _ (by simp) 0 1 (by decide)⟩

/-! ### Fisher matrices -/

/-- The biases of the files, counted from one, become those of the program, counted from zero. -/
theorem newName_bias (n : Nat) : newName ('b' :: decStr (n + 1)) = "bgph".toList ++ decStr n := by
  have h : digits (decStr (n + 1)) = (decStr (n + 1), []) := spanChars_all _ _ (decStr_digits _)
  unfold newName
  simp only
  rw [h]
  simp only
  rw [if_neg (decStr_ne_nil _), decVal_decStr, if_neg (Nat.succ_ne_zero n), Nat.add_sub_cancel]

/-- The names of the parameters in the external files. -/
def istNames : List Str :=
  ["Omegam".toList, "Omegab".toList, "Omegade".toList, "h".toList, "ns".toList, "sigma8".toList, "w0".toList, "wa".toList,
   "gamma".toList]

/-- A column of an external file: a cosmological parameter or a bias. -/
def IsColumn (s : Str) : Prop := s ∈ istNames ∨ ∃ n, s = 'b' :: decStr (n + 1)

/-- The names of the quantities in the columns of external matrices. -/
def column : Quantity → Str
  | .baryons => "Omegab".toList
  | .darkEnergy => "Omegade".toList
  | .matter => "Omegam".toList
  | .hubble => "h".toList
  | .index => "ns".toList
  | .amplitude => "sigma8".toList
  | .w0 => "w0".toList
  | .wa => "wa".toList

/-- A column gets the name that its quantity has in this program. -/
theorem newName_meaning (q : Quantity) : newName (column q) = q.ours := by
  cases q <;> decide +kernel

theorem newName_cosmo_head : ∀ s ∈ istNames, (newName s).head? ≠ some 'b' := by decide +kernel

/-- Different columns have different new names. -/
theorem newName_injective {s t : Str} (hs : IsColumn s) (ht : IsColumn t) (h : newName s = newName t) : s = t := by
  rcases hs with hs | ⟨n, rfl⟩
  · rcases ht with ht | ⟨m, rfl⟩
    · have : ∀ s ∈ istNames, ∀ t ∈ istNames, newName s = newName t → s = t := by decide +kernel
      exact this s hs t ht h
    · exfalso
      rw [newName_bias] at h
      exact newName_cosmo_head s hs (by rw [h]; rfl)
  · rcases ht with ht | ⟨m, rfl⟩
    · exfalso
      rw [newName_bias] at h
      exact newName_cosmo_head t ht (by rw [← h]; rfl)
    · rw [newName_bias, newName_bias] at h
      have := decStr_inj (List.append_cancel_left h)
      rw [this]

/-- Other names may fall together: what follows the number is dropped. -/
theorem newName_collision : newName "b1".toList = newName "b1_lens".toList ∧ newName "b1".toList = newName "bgph0".toList := by
  decide +kernel

theorem strLe_total (a b : Str) : strLe a b = true ∨ strLe b a = true := by
  induction a generalizing b with
  | nil => exact .inl (by cases b <;> rfl)
  | cons x a ih =>
    cases b with
    | nil => exact .inr rfl
    | cons y b =>
      unfold strLe
      rcases Nat.lt_trichotomy x.toNat y.toNat with h | h | h
      · left; simp [h]
      · have hxy : x = y := Char.toNat_inj.mp h
        subst hxy
        rcases ih b with h' | h'
        · left; simp [h']
        · right; simp [h']
      · right; simp [h]

theorem strLe_trans (a b c : Str) (h1 : strLe a b = true) (h2 : strLe b c = true) : strLe a c = true := by
  induction a generalizing b c with
  | nil => cases c <;> rfl
  | cons x a ih =>
    cases b with
    | nil => cases h1
    | cons y b =>
      cases c with
      | nil => cases h2
      | cons z c =>
        unfold strLe at h1 h2 ⊢
        simp only [Bool.or_eq_true, decide_eq_true_eq, Bool.and_eq_true, beq_iff_eq] at h1 h2 ⊢
        rcases h1 with h1 | ⟨rfl, h1⟩
        · rcases h2 with h2 | ⟨rfl, h2⟩
          · exact .inl (by omega)
          · exact .inl h1
        · rcases h2 with h2 | ⟨rfl, h2⟩
          · exact .inl h2
          · exact .inr ⟨rfl, ih b c h1 h2⟩

/-- The matrix read from a file has the entry of each pair of columns at the new names of these columns, whatever their
order in the file; the names are sorted. -/
theorem readFisher_spec (cols : List Str) (entry : Nat → Nat → ℚ) :
    ((readFisher cols entry).1).Perm (cols.map newName) ∧ ((readFisher cols entry).1).Pairwise (fun a b => strLe a b = true) ∧
    ∃ pos : Nat → Nat, (∀ a < cols.length, pos a < cols.length ∧ (readFisher cols entry).1[pos a]? = (cols[a]?).map newName) ∧
      ∀ a < cols.length, ∀ b < cols.length, (readFisher cols entry).2 (pos a) (pos b) = entry a b := by
  have hperm : (((cols.map newName).zipIdx.mergeSort (fun a b => strLe a.1 b.1))).Perm ((cols.map newName).zipIdx) :=
    List.mergeSort_perm _ _
  have hmem : ∀ a < cols.length, ∃ i, i < cols.length ∧ ∃ x, cols[a]? = some x ∧
      ((cols.map newName).zipIdx.mergeSort (fun a b => strLe a.1 b.1))[i]? = some (newName x, a) := by
    intro a ha
    have h1 : (newName cols[a], a) ∈ (cols.map newName).zipIdx := by
      rw [List.mem_zipIdx_iff_getElem?]
      simp [ha]
    have h2 := hperm.mem_iff.mpr h1
    obtain ⟨i, hi, he⟩ := List.mem_iff_getElem.mp h2
    have hlen := hperm.length_eq
    rw [List.length_zipIdx, List.length_map] at hlen
    exact ⟨i, hlen ▸ hi, cols[a], by simp [ha], by rw [← he, List.getElem?_eq_getElem hi]⟩
  refine ⟨?_, ?_, ?_⟩
  · have := hperm.map (·.1)
    rw [List.zipIdx_map_fst] at this
    exact this
  · show ((((cols.map newName).zipIdx.mergeSort (fun a b => strLe a.1 b.1))).map (·.1)).Pairwise _
    rw [List.pairwise_map]
    refine List.pairwise_mergeSort (le := fun a b : Str × Nat => strLe a.1 b.1) (fun a b c => strLe_trans a.1 b.1 c.1) (fun a b => ?_) _
    rw [Bool.or_eq_true]
    exact strLe_total a.1 b.1
  · classical
    refine ⟨fun a => if h : a < cols.length then (hmem a h).choose else 0, ?_, ?_⟩
    · intro a ha
      simp only
      rw [dif_pos ha]
      obtain ⟨h1, x, h2, h3⟩ := (hmem a ha).choose_spec
      refine ⟨h1, ?_⟩
      unfold readFisher
      simp only
      rw [List.getElem?_map, h3, h2]
      rfl
    · intro a ha b hb
      simp only
      rw [dif_pos ha, dif_pos hb]
      obtain ⟨_, x, _, h3⟩ := (hmem a ha).choose_spec
      obtain ⟨_, y, _, h4⟩ := (hmem b hb).choose_spec
      unfold readFisher
      simp only
      rw [h3, h4]

/-- For the columns of the external files the entries can be found by name. -/
theorem readFisher_by_name (cols : List Str) (hc : ∀ s ∈ cols, IsColumn s) (hn : cols.Nodup) (entry : Nat → Nat → ℚ)
    {a b i j : Nat} {s t : Str} (ha : cols[a]? = some s) (hb : cols[b]? = some t)
    (hi : (readFisher cols entry).1[i]? = some (newName s)) (hj : (readFisher cols entry).1[j]? = some (newName t)) :
    (readFisher cols entry).2 i j = entry a b := by
  obtain ⟨hp, _, pos, h1, h2⟩ := readFisher_spec cols entry
  have hnd : ((readFisher cols entry).1).Nodup :=
    hp.nodup_iff.mpr (List.Nodup.map_on (fun x hx y hy h => newName_injective (hc x hx) (hc y hy) h) hn)
  have key : ∀ {a i : Nat} {s : Str}, cols[a]? = some s → (readFisher cols entry).1[i]? = some (newName s) →
      a < cols.length ∧ pos a = i := by
    intro a i s ha hi
    have hlt : a < cols.length := by
      by_contra hge
      rw [List.getElem?_eq_none (Nat.le_of_not_lt hge)] at ha
      cases ha
    refine ⟨hlt, ?_⟩
    obtain ⟨_, e⟩ := h1 a hlt
    rw [ha] at e
    have hi' : i < ((readFisher cols entry).1).length := by
      by_contra hge
      rw [List.getElem?_eq_none (Nat.le_of_not_lt hge)] at hi
      cases hi
    have := hp.length_eq
    rw [List.length_map] at this
    exact ((List.getElem?_inj hi' hnd).mp (hi.trans e.symm)).symm
  obtain ⟨la, ea⟩ := key ha hi
  obtain ⟨lb, eb⟩ := key hb hj
  rw [← ea, ← eb]
  exact h2 a la b lb

example : (readFisher ["h".toList, "b2".toList, "Omegam".toList] (fun i j => 10 * i + j)).1.Perm
    ["h".toList, "bgph1".toList, "Omm".toList] := by
  have := (readFisher_spec ["h".toList, "b2".toList, "Omegam".toList] (fun i j => 10 * i + j)).1
  rwa [show ["h".toList, "b2".toList, "Omegam".toList].map newName = ["h".toList, "bgph1".toList, "Omm".toList] from by
    decide +kernel] at this

/-! ### Names of the matrices -/

theorem fisherNames_chars : ∀ q ∈ fisherNames, q.1 ≠ [] ∧ (∀ c ∈ q.1, isNameChar c = true) ∧ q.1.head? ≠ some '_' ∧
    q.1.getLast? ≠ some '_' ∧ fisherNames.lookup q.1 = some q.2 := by decide +kernel

theorem dropWhile_head (p : Char → Bool) (l : Str) (h : ∀ c ∈ l.head?, p c = false) : l.dropWhile p = l := by
  cases l with
  | nil => rfl
  | cons c l => rw [List.dropWhile_cons, if_neg]; rw [h c rfl]; decide

theorem searchName_skip (pre s : Str) (h : 'E' ∉ pre) : searchName (pre ++ s) = searchName s := by
  induction pre with
  | nil => rfl
  | cons c pre ih =>
    rw [List.mem_cons, not_or] at h
    have : stripPrefix "EuclidISTF_".toList (c :: (pre ++ s)) = none := by
      cases hs : stripPrefix "EuclidISTF_".toList (c :: (pre ++ s)) with
      | none => rfl
      | some r =>
        rw [stripPrefix_eq_some] at hs
        exact absurd (List.cons.inj hs).1.symm h.1
    show searchName (c :: (pre ++ s)) = _
    rw [searchName, this]
    exact ih h.2

/-- The names of combinations. They stay apart, and name the probes that the file names. -/
theorem fisherNames_meaning : fisherNames.map (·.1) =
      ["WL".toList, "GCph".toList, "GCsp".toList, "GCph_WL_XC".toList, "GCsp_GCph_WL_XC".toList] ∧
    (fisherNames.map (·.2)).Nodup ∧
    -- a probe is in the name here if and only if it is in the name of the file
    ∀ q ∈ fisherNames, ∀ w ∈ ["WL".toList, "GCph".toList, "GCsp".toList], (w <:+: q.1 ↔ w <:+: q.2) ∧
      ("_XC".toList <:+: q.1 ↔ "+XC(WL,GCph)]".toList <:+: q.2) := by
  refine ⟨by decide +kernel, by decide +kernel, ?_⟩
  have : ∀ q ∈ fisherNames, ∀ w ∈ ["WL".toList, "GCph".toList, "GCsp".toList],
      Compare.contains w q.1 = Compare.contains w q.2 ∧
      Compare.contains "_XC".toList q.1 = Compare.contains "+XC(WL,GCph)]".toList q.2 := by decide +kernel
  intro q hq w hw
  obtain ⟨a, b⟩ := this q hq w hw
  constructor
  · rw [← Compare.contains_iff, ← Compare.contains_iff, a]
  · rw [← Compare.contains_iff, ← Compare.contains_iff, b]

/-- A file named after a known combination, followed by underscores and by something that is not among the letters of the
names, gets the name of this combination. -/
theorem fisherName_spec (pre : Str) (hpre : 'E' ∉ pre) {n ours : Str} (hn : (n, ours) ∈ fisherNames) (us : Nat)
    (c : Char) (hc : isNameChar c = false) (rest : Str) :
    fisherName (pre ++ ("EuclidISTF_".toList ++ (n ++ List.replicate us '_' ++ c :: rest))) = .ok (some ours) := by
  obtain ⟨h0, hall, hh, hl, hlook⟩ := fisherNames_chars _ hn
  simp only at h0 hall hh hl hlook
  have hspan : spanChars isNameChar (n ++ List.replicate us '_' ++ c :: rest) = (n ++ List.replicate us '_', c :: rest) := by
    refine spanChars_stop _ _ _ _ (fun x hx => ?_) hc
    rcases List.mem_append.mp hx with hx | hx
    · exact hall x hx
    · rw [List.eq_of_mem_replicate hx]; decide
  have hs : searchName (pre ++ ("EuclidISTF_".toList ++ (n ++ List.replicate us '_' ++ c :: rest))) = some n := by
    rw [searchName_skip pre _ hpre]
    show searchName ('E' :: ("uclidISTF_".toList ++ (n ++ List.replicate us '_' ++ c :: rest))) = _
    rw [searchName]
    rw [show 'E' :: ("uclidISTF_".toList ++ (n ++ List.replicate us '_' ++ c :: rest)) =
      "EuclidISTF_".toList ++ (n ++ List.replicate us '_' ++ c :: rest) from rfl, stripPrefix_append]
    simp only
    rw [hspan]
    simp only
    rw [if_neg (fun h => h0 (List.append_eq_nil_iff.mp h).1)]
    have e1 : (n ++ List.replicate us '_').dropWhile (· == '_') = n ++ List.replicate us '_' := by
      refine dropWhile_head _ _ fun x hx => ?_
      obtain ⟨y, r, rfl⟩ := List.exists_cons_of_ne_nil h0
      cases hx
      simpa using fun e => hh (by rw [e]; rfl)
    rw [e1, List.reverse_append, List.reverse_replicate]
    have e2 : ∀ k, (List.replicate k '_' ++ n.reverse).dropWhile (· == '_') = n.reverse := by
      intro k
      induction k with
      | zero =>
        refine dropWhile_head _ _ fun x hx => ?_
        rw [List.replicate_zero, List.nil_append, List.head?_reverse] at hx
        simpa using fun e => hl (by rw [hx, e])
      | succ k ih => exact ih
    rw [e2, List.reverse_reverse]
  unfold fisherName
  rw [hs]
  simp only
  rw [hlook]

example : fisherName "EuclidISTF_GCph_WL_XC_w0wa_flat_optimistic.txt".toList = .ok (some "[WL+GCph+XC(WL,GCph)]".toList) := by
  decide +kernel

/-- A pessimistic file gets no name: the `p` counts as a letter of the name, and an exception is raised. -/
theorem pessimistic_refused : fisherName "EuclidISTF_WL_pessimistic.txt".toList = .error .keyError := by decide +kernel

end Seyfert.Ext
