import Verif.Spec.Keys
import Verif.Lemmas.PyStr

/-! Helper lemmas on keys. -/

namespace Seyfert.Keys

/-- The key object of a well written key. -/
def mkKey : Kind → Probe → Probe → ClKey
  | .long, a, b => ⟨written .long a b, .long, some (a.name .long, b.name .long)⟩
  | .short, a, b => ⟨written .short a b, .short, some (a.name .short, b.name .short)⟩
  | .alias, a, b => ⟨written .alias a b, .alias, none⟩

theorem ctor_written (k : Kind) (a b : Probe) : ctor (written k a b) = .ok (mkKey k a b) := by
  revert k a b; decide +kernel

theorem transformTo_mkKey (k k' : Kind) (a b : Probe) :
    transformTo (mkKey k a b) (some k') = .ok (mkKey k' a b) := by
  revert k k' a b; decide +kernel

theorem toParts_mkKey (k : Kind) (a b : Probe) :
    toParts (mkKey k a b) = .ok (a.name k, b.name k) := by
  revert k a b; decide +kernel

theorem reverse_mkKey (k : Kind) (a b : Probe) :
    getReverseKey (mkKey k a b) = .ok (mkKey k b a) := by
  revert k a b; decide +kernel

theorem written_inj (k k' : Kind) (a b a' b' : Probe) (h : written k a b = written k' a' b') :
    k = k' ∧ a = a' ∧ b = b' := by
  revert k k' a b a' b'; decide +kernel

theorem name_inj (k k' : Kind) (a a' : Probe) (h : a.name k = a'.name k') : k = k' ∧ a = a' := by
  revert k k' a a'; decide +kernel

theorem mkKey_raw (k : Kind) (a b : Probe) : (mkKey k a b).raw = written k a b := by
  cases k <;> rfl

theorem mkKey_kind (k : Kind) (a b : Probe) : (mkKey k a b).kind = k := by
  cases k <;> rfl

theorem hashed_mkKey (k : Kind) (a b : Probe) : hashed (mkKey k a b) = .ok (written .short a b) := by
  unfold hashed toRawKey
  rw [transformTo_mkKey]
  rfl

theorem keyEq_mkKey (k k' : Kind) (a b a' b' : Probe) :
    keyEq (mkKey k a b) (some (mkKey k' a' b')) = .ok (decide (a = a' ∧ b = b')) := by
  unfold keyEq equivalentTo
  simp only [mkKey_kind, transformTo_mkKey, mkKey_raw]
  congr 1
  rw [Bool.eq_iff_iff]
  simp only [Bool.and_eq_true, decide_eq_true_eq, and_true]
  constructor
  · intro h; exact (written_inj _ _ _ _ _ _ h).2
  · rintro ⟨rfl, rfl⟩; rfl

theorem found_mkKey (k k' : Kind) (a b a' b' : Probe) :
    found (mkKey k a b) (mkKey k' a' b') = decide (a = a' ∧ b = b') := by
  unfold found
  rw [hashed_mkKey, hashed_mkKey, keyEq_mkKey, Bool.eq_iff_iff]
  simp only [Bool.and_eq_true, decide_eq_true_eq, Except.ok.injEq]
  constructor
  · rintro ⟨_, h⟩; exact h
  · rintro ⟨rfl, rfl⟩; simp

theorem mem_longAlts (w : Str) : w ∈ longAlts ↔ ∃ a : Probe, w = a.name .long := by
  constructor
  · intro h
    simp only [longAlts, List.mem_cons, List.not_mem_nil, or_false] at h
    rcases h with rfl | rfl | rfl | rfl
    exacts [⟨.photo, rfl⟩, ⟨.spectro, rfl⟩, ⟨.lensing, rfl⟩, ⟨.void, rfl⟩]
  · rintro ⟨a, rfl⟩
    revert a; decide +kernel

theorem mem_shortAlts (w : Str) : w ∈ shortAlts ↔ ∃ a : Probe, w = a.name .short := by
  constructor
  · intro h
    simp only [shortAlts, List.mem_cons, List.not_mem_nil, or_false] at h
    rcases h with rfl | rfl | rfl | rfl
    exacts [⟨.photo, rfl⟩, ⟨.spectro, rfl⟩, ⟨.lensing, rfl⟩, ⟨.void, rfl⟩]
  · rintro ⟨a, rfl⟩
    revert a; decide +kernel

theorem mem_aliasAlts (w : Str) : w ∈ aliasAlts ↔ ∃ a : Probe, w = a.name .alias := by
  constructor
  · intro h
    simp only [aliasAlts, List.mem_cons, List.not_mem_nil, or_false] at h
    rcases h with rfl | rfl | rfl | rfl
    exacts [⟨.lensing, rfl⟩, ⟨.photo, rfl⟩, ⟨.spectro, rfl⟩, ⟨.void, rfl⟩]
  · rintro ⟨a, rfl⟩
    revert a; decide +kernel

theorem matchAlt_some {α : Type} (ws : List Str) (s : Str) (k : Str → Str → Option α) (x : α)
    (h : matchAlt ws s k = some x) : ∃ w ∈ ws, ∃ r, s = w ++ r ∧ k w r = some x := by
  unfold matchAlt at h
  obtain ⟨w, hw, h⟩ := List.exists_of_findSome?_eq_some h
  rw [Option.bind_eq_some_iff] at h
  obtain ⟨r, hr, hk⟩ := h
  exact ⟨w, hw, r, (stripPrefix_eq_some _ _ _).mp hr, hk⟩

theorem matchAlt_none {α : Type} (ws : List Str) (s : Str) (k : Str → Str → Option α)
    (h : matchAlt ws s k = none) (w : Str) (hw : w ∈ ws) (r : Str) (hs : s = w ++ r) :
    k w r = none := by
  unfold matchAlt at h
  rw [List.findSome?_eq_none_iff] at h
  have := h w hw
  rw [hs, stripPrefix_append] at this
  exact this

theorem prefix_table (k : Kind) (a b : Probe) (h : a.name k <+: b.name k) : a = b := by
  revert k a b; decide +kernel

/-- No name of a notation is a proper prefix of another one. -/
theorem prefix_unique (k : Kind) (a b : Probe) (r r' : Str)
    (h : a.name k ++ r = b.name k ++ r') : a = b ∧ r = r' := by
  have hab : a = b := by
    have h1 : a.name k <+: a.name k ++ r := List.prefix_append _ _
    have h2 : b.name k <+: a.name k ++ r := by rw [h]; exact List.prefix_append _ _
    rcases List.prefix_or_prefix_of_prefix h1 h2 with h3 | h3
    · exact prefix_table k a b h3
    · exact (prefix_table k b a h3).symm
  subst hab
  exact ⟨rfl, List.append_cancel_left h⟩

theorem longMatch_some (s : Str) (g : Str × Str) :
    longMatch s = some g ↔ ∃ a b : Probe, ∃ r, s = a.name .long ++ "_".toList ++ b.name .long ++ r ∧
      g = (a.name .long, b.name .long) := by
  have fwd : ∀ g, longMatch s = some g → ∃ a b : Probe, ∃ r,
      s = a.name .long ++ "_".toList ++ b.name .long ++ r ∧ g = (a.name .long, b.name .long) := by
    intro g h
    obtain ⟨w, hw, r, hs, h⟩ := matchAlt_some _ _ _ _ h
    rw [Option.bind_eq_some_iff] at h
    obtain ⟨r1, hr1, h⟩ := h
    rw [stripPrefix_eq_some] at hr1
    obtain ⟨w2, hw2, r2, hs2, h⟩ := matchAlt_some _ _ _ _ h
    obtain ⟨a, rfl⟩ := (mem_longAlts w).mp hw
    obtain ⟨b, rfl⟩ := (mem_longAlts w2).mp hw2
    exact ⟨a, b, r2, by rw [hs, hr1, hs2]; simp only [List.append_assoc], (Option.some.inj h).symm⟩
  refine ⟨fwd g, ?_⟩
  rintro ⟨a, b, r, hs, rfl⟩
  cases hm : longMatch s with
  | some g' =>
    obtain ⟨a', b', r', hs', rfl⟩ := fwd g' hm
    rw [hs] at hs'
    simp only [List.append_assoc] at hs'
    obtain ⟨rfl, h2⟩ := prefix_unique _ _ _ _ _ hs'
    obtain ⟨rfl, _⟩ := prefix_unique _ _ _ _ _ (List.append_cancel_left h2)
    rfl
  | none =>
    have h1 := matchAlt_none _ _ _ hm (a.name .long) ((mem_longAlts _).mpr ⟨a, rfl⟩)
      ("_".toList ++ (b.name .long ++ r)) (by rw [hs]; simp only [List.append_assoc])
    rw [stripPrefix_append, Option.bind_some] at h1
    have h2 := matchAlt_none _ _ _ h1 (b.name .long) ((mem_longAlts _).mpr ⟨b, rfl⟩) r rfl
    exact absurd h2 (by simp)

theorem shortMatch_some (s : Str) (g : Str × Str) :
    shortMatch s = some g ↔ ∃ a b : Probe, ∃ r, s = a.name .short ++ b.name .short ++ r ∧
      g = (a.name .short, b.name .short) := by
  have fwd : ∀ g, shortMatch s = some g → ∃ a b : Probe, ∃ r,
      s = a.name .short ++ b.name .short ++ r ∧ g = (a.name .short, b.name .short) := by
    intro g h
    obtain ⟨w, hw, r, hs, h⟩ := matchAlt_some _ _ _ _ h
    obtain ⟨w2, hw2, r2, hs2, h⟩ := matchAlt_some _ _ _ _ h
    obtain ⟨a, rfl⟩ := (mem_shortAlts w).mp hw
    obtain ⟨b, rfl⟩ := (mem_shortAlts w2).mp hw2
    exact ⟨a, b, r2, by rw [hs, hs2]; simp only [List.append_assoc], (Option.some.inj h).symm⟩
  refine ⟨fwd g, ?_⟩
  rintro ⟨a, b, r, hs, rfl⟩
  cases hm : shortMatch s with
  | some g' =>
    obtain ⟨a', b', r', hs', rfl⟩ := fwd g' hm
    rw [hs] at hs'
    simp only [List.append_assoc] at hs'
    obtain ⟨rfl, h2⟩ := prefix_unique _ _ _ _ _ hs'
    obtain ⟨rfl, _⟩ := prefix_unique _ _ _ _ _ h2
    rfl
  | none =>
    have h1 := matchAlt_none _ _ _ hm (a.name .short) ((mem_shortAlts _).mpr ⟨a, rfl⟩)
      (b.name .short ++ r) (by rw [hs]; simp only [List.append_assoc])
    have h2 := matchAlt_none _ _ _ h1 (b.name .short) ((mem_shortAlts _).mpr ⟨b, rfl⟩) r rfl
    exact absurd h2 (by simp)

theorem aliasMatch_some (s : Str) (g : Str) :
    aliasMatch s = some g ↔ ∃ a : Probe, ∃ r, s = a.name .alias ++ r ∧ g = a.name .alias := by
  have fwd : ∀ g, aliasMatch s = some g → ∃ a : Probe, ∃ r, s = a.name .alias ++ r ∧
      g = a.name .alias := by
    intro g h
    obtain ⟨w, hw, r, hs, h⟩ := matchAlt_some _ _ _ _ h
    obtain ⟨a, rfl⟩ := (mem_aliasAlts w).mp hw
    exact ⟨a, r, hs, (Option.some.inj h).symm⟩
  refine ⟨fwd g, ?_⟩
  rintro ⟨a, r, hs, rfl⟩
  cases hm : aliasMatch s with
  | some g' =>
    obtain ⟨a', r', hs', rfl⟩ := fwd g' hm
    rw [hs] at hs'
    obtain ⟨rfl, _⟩ := prefix_unique _ _ _ _ _ hs'
    rfl
  | none =>
    have h1 := matchAlt_none _ _ _ hm (a.name .alias) ((mem_aliasAlts _).mpr ⟨a, rfl⟩) r hs
    exact absurd h1 (by simp)

theorem head_table : ∀ a b : Probe, (a.name .long).head? ≠ (b.name .short).head? ∧
    a.name .long ≠ [] ∧ b.name .short ≠ [] := by decide +kernel

/-- No string starts both with a long and with a short key. -/
theorem long_not_short (a b : Probe) (r r' : Str)
    (h : a.name .long ++ r = b.name .short ++ r') : False := by
  obtain ⟨h1, h2, h3⟩ := head_table a b
  have := congrArg List.head? h
  rw [List.head?_append_of_ne_nil _ h2, List.head?_append_of_ne_nil _ h3] at this
  exact h1 this

variable {V : Type*}

theorem find_dictSet (d : List ((Kind × Probe × Probe) × V)) (k : Kind) (a b a' b' : Probe) (v : V)
    (k' : Kind) :
    ((dictSet (d.map fun p => (mkKey p.1.1 p.1.2.1 p.1.2.2, p.2)) (mkKey k a b) v).find?
        fun p => found p.1 (mkKey k' a' b')).map (·.2) =
      if a = a' ∧ b = b' then some v
      else ((d.map fun p => (mkKey p.1.1 p.1.2.1 p.1.2.2, p.2)).find?
        fun p => found p.1 (mkKey k' a' b')).map (·.2) := by
  induction d with
  | nil =>
    simp only [List.map_nil, dictSet, List.find?_cons, List.find?_nil, found_mkKey]
    by_cases h : a = a' ∧ b = b' <;> simp [h]
  | cons p d ih =>
    simp only [List.map_cons, dictSet, found_mkKey]
    by_cases h1 : p.1.2.1 = a ∧ p.1.2.2 = b
    · simp only [h1, and_self, decide_true, if_true, List.find?_cons, found_mkKey]
      by_cases h : a = a' ∧ b = b'
      · simp [h]
      · simp [h]
    · simp only [h1, decide_false, Bool.false_eq_true, if_false, List.find?_cons, found_mkKey]
      by_cases h2 : p.1.2.1 = a' ∧ p.1.2.2 = b'
      · have : ¬ (a = a' ∧ b = b') := by
          rintro ⟨rfl, rfl⟩; exact h1 h2
        simp [h2, this]
      · simp only [h2, decide_false]
        exact ih

theorem dictSet_shape (d : List ((Kind × Probe × Probe) × V)) (k : Kind) (a b : Probe) (v : V) :
    ∃ d' : List ((Kind × Probe × Probe) × V),
      dictSet (d.map fun p => (mkKey p.1.1 p.1.2.1 p.1.2.2, p.2)) (mkKey k a b) v =
        d'.map fun p => (mkKey p.1.1 p.1.2.1 p.1.2.2, p.2) := by
  induction d with
  | nil => exact ⟨[((k, a, b), v)], rfl⟩
  | cons p d ih =>
    obtain ⟨d', hd⟩ := ih
    simp only [List.map_cons, dictSet]
    by_cases h : found (mkKey p.1.1 p.1.2.1 p.1.2.2) (mkKey k a b) = true
    · exact ⟨(p.1, v) :: d, by simp [h]⟩
    · exact ⟨p :: d', by simp [h, hd]⟩

/-- Transposing the last two axes twice is the identity. -/
theorem transpose_transpose {K : Type*} (X : Arr3 K) : X.transpose.transpose = X := rfl

theorem reverseCombKey_comb (p q : Str) (hp : '_' ∉ p) (hq : '_' ∉ q) :
    reverseCombKey (combKey p q) = .ok (combKey q p) := by
  have h : splitChar '_' (combKey p q) = [p, q] := by
    unfold combKey
    rw [List.append_assoc]
    change splitChar '_' (p ++ '_' :: q) = _
    rw [splitChar_append _ _ _ hp, splitChar_no_sep _ _ hq]
  unfold reverseCombKey
  rw [h]

theorem aliasToFullname_name (a : Probe) : aliasToFullname (a.name .alias) = .ok (a.name .long) := by
  revert a; decide +kernel

theorem long_no_underscore (a : Probe) : '_' ∉ a.name .long := by
  revert a; decide +kernel

end Seyfert.Keys
