import Verif.Lemmas.Keys

/-!
Properties C04, C05, C06, C56: correlation keys and dictionaries indexed by them
(`seyfert/utils/shortcuts.py`, `seyfert/base_structs/cl_dict.py`).

`written k a b` is the text of the probe pair `(a, b)` in notation `k` (specification).
-/

namespace Seyfert.Keys

/-! ### C04 -/

/-- C04: a well written key is accepted, its notation is recognised, and its parts are the names of the
two probes in order. The text determines notation and probes. -/
theorem key_recognised (k : Kind) (a b : Probe) :
    ∃ key, ctor (written k a b) = .ok key ∧ key.kind = k ∧ key.raw = written k a b ∧
      toParts key = .ok (a.name k, b.name k) ∧
      ∀ k' a' b', written k' a' b' = written k a b → k' = k ∧ a' = a ∧ b' = b :=
  ⟨mkKey k a b, ctor_written k a b, mkKey_kind k a b, mkKey_raw k a b, toParts_mkKey k a b,
    fun _ _ _ h => written_inj _ _ _ _ _ _ h⟩

/-- C04: converting to another notation gives the key of the same probes in the same order, and
converting back gives the original key. -/
theorem key_conversion (k k' : Kind) (a b : Probe) :
    ∃ key key', ctor (written k a b) = .ok key ∧ ctor (written k' a b) = .ok key' ∧
      transformTo key (some k') = .ok key' ∧ transformTo key' (some k) = .ok key :=
  ⟨_, _, ctor_written k a b, ctor_written k' a b, transformTo_mkKey k k' a b,
    transformTo_mkKey k' k a b⟩

/-- C04: reversing swaps the probes, reversing twice is the identity, and reversing commutes with
conversion. -/
theorem key_reverse (k k' : Kind) (a b : Probe) :
    ∃ key rev key' rev', ctor (written k a b) = .ok key ∧ ctor (written k b a) = .ok rev ∧
      getReverseKey key = .ok rev ∧ getReverseKey rev = .ok key ∧
      transformTo key (some k') = .ok key' ∧ getReverseKey key' = .ok rev' ∧
      transformTo rev (some k') = .ok rev' :=
  ⟨_, _, _, _, ctor_written k a b, ctor_written k b a, reverse_mkKey k a b, reverse_mkKey k b a,
    transformTo_mkKey k k' a b, reverse_mkKey k' a b, transformTo_mkKey k k' b a⟩

/-- C04: a key is an auto-correlation exactly when both probes are the same; an unknown notation is
refused. -/
theorem key_auto_and_invalid_kind (k : Kind) (a b : Probe) :
    ∃ key, ctor (written k a b) = .ok key ∧ isAuto key = .ok (decide (a = b)) ∧
      transformTo key none = .error .invalidKey := by
  refine ⟨_, ctor_written k a b, ?_, by simp [transformTo]⟩
  unfold isAuto
  rw [toParts_mkKey]
  simp only [Except.ok.injEq, decide_eq_decide]
  exact ⟨fun h => (name_inj _ _ _ _ h).2, fun h => by rw [h]⟩

/-- C04, what is accepted: a string is accepted exactly when it *starts with* a well written long or
short key, a tuple exactly when it has two members each *starting with* an alias.
The full claim is that only well written keys are accepted; it is false, see
`key_rejection_false`. -/
theorem key_accepted_partial (raw : Raw) :
    (∃ key, ctor raw = .ok key) ↔
      (∃ k a b s r, written k a b = .str s ∧ raw = .str (s ++ r)) ∨
      (∃ a b : Probe, ∃ r r', raw = .tup [a.name .alias ++ r, b.name .alias ++ r']) := by
  constructor
  · rintro ⟨key, h⟩
    match raw with
    | .str s =>
      left
      unfold ctor at h
      cases hl : longMatch s with
      | some g =>
        obtain ⟨a, b, r, hs, _⟩ := (longMatch_some s g).mp hl
        exact ⟨.long, a, b, _, r, rfl, by rw [hs]⟩
      | none =>
        simp only [hl] at h
        cases hsh : shortMatch s with
        | some g =>
          obtain ⟨a, b, r, hs, _⟩ := (shortMatch_some s g).mp hsh
          exact ⟨.short, a, b, _, r, rfl, by rw [hs]⟩
        | none => simp [hsh] at h
    | .tup [p1, p2] =>
      right
      unfold ctor at h
      cases h1 : aliasMatch p1 with
      | none => simp [h1] at h
      | some g1 =>
        cases h2 : aliasMatch p2 with
        | none => simp [h1, h2] at h
        | some g2 =>
          obtain ⟨a, r, hs, _⟩ := (aliasMatch_some _ _).mp h1
          obtain ⟨b, r', hs', _⟩ := (aliasMatch_some _ _).mp h2
          exact ⟨a, b, r, r', by rw [hs, hs']⟩
    | .tup [] => simp [ctor] at h
    | .tup [_] => simp [ctor] at h
    | .tup (_ :: _ :: _ :: _) => simp [ctor] at h
    | .other => simp [ctor] at h
  · rintro (⟨k, a, b, s, r, hw, rfl⟩ | ⟨a, b, r, r', rfl⟩)
    · cases k with
      | long =>
        obtain rfl : _ = s := Raw.str.inj hw
        have := (longMatch_some _ _).mpr ⟨a, b, r, rfl, rfl⟩
        exact ⟨_, by unfold ctor; simp only [this]; rfl⟩
      | short =>
        obtain rfl : _ = s := Raw.str.inj hw
        have hm := (shortMatch_some _ _).mpr ⟨a, b, r, rfl, rfl⟩
        cases hl : longMatch (a.name .short ++ b.name .short ++ r) with
        | some g => exact ⟨_, by unfold ctor; simp only [hl]; rfl⟩
        | none => exact ⟨_, by unfold ctor; simp only [hl, hm]; rfl⟩
      | «alias» => simp [written] at hw
    · have h1 := (aliasMatch_some _ _).mpr ⟨a, r, rfl, rfl⟩
      have h2 := (aliasMatch_some _ _).mpr ⟨b, r', rfl, rfl⟩
      exact ⟨_, by unfold ctor; simp only [h1, h2]; simp; rfl⟩

/-- C04 is false for malformed text: a string that is no well written key is accepted. -/
theorem key_rejection_false :
    ∃ raw key, ctor raw = .ok key ∧ ∀ k a b, raw ≠ written k a b :=
  ⟨.str "phphjunk".toList, ⟨.str "phphjunk".toList, .short, some ("ph".toList, "ph".toList)⟩,
    by decide +kernel, by decide +kernel⟩

/-- C04, members of a probe pair are probes: `ProbeName` accepts exactly the twelve names and converts
between them. -/
theorem probe_name_conversion (k k' : Kind) (a : Probe) :
    probeCtor (a.name k) = .ok ⟨a.name k, k⟩ ∧
      probeTransformTo ⟨a.name k, k⟩ (some k') = .ok ⟨a.name k', k'⟩ := by
  revert k k' a; decide +kernel

theorem probe_name_accepted (s : Str) :
    (∃ p, probeCtor s = .ok p) ↔ ∃ (k : Kind) (a : Probe), s = a.name k := by
  constructor
  · rintro ⟨p, h⟩
    unfold probeCtor at h
    have tbl : ∀ x, (x ∈ longNames ∨ x ∈ shortNames ∨ x ∈ aliasNames) →
        ∃ (k : Kind) (a : Probe), x = a.name k := by
      intro x hx
      simp only [longNames, shortNames, aliasNames, List.mem_cons, List.not_mem_nil, or_false] at hx
      rcases hx with (rfl | rfl | rfl | rfl) | (rfl | rfl | rfl | rfl) | (rfl | rfl | rfl | rfl)
      exacts [⟨.long, .photo, rfl⟩, ⟨.long, .spectro, rfl⟩, ⟨.long, .lensing, rfl⟩,
        ⟨.long, .void, rfl⟩, ⟨.short, .photo, rfl⟩, ⟨.short, .spectro, rfl⟩,
        ⟨.short, .lensing, rfl⟩, ⟨.short, .void, rfl⟩, ⟨.alias, .photo, rfl⟩,
        ⟨.alias, .spectro, rfl⟩, ⟨.alias, .lensing, rfl⟩, ⟨.alias, .void, rfl⟩]
    by_cases h1 : s ∈ longNames
    · exact tbl s (.inl h1)
    · by_cases h2 : s ∈ shortNames
      · exact tbl s (.inr (.inl h2))
      · by_cases h3 : s ∈ aliasNames
        · exact tbl s (.inr (.inr h3))
        · simp [h1, h2, h3] at h
  · rintro ⟨k, a, rfl⟩
    exact ⟨_, (probe_name_conversion k k a).1⟩

/-- C04: two probe names are equal exactly when they name the same probe, whatever the notations. -/
theorem probe_name_equality (k k' : Kind) (a a' : Probe) :
    probeEquiv ⟨a.name k, k⟩ ⟨a'.name k', k'⟩ = .ok (decide (a = a')) := by
  revert k k' a a'; decide +kernel

/-- C04: building a key from two names in a given notation either fails or gives a key in that notation made of
exactly these names; it succeeds for the names of probes in that notation. -/
theorem key_from_parts (kd : Kind) (p1 p2 : Str) :
    (∀ key, fromParts p1 p2 (some kd) = .ok key → key.kind = kd ∧
      key.raw = match kd with
        | .long => .str (p1 ++ '_' :: p2)
        | .short => .str (p1 ++ p2)
        | .alias => .tup [p1, p2]) ∧
    (∀ a b : Probe, fromParts (a.name kd) (b.name kd) (some kd) = ctor (written kd a b)) ∧
    fromParts p1 p2 none = .error .invalidKey := by
  have hraw : ∀ raw k, ctor raw = .ok k → k.raw = raw := by
    intro raw k h
    unfold ctor at h
    repeat' split at h
    all_goals first | (cases h; rfl) | cases h
  refine ⟨?_, by revert kd; decide +kernel, rfl⟩
  intro key h
  unfold fromParts at h
  cases kd <;> dsimp only at h <;> split at h <;> try cases h
  all_goals
    rename_i k' hk
    split at h
    · cases h
    · cases h
      refine ⟨Classical.not_not.mp ‹¬ _›, ?_⟩
      rw [hraw _ _ hk]
      try rw [List.append_assoc]; rfl

/-- Names that read together as a key in another notation are refused. -/
example : fromParts "phwl".toList "x".toList (some .long) = .error .valueError := by decide +kernel

example : ctor (.str "Lensing_Void".toList) =
    .ok ⟨.str "Lensing_Void".toList, .long, some ("Lensing".toList, "Void".toList)⟩ := by decide +kernel

/-! ### C05 -/

/-- C05, comparison of well written keys: two keys are equal exactly when they denote the same probes in
the same order, whatever the notation; comparison with something that is not a key is false; equal keys
have equal hash input. The full claim is about every accepted key; see `key_equality_false`. -/
theorem key_equality_partial (k k' : Kind) (a b a' b' : Probe) :
    ∃ x y, ctor (written k a b) = .ok x ∧ ctor (written k' a' b') = .ok y ∧
      keyEq x (some y) = .ok (decide (a = a' ∧ b = b')) ∧
      keyEq x none = .ok false ∧
      (keyEq x (some y) = .ok true ↔ hashed x = hashed y) := by
  refine ⟨_, _, ctor_written k a b, ctor_written k' a' b', keyEq_mkKey _ _ _ _ _ _, rfl, ?_⟩
  rw [keyEq_mkKey, hashed_mkKey, hashed_mkKey]
  simp only [Except.ok.injEq, decide_eq_true_eq]
  exact ⟨fun ⟨h1, h2⟩ => by rw [h1, h2], fun h => (written_inj _ _ _ _ _ _ h).2⟩

/-- The relation "compares equal" on accepted keys. -/
def KeyRel (x y : ClKey) : Prop := keyEq x (some y) = .ok true

/-- A well written key object. -/
def Good (x : ClKey) : Prop := ∃ k a b, ctor (written k a b) = .ok x

/-- C05 on well written keys: an equivalence relation. -/
theorem key_equivalence_partial :
    (∀ x, Good x → KeyRel x x) ∧
    (∀ x y, Good x → Good y → KeyRel x y → KeyRel y x) ∧
    (∀ x y z, Good x → Good y → Good z → KeyRel x y → KeyRel y z → KeyRel x z) := by
  have key : ∀ x, Good x → ∃ k a b, x = mkKey k a b := by
    rintro x ⟨k, a, b, h⟩
    rw [ctor_written] at h
    exact ⟨k, a, b, (Except.ok.inj h).symm⟩
  have rel : ∀ k a b k' a' b', KeyRel (mkKey k a b) (mkKey k' a' b') ↔ a = a' ∧ b = b' := by
    intro k a b k' a' b'
    unfold KeyRel
    rw [keyEq_mkKey]
    simp
  refine ⟨?_, ?_, ?_⟩
  · intro x hx
    obtain ⟨k, a, b, rfl⟩ := key x hx
    exact (rel _ _ _ _ _ _).mpr ⟨rfl, rfl⟩
  · intro x y hx hy h
    obtain ⟨k, a, b, rfl⟩ := key x hx
    obtain ⟨k', a', b', rfl⟩ := key y hy
    obtain ⟨rfl, rfl⟩ := (rel _ _ _ _ _ _).mp h
    exact (rel _ _ _ _ _ _).mpr ⟨rfl, rfl⟩
  · intro x y z hx hy hz h1 h2
    obtain ⟨k, a, b, rfl⟩ := key x hx
    obtain ⟨k', a', b', rfl⟩ := key y hy
    obtain ⟨k'', a'', b'', rfl⟩ := key z hz
    obtain ⟨rfl, rfl⟩ := (rel _ _ _ _ _ _).mp h1
    obtain ⟨rfl, rfl⟩ := (rel _ _ _ _ _ _).mp h2
    exact (rel _ _ _ _ _ _).mpr ⟨rfl, rfl⟩

/-- C05 is false for all accepted keys: equality is not symmetric, and two keys that compare equal have
different hashes. The witness is the accepted key `"phphjunk"`. -/
theorem key_equality_false :
    ∃ x y, ctor (.str "phphjunk".toList) = .ok x ∧ ctor (written .alias .photo .photo) = .ok y ∧
      KeyRel x y ∧ ¬ KeyRel y x ∧ hashed x ≠ hashed y := by
  refine ⟨⟨.str "phphjunk".toList, .short, some ("ph".toList, "ph".toList)⟩,
    ⟨written .alias .photo .photo, .alias, none⟩, by decide +kernel, by decide +kernel, ?_, ?_, ?_⟩
  · unfold KeyRel; decide +kernel
  · unfold KeyRel; decide +kernel
  · decide +kernel

example : Good ⟨.str "wlph".toList, .short, some ("wl".toList, "ph".toList)⟩ :=
  ⟨.short, .lensing, .photo, by decide +kernel⟩

/-! ### C06 -/

variable {V : Type*}

/-- Specification: the value stored for `(a, b)`: the last one given in the source dictionary, whatever
its notation. -/
def storedFor (items : List ((Kind × Probe × Probe) × V)) (a b : Probe) : Option V :=
  (items.reverse.find? fun p => decide (p.1.2.1 = a ∧ p.1.2.2 = b)).map (·.2)

theorem smartCtor_spec (items : List ((Kind × Probe × Probe) × V)) :
    ∃ d : List ((Kind × Probe × Probe) × V),
      smartCtor (items.map fun p => (written p.1.1 p.1.2.1 p.1.2.2, p.2)) =
        .ok (d.map fun p => (mkKey p.1.1 p.1.2.1 p.1.2.2, p.2)) ∧
      ∀ k a b, ((d.map fun p => (mkKey p.1.1 p.1.2.1 p.1.2.2, p.2)).find?
        fun p => found p.1 (mkKey k a b)).map (·.2) = storedFor items a b := by
  induction items using List.reverseRecOn with
  | nil => exact ⟨[], rfl, fun _ _ _ => rfl⟩
  | append_singleton items p ih =>
    obtain ⟨d, hd, hf⟩ := ih
    obtain ⟨d', hd'⟩ := dictSet_shape d p.1.1 p.1.2.1 p.1.2.2 p.2
    refine ⟨d', ?_, ?_⟩
    · unfold smartCtor at hd ⊢
      rw [List.map_append, List.foldlM_append, hd]
      simp only [List.map_cons, List.map_nil, List.foldlM_cons, List.foldlM_nil]
      rw [ctor_written]
      simp only [hashed_mkKey]
      change Except.ok _ = _
      rw [← hd']
    · intro k a b
      rw [← hd', find_dictSet, hf]
      unfold storedFor
      rw [List.reverse_append]
      simp only [List.reverse_cons, List.reverse_nil, List.nil_append, List.singleton_append,
        List.find?_cons]
      by_cases h : p.1.2.1 = a ∧ p.1.2.2 = b <;> simp [h]

/-- C06 for `SmartKeyDict`/`ClSmartKeyDict` built from a dictionary with well written keys in any
notations: the answer for `(a, b)`, in whatever notation it is asked, is the stored value; if only
`(b, a)` is stored, its transform; and `KeyError` if neither is. -/
theorem smart_lookup (tr : V → V) (items : List ((Kind × Probe × Probe) × V)) :
    ∃ d, smartCtor (items.map fun p => (written p.1.1 p.1.2.1 p.1.2.2, p.2)) = .ok d ∧
      ∀ k a b, smartGet tr d (written k a b) =
        match storedFor items a b with
        | some v => .ok v
        | none => match storedFor items b a with
          | some v => .ok (tr v)
          | none => .error .keyError := by
  obtain ⟨d, hd, hf⟩ := smartCtor_spec items
  refine ⟨_, hd, ?_⟩
  intro k a b
  unfold smartGet dictGetKey
  rw [ctor_written]
  simp only [hashed_mkKey, reverse_mkKey]
  have h1 := hf k a b
  have h2 := hf k b a
  cases h : storedFor items a b with
  | some v =>
    rw [h] at h1
    obtain ⟨q, hq, hv⟩ := Option.map_eq_some_iff.mp h1
    simp only [hq, hv]
  | none =>
    rw [h, Option.map_eq_none_iff] at h1
    simp only [h1]
    cases h' : storedFor items b a with
    | some v =>
      rw [h'] at h2
      obtain ⟨q, hq, hv⟩ := Option.map_eq_some_iff.mp h2
      simp only [hq, hv]
    | none =>
      rw [h', Option.map_eq_none_iff] at h2
      simp only [h2]

/-- C06, spectra containers: when at most one orientation of two different probes is stored, looking up
the reversed key gives the transposed answer (and the same error). -/
theorem smart_lookup_reversed {K : Type*} (items : List ((Kind × Probe × Probe) × Arr3 K)) (a b : Probe)
    (hone : storedFor items a b = none ∨ storedFor items b a = none) :
    ∃ d, smartCtor (items.map fun p => (written p.1.1 p.1.2.1 p.1.2.2, p.2)) = .ok d ∧
      ∀ k k', smartGet Arr3.transpose d (written k b a) =
        (smartGet Arr3.transpose d (written k' a b)).map Arr3.transpose := by
  obtain ⟨d, hd, h⟩ := smart_lookup Arr3.transpose items
  refine ⟨d, hd, fun k k' => ?_⟩
  rw [h, h]
  cases h1 : storedFor items a b <;> cases h2 : storedFor items b a <;>
    simp [Except.map, transpose_transpose] <;> simp [h1, h2] at hone

/-- C06, multipole containers: both orientations give the same array. -/
theorem smart_lookup_ells (items : List ((Kind × Probe × Probe) × V)) (a b : Probe)
    (hone : storedFor items a b = none ∨ storedFor items b a = none) :
    ∃ d, smartCtor (items.map fun p => (written p.1.1 p.1.2.1 p.1.2.2, p.2)) = .ok d ∧
      ∀ k k', smartGet id d (written k b a) = smartGet id d (written k' a b) := by
  obtain ⟨d, hd, h⟩ := smart_lookup id items
  refine ⟨d, hd, fun k k' => ?_⟩
  rw [h, h]
  cases h1 : storedFor items a b <;> cases h2 : storedFor items b a <;>
    simp <;> simp [h1, h2] at hone

/-- C06 for `TupleSmartDict`/`ClSmartDict`, for arbitrary string pairs. -/
theorem tuple_lookup (tr : V → V) (d : Dict (Str × Str) V) (p q : Str) :
    tupleGet tr d (p, q) =
      match d.lookup (p, q), d.lookup (q, p) with
      | some v, _ => .ok v
      | none, some v => .ok (tr v)
      | none, none => .error .keyError := by
  unfold tupleGet
  cases d.lookup (p, q) <;> cases d.lookup (q, p) <;> rfl

theorem tuple_lookup_reversed {K : Type*} (d : Dict (Str × Str) (Arr3 K)) (p q : Str)
    (hone : d.lookup (p, q) = none ∨ d.lookup (q, p) = none) :
    tupleGet Arr3.transpose d (q, p) = (tupleGet Arr3.transpose d (p, q)).map Arr3.transpose := by
  rw [tuple_lookup, tuple_lookup]
  cases h1 : d.lookup (p, q) <;> cases h2 : d.lookup (q, p) <;>
    simp [Except.map, transpose_transpose] <;> simp [h1, h2] at hone

/-- C06 for `FlexDict`/`ClDict` with string keys: for any two probe names without underscore. -/
theorem flex_lookup (tr : V → V) (d : Dict Str V) (p q : Str) (hp : '_' ∉ p) (hq : '_' ∉ q) :
    flexGet tr d (.str (combKey p q)) =
      match d.lookup (combKey p q), d.lookup (combKey q p) with
      | some v, _ => .ok v
      | none, some v => .ok (tr v)
      | none, none => .error .keyError := by
  unfold flexGet
  simp only [reverseCombKey_comb p q hp hq]
  cases d.lookup (combKey p q) <;> cases d.lookup (combKey q p) <;> rfl

/-- C06 for `FlexDict`/`ClDict`: asking with a tuple of aliases is asking with the string of long
names. -/
theorem flex_lookup_notation (tr : V → V) (d : Dict Str V) (a b : Probe) :
    flexGet tr d (written .alias a b) = flexGet tr d (written .long a b) := by
  have h := flex_lookup tr d _ _ (long_no_underscore a) (long_no_underscore b)
  have e : written .long a b = .str (combKey (a.name .long) (b.name .long)) := rfl
  rw [e, h]
  unfold flexGet written
  simp only [aliasToFullname_name]
  cases d.lookup (combKey (a.name .long) (b.name .long)) <;>
    cases d.lookup (combKey (b.name .long) (a.name .long)) <;> rfl

example : storedFor [((Kind.long, Probe.lensing, Probe.photo), 7), ((Kind.short, Probe.lensing, Probe.photo), 8)]
    .lensing .photo = some 8 := by decide
example : storedFor [((Kind.long, Probe.lensing, Probe.photo), 7)] .photo .lensing = none := by decide

/-! ### C56 -/

/-- C56, the full claim: translating a pair of aliases to a string key of the container gives the key
under which the container holds the pair. -/
def StoredKeyClaim (V : Type) : Prop :=
  ∀ (d : Dict Str V) (a b : Probe) (s : Str),
    ((d.lookup (combKey (a.name .long) (b.name .long))).isSome ∨
      (d.lookup (combKey (b.name .long) (a.name .long))).isSome) →
    tupleKeyToStrKey id d (a.name .alias) (b.name .alias) = .ok s → (d.lookup s).isSome

/-- C56 is false: when only the reversed pair is stored the returned key is not in the container,
because the membership test already accepts reversed keys. -/
theorem stored_key_false : ¬ StoredKeyClaim Nat := by
  intro h
  have := h [("Lensing_Void".toList, 1)] .void .lensing "Void_Lensing".toList
    (by decide +kernel) (by decide +kernel)
  revert this
  decide +kernel

/-- C56, the part that holds: when the pair is stored in the asked orientation the returned key is its
key; when it is stored in neither, the reversed key is returned. Missing: the case of a pair stored only
in the reversed orientation. -/
theorem stored_key_partial (tr : V → V) (d : Dict Str V) (a b : Probe) :
    ((d.lookup (combKey (a.name .long) (b.name .long))).isSome →
      tupleKeyToStrKey tr d (a.name .alias) (b.name .alias) =
        .ok (combKey (a.name .long) (b.name .long))) ∧
    (d.lookup (combKey (a.name .long) (b.name .long)) = none →
      d.lookup (combKey (b.name .long) (a.name .long)) = none →
      tupleKeyToStrKey tr d (a.name .alias) (b.name .alias) =
        .ok (combKey (b.name .long) (a.name .long))) := by
  have h := flex_lookup tr d _ _ (long_no_underscore a) (long_no_underscore b)
  have hr := reverseCombKey_comb _ _ (long_no_underscore a) (long_no_underscore b)
  constructor
  · intro h1
    obtain ⟨v, hv⟩ := Option.isSome_iff_exists.mp h1
    unfold tupleKeyToStrKey flexContains
    simp only [aliasToFullname_name, h, hv]
  · intro h1 h2
    unfold tupleKeyToStrKey flexContains
    simp only [aliasToFullname_name, h, h1, h2, hr]

example : tupleKeyToStrKey id [("Lensing_Void".toList, 1)] "WL".toList "V".toList =
    .ok "Lensing_Void".toList := by decide +kernel

end Seyfert.Keys
