import Verif.Model.DataVector
import Verif.Lemmas.Keys

namespace Seyfert.DataVector
open Seyfert.Keys

theorem mapM_ok {α β ε : Type*} (f : α → Except ε β) (g : α → β) (l : List α)
    (h : ∀ x ∈ l, f x = .ok (g x)) : l.mapM f = .ok (l.map g) := by
  induction l with
  | nil => rfl
  | cons a l ih =>
    rw [List.mapM_cons, h a (by simp), ih (fun x hx => h x (by simp [hx]))]
    rfl

/-- The text of one entry in the name of a data vector. -/
def label (a b : Probe) : Str :=
  if a = b then a.name .alias
  else "XC(".toList ++ a.name .alias ++ ",".toList ++ b.name .alias ++ ")".toList

theorem toFisherStringRepr_mkKey (k : Kind) (a b : Probe) :
    toFisherStringRepr (mkKey k a b) = .ok (label a b) := by
  revert k a b; decide +kernel

theorem fromFisherStringRepr_label (a b : Probe) :
    fromFisherStringRepr (label a b) = .ok (mkKey .alias a b) := by
  revert a b; decide +kernel

theorem label_chars (a b : Probe) :
    ∀ c ∈ label a b, c ≠ '+' ∧ c ≠ '[' ∧ c ≠ ']' ∧ c ≠ ':' := by
  revert a b; decide +kernel

theorem label_ne_nil (a b : Probe) : label a b ≠ [] := by
  revert a b; decide +kernel

abbrev Pair := Kind × Probe × Probe

def keysOf (L : List Pair) : List ClKey := L.map fun p => mkKey p.1 p.2.1 p.2.2
def namesOf (L : List Pair) : List Str := L.map fun p => label p.2.1 p.2.2
def nameOf (L : List Pair) : Str := "[".toList ++ joinStr "+".toList (namesOf L) ++ "]".toList

theorem nameFromEntries_keysOf (L : List Pair) : nameFromEntries (keysOf L) = .ok (nameOf L) := by
  have : (keysOf L).mapM (toFisherStringRepr ·) = .ok (namesOf L) := by
    induction L with
    | nil => rfl
    | cons p L ih =>
      unfold keysOf namesOf at *
      rw [List.map_cons, List.map_cons, List.mapM_cons, ih, toFisherStringRepr_mkKey]
      rfl
  unfold nameFromEntries
  rw [this]
  rfl

theorem auto_step (k : Kind) (a b : Probe) (acc : List Str) :
    (match isAuto (mkKey k a b) with
    | .error e => .error e
    | .ok false => .ok acc
    | .ok true =>
      match toRawKey (mkKey k a b) .alias with
      | .ok (.tup [p1, _]) => .ok (if p1 ∈ acc then acc else acc ++ [p1])
      | .ok _ => .error .valueError
      | .error e => .error e : Except Err (List Str)) =
    .ok (if a = b then (if a.name .alias ∈ acc then acc else acc ++ [a.name .alias]) else acc) := by
  have h1 : isAuto (mkKey k a b) = .ok (decide (a = b)) := by revert k a b; decide +kernel
  have h2 : toRawKey (mkKey k a b) .alias = .ok (.tup [a.name .alias, b.name .alias]) := by
    unfold toRawKey
    rw [transformTo_mkKey]
    rfl
  rw [h1, h2]
  by_cases h : a = b <;> simp [h]

/-- Involved probes, in order of first occurrence. -/
def involvedOf (L : List Pair) : List Str :=
  L.foldl (fun acc p => if p.2.1 = p.2.2 then
    (if p.2.1.name .alias ∈ acc then acc else acc ++ [p.2.1.name .alias]) else acc) []

theorem involvedProbes_keysOf (L : List Pair) : involvedProbes (keysOf L) = .ok (involvedOf L) := by
  have : ∀ acc, (keysOf L).foldlM (init := acc) (fun acc k =>
      match isAuto k with
      | .error e => .error e
      | .ok false => .ok acc
      | .ok true =>
        match toRawKey k .alias with
        | .ok (.tup [p1, _]) => .ok (if p1 ∈ acc then acc else acc ++ [p1])
        | .ok _ => .error .valueError
        | .error e => .error e : List Str → ClKey → Except Err (List Str)) =
      .ok (L.foldl (fun acc p => if p.2.1 = p.2.2 then
        (if p.2.1.name .alias ∈ acc then acc else acc ++ [p.2.1.name .alias]) else acc) acc) := by
    induction L with
    | nil => intro acc; rfl
    | cons p L ih =>
      intro acc
      unfold keysOf at *
      rw [List.map_cons, List.foldlM_cons, auto_step]
      exact ih _
  exact this []

def dvOf (L : List Pair) : DV := ⟨keysOf L, nameOf L, involvedOf L⟩

theorem ofKeys_keysOf (L : List Pair) : ofKeys (keysOf L) = .ok (dvOf L) := by
  unfold ofKeys
  rw [nameFromEntries_keysOf, involvedProbes_keysOf]
  rfl

def rawsOf (L : List Pair) : List Raw := L.map fun p => written p.1 p.2.1 p.2.2

theorem ctorDV_rawsOf (L : List Pair) : ctorDV (rawsOf L) = .ok (dvOf L) := by
  have : (rawsOf L).mapM ctor = .ok (keysOf L) := by
    induction L with
    | nil => rfl
    | cons p L ih =>
      unfold rawsOf keysOf at *
      rw [List.map_cons, List.map_cons, List.mapM_cons, ih, ctor_written]
      rfl
  unfold ctorDV
  rw [this]
  exact ofKeys_keysOf L

/-- The same list in another notation. -/
def inKind (k : Kind) (L : List Pair) : List Pair := L.map fun p => (k, p.2)

theorem toRaws (L : List Pair) (k : Kind) :
    (keysOf L).mapM (toRawKey · k) = .ok (rawsOf (inKind k L)) := by
  induction L with
  | nil => rfl
  | cons p L ih =>
    unfold rawsOf keysOf inKind at *
    rw [List.map_cons, List.map_cons, List.map_cons, List.mapM_cons, ih]
    unfold toRawKey
    rw [transformTo_mkKey]
    change Except.ok _ = _
    rw [mkKey_raw]

theorem toKeysVector_dvOf (L : List Pair) (k : Kind) :
    toKeysVector (dvOf L) k = .ok (dvOf (inKind k L)) := by
  unfold toKeysVector dvOf
  simp only
  rw [toRaws]
  exact ctorDV_rawsOf _

theorem namesOf_inKind (k : Kind) (L : List Pair) : namesOf (inKind k L) = namesOf L := by
  simp [namesOf, inKind]

theorem nameOf_chars (L : List Pair) : ':' ∉ nameOf L := by
  intro h
  unfold nameOf at h
  rcases List.mem_append.mp h with h | h
  · rcases List.mem_append.mp h with h | h
    · revert h; decide +kernel
    · rcases mem_joinStr _ _ _ h with h | ⟨p, hp, h⟩
      · revert h; decide +kernel
      · simp only [namesOf, List.mem_map] at hp
        obtain ⟨q, _, rfl⟩ := hp
        exact (label_chars _ _ _ h).2.2.2 rfl
  · revert h; decide +kernel

/-! brief strings -/

def shortText (p : Pair) : Str := p.2.1.name .short ++ p.2.2.name .short

theorem tupleRawOfStr_short (p : Pair) :
    tupleRawOfStr (shortText p) = .ok (written .alias p.2.1 p.2.2) := by
  have h : ctor (.str (shortText p)) = .ok (mkKey .short p.2.1 p.2.2) :=
    ctor_written .short p.2.1 p.2.2
  unfold tupleRawOfStr
  rw [h]
  simp only [toRawKey]
  rw [transformTo_mkKey]
  rfl

theorem tupleRaws (L : List Pair) :
    (L.map shortText).mapM tupleRawOfStr = .ok (rawsOf (inKind .alias L)) := by
  induction L with
  | nil => rfl
  | cons p L ih =>
    unfold rawsOf inKind at *
    rw [List.map_cons, List.map_cons, List.map_cons, List.mapM_cons, ih, tupleRawOfStr_short]
    rfl

theorem toBrief (L : List Pair) :
    toBriefString (dvOf L) = .ok (joinStr "_".toList (L.map shortText)) := by
  have : ((keysOf (inKind .short L)).mapM fun k => strOfRaw k.raw) = .ok (L.map shortText) := by
    induction L with
    | nil => rfl
    | cons p L ih =>
      unfold keysOf inKind at *
      rw [List.map_cons, List.map_cons, List.map_cons, List.mapM_cons, ih]
      rfl
  unfold toBriefString
  rw [toKeysVector_dvOf]
  simp only [dvOf]
  rw [this]

theorem short_chars (p : Pair) : '_' ∉ shortText p := by
  obtain ⟨k, a, b⟩ := p
  revert k a b; decide +kernel

/-! full strings -/

theorem findall4_skip (c : Char) (r : Str) (h : isLower c = false) :
    findall4 (c :: r) = findall4 r := by
  match r with
  | [] => simp [findall4]
  | [_] => simp [findall4]
  | [_, _] => simp [findall4]
  | b :: c' :: d :: rest =>
    conv_lhs => rw [findall4]
    simp [h]

theorem findall4_word (s r : Str) (h : ∃ a b c d, s = [a, b, c, d] ∧ isLower a ∧ isLower b ∧ isLower c ∧ isLower d) :
    findall4 (s ++ r) = s :: findall4 r := by
  obtain ⟨a, b, c, d, rfl, h1, h2, h3, h4⟩ := h
  simp only [List.cons_append, List.nil_append]
  rw [findall4]
  simp [h1, h2, h3, h4]

theorem short_word (p : Pair) : ∃ a b c d, shortText p = [a, b, c, d] ∧ isLower a ∧ isLower b ∧
    isLower c ∧ isLower d := by
  obtain ⟨k, a, b⟩ := p
  cases a <;> cases b <;> exact ⟨_, _, _, _, rfl, by decide, by decide, by decide, by decide⟩

theorem findall4_quoted (p : Pair) (r : Str) :
    findall4 ("'".toList ++ shortText p ++ "'".toList ++ r) = shortText p :: findall4 r := by
  have e : "'".toList ++ shortText p ++ "'".toList ++ r = '\'' :: (shortText p ++ ('\'' :: r)) := by
    simp
  rw [e, findall4_skip _ _ (by decide), findall4_word _ _ (short_word p),
    findall4_skip _ _ (by decide)]

theorem findall4_list (L : List Pair) :
    findall4 (joinStr ", ".toList (L.map fun p => "'".toList ++ shortText p ++ "'".toList) ++ "]".toList) =
      L.map shortText := by
  induction L with
  | nil => decide +kernel
  | cons p L ih =>
    cases L with
    | nil =>
      change findall4 ("'".toList ++ shortText p ++ "'".toList ++ "]".toList) = _
      rw [findall4_quoted]
      have : findall4 "]".toList = [] := by decide +kernel
      rw [this]
      rfl
    | cons q L =>
      rw [List.map_cons, List.map_cons, joinStr_cons_cons, List.append_assoc, List.append_assoc,
        findall4_quoted]
      have e : ", ".toList ++ (joinStr ", ".toList (("'".toList ++ shortText q ++ "'".toList) ::
          L.map fun p => "'".toList ++ shortText p ++ "'".toList) ++ "]".toList) =
          ',' :: ' ' :: (joinStr ", ".toList (("'".toList ++ shortText q ++ "'".toList) ::
          L.map fun p => "'".toList ++ shortText p ++ "'".toList) ++ "]".toList) := by
        rfl
      rw [e, findall4_skip _ _ (by decide), findall4_skip _ _ (by decide)]
      rw [List.map_cons] at ih
      rw [ih]
      rfl

theorem toStr (L : List Pair) :
    dvToString (dvOf L) = .ok (nameOf L ++ ": ".toList ++ "[".toList ++
      joinStr ", ".toList (L.map fun p => "'".toList ++ shortText p ++ "'".toList) ++ "]".toList) := by
  unfold dvToString
  rw [toKeysVector_dvOf]
  simp only [reprDV, dvOf, nameOf, namesOf_inKind]
  congr 4
  simp [keysOf, inKind, mkKey, reprRaw, written, shortText]

theorem short_no_colon (p : Pair) : ':' ∉ shortText p := by
  obtain ⟨k, a, b⟩ := p
  revert k a b; decide +kernel

end Seyfert.DataVector
