import Verif.Model.Keys

/-! Model of `seyfert/fisher/datavector.py`. -/

namespace Seyfert.DataVector
open Seyfert.Keys

/-- State of a `ClDataVector` (datavector.py lines 14-29). `involved` is the set of aliases of the
involved auto-correlation probes, listed without repetition. -/
structure DV where
  entries : List ClKey
  name : Str
  involved : List Str
  deriving DecidableEq, Repr

/-- `getNameFromEntries` (datavector.py lines 95-96). -/
def nameFromEntries (entries : List ClKey) : Except Err Str :=
  match entries.mapM (toFisherStringRepr ·) with
  | .error e => .error e
  | .ok l => .ok ("[".toList ++ joinStr "+".toList l ++ "]".toList)

/-- `getInvolvedAutoCorrelationProbes` (datavector.py lines 98-105). -/
def involvedProbes (entries : List ClKey) : Except Err (List Str) :=
  entries.foldlM (init := []) fun acc k =>
    match isAuto k with
    | .error e => .error e
    | .ok false => .ok acc
    | .ok true =>
      match toRawKey k .alias with
      | .ok (.tup [p1, _]) => .ok (if p1 ∈ acc then acc else acc ++ [p1])
      | .ok _ => .error .valueError
      | .error e => .error e

/-- The part of the constructor after the entries are built (datavector.py lines 28-29). -/
def ofKeys (entries : List ClKey) : Except Err DV :=
  match nameFromEntries entries with
  | .error e => .error e
  | .ok name =>
    match involvedProbes entries with
    | .error e => .error e
    | .ok inv => .ok ⟨entries, name, inv⟩

/-- `ClDataVector(input_data)` for a list of raw keys (datavector.py lines 18-29). -/
def ctorDV (input : List Raw) : Except Err DV :=
  match input.mapM ctor with
  | .error e => .error e
  | .ok entries => ofKeys entries

/-- `fromName` (datavector.py lines 58-63). `ClKey(entry)` of a `ClKey` copies it. -/
def fromName (name : Str) : Except Err DV :=
  let name := removeChar ']' (removeChar '[' name)
  match (splitChar '+' name).mapM fromFisherStringRepr with
  | .error e => .error e
  | .ok entries => ofKeys entries

/-- `re.findall(r"([a-z]{4})", s)`: leftmost non-overlapping runs of four lowercase letters.
For `datavector.py` L65-70 (see `fromString`). -/
def findall4 (s : Str) : List Str :=
  match s with
  | a :: b :: c :: d :: rest =>
    if isLower a && isLower b && isLower c && isLower d then [a, b, c, d] :: findall4 rest
    else findall4 (b :: c :: d :: rest)
  | _ => []
termination_by s.length

/-- `ClKey(el).toTupleRawKey()` (datavector.py lines 70 and 74). -/
def tupleRawOfStr (s : Str) : Except Err Raw :=
  match ctor (.str s) with
  | .error e => .error e
  | .ok k => toRawKey k .alias

/-- `fromString` (datavector.py lines 65-70): unpacking the split raises unless there is exactly one
colon. -/
def fromString (s : Str) : Except Err DV :=
  match splitChar ':' s with
  | [_, elements] =>
    match (findall4 elements).mapM tupleRawOfStr with
    | .error e => .error e
    | .ok raws => ctorDV raws
  | _ => .error .valueError

/-- `fromBriefString` (datavector.py lines 72-76). -/
def fromBriefString (s : Str) : Except Err DV :=
  match (splitChar '_' s).mapM tupleRawOfStr with
  | .error e => .error e
  | .ok raws => ctorDV raws

/-- `toShortKeysVector` (datavector.py lines 86-87) and `toTupleKeysVector` (lines 89-90). -/
def toKeysVector (v : DV) (kind : Kind) : Except Err DV :=
  match v.entries.mapM (toRawKey · kind) with
  | .error e => .error e
  | .ok raws => ctorDV raws

/-- `repr` of a raw key: `'text'` for a string (no quotes or escapes occur in keys), `('a', 'b')` for a
tuple. For `datavector.py` L31-32 (see `reprDV`). -/
def reprRaw : Raw → Str
  | .str s => "'".toList ++ s ++ "'".toList
  | .tup ps => "(".toList ++ joinStr ", ".toList (ps.map fun p => "'".toList ++ p ++ "'".toList) ++
      ")".toList
  | .other => []

/-- `__repr__` (datavector.py lines 31-32), which `str` uses. -/
def reprDV (v : DV) : Str :=
  v.name ++ ": ".toList ++ "[".toList ++
    joinStr ", ".toList (v.entries.map fun k => reprRaw k.raw) ++ "]".toList

/-- `toString` (datavector.py lines 78-79). -/
def dvToString (v : DV) : Except Err Str :=
  match toKeysVector v .short with
  | .error e => .error e
  | .ok w => .ok (reprDV w)

/-- A member of `str.join`: anything but a string raises `TypeError`. For `datavector.py` L81-84 (see `toBriefString`). -/
def strOfRaw : Raw → Except Err Str
  | .str s => .ok s
  | _ => .error .typeError

/-- `toBriefString` (datavector.py lines 81-84). -/
def toBriefString (v : DV) : Except Err Str :=
  match toKeysVector v .short with
  | .error e => .error e
  | .ok w =>
    match w.entries.mapM fun k => strOfRaw k.raw with
    | .error e => .error e
    | .ok ss => .ok (joinStr "_".toList ss)

/-- `__eq__` (datavector.py lines 43-44): `all` over `zip`, which stops at the first `False` and at the
end of the shorter list. -/
def eqEntries : List ClKey → List ClKey → Except Err Bool
  | a :: as, b :: bs =>
    match keyEq a (some b) with
    | .error e => .error e
    | .ok false => .ok false
    | .ok true => eqEntries as bs
  | _, _ => .ok true

/-- `__eq__` of data vectors (`datavector.py` L43-44). -/
def eqDV (v w : DV) : Except Err Bool := eqEntries v.entries w.entries

end Seyfert.DataVector
