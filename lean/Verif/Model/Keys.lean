import Verif.Model.PyStr

/-!
Model of `seyfert/utils/shortcuts.py` (correlation keys, probe names, key dictionaries),
`seyfert/base_structs/cl_dict.py` and the probe tables of `seyfert/__init__.py`.
-/

namespace Seyfert.Keys

/-- Exceptions. `keyError` is Python's `KeyError` (the only one the dictionaries catch),
`invalidKey` is `InvalidKeyError`. For `shortcuts.py` L50-65 (see `ctor`). -/
inductive Err
  | keyError | invalidKey | valueError | typeError | exception
  deriving DecidableEq, Repr

/-- `PROBES_LONG_NAMES` (__init__.py line 5). -/
def longNames : List Str :=
  ["PhotometricGalaxy".toList, "SpectroscopicGalaxy".toList, "Lensing".toList, "Void".toList]
/-- `PROBES_SHORT_NAMES` (__init__.py line 6). -/
def shortNames : List Str := ["ph".toList, "sp".toList, "wl".toList, "vd".toList]
/-- `PROBES_ALIAS_NAMES` (__init__.py line 7). -/
def aliasNames : List Str := ["GCph".toList, "GCsp".toList, "WL".toList, "V".toList]

/-- The three notations. For `shortcuts.py` L18-25 (see `translMapping`). -/
inductive Kind
  | long | short | alias
  deriving DecidableEq, Repr

/-- `_TRANSL_MAPPINGS[f"{old}_to_{new}"]` (shortcuts.py lines 18-25, tables of __init__.py lines
10-17). There is no entry for a kind and itself: `none`. -/
def translMapping : Kind → Kind → Option (Dict Str Str)
  | .long, .short => some ((shortNames.zip longNames).map fun p => (p.2, p.1))
  | .short, .long => some (shortNames.zip longNames)
  | .long, .alias => some (longNames.zip aliasNames)
  | .alias, .long => some ((longNames.zip aliasNames).map fun p => (p.2, p.1))
  | .short, .alias => some (shortNames.zip aliasNames)
  | .alias, .short => some ((shortNames.zip aliasNames).map fun p => (p.2, p.1))
  | _, _ => none

/-- A raw key as passed by a caller: a string, a tuple of strings, or any other object.
For `shortcuts.py` L45-65 (see `ClKey`). -/
inductive Raw
  | str (s : Str)
  | tup (parts : List Str)
  | other
  deriving DecidableEq, Repr

/-- The state of a `ClKey` built with `infer_kind=True` (shortcuts.py lines 45-65): `groups` are the
groups of `self.match`. Keys built with `infer_kind=False` are not modelled. -/
structure ClKey where
  raw : Raw
  kind : Kind
  groups : Option (Str × Str)
  deriving DecidableEq, Repr

/-- The alternatives of `long_cl_key_regex` (shortcuts.py lines 28-29). -/
def longAlts : List Str :=
  ["PhotometricGalaxy".toList, "SpectroscopicGalaxy".toList, "Lensing".toList, "Void".toList]
/-- The alternatives of `short_cl_key_regex` (shortcuts.py line 30). -/
def shortAlts : List Str := ["ph".toList, "sp".toList, "wl".toList, "vd".toList]
/-- The alternatives of `alias_probe_name_regex` (shortcuts.py line 31). -/
def aliasAlts : List Str := ["WL".toList, "GCph".toList, "GCsp".toList, "V".toList]

/-- `long_cl_key_regex.match(s)`: the groups, if the string *starts* with a long key. For `shortcuts.py` L50-65 (see `ctor`). -/
def longMatch (s : Str) : Option (Str × Str) :=
  matchAlt longAlts s fun w1 r => (stripPrefix "_".toList r).bind fun r =>
    matchAlt longAlts r fun w2 _ => some (w1, w2)

/-- `short_cl_key_regex.match(s)`: the groups, if the string *starts* with a short key.
For `shortcuts.py` L50-65 (see `ctor`). -/
def shortMatch (s : Str) : Option (Str × Str) :=
  matchAlt shortAlts s fun w1 r => matchAlt shortAlts r fun w2 _ => some (w1, w2)

/-- `alias_probe_name_regex.match(s)`: the group, if the string *starts* with an alias.
For `shortcuts.py` L50-65 (see `ctor`). -/
def aliasMatch (s : Str) : Option Str := matchAlt aliasAlts s fun w _ => some w

/-- `ClKey(key)` for a raw key, with `inferKind` (shortcuts.py lines 50-65 and 157-181). -/
def ctor (raw : Raw) : Except Err ClKey :=
  match raw with
  | .str s =>
    match longMatch s with
    | some g => .ok ⟨raw, .long, some g⟩
    | none =>
      match shortMatch s with
      | some g => .ok ⟨raw, .short, some g⟩
      | none => .error .keyError
  | .tup [p1, p2] =>
    if (aliasMatch p1).isNone then .error .keyError
    else if (aliasMatch p2).isNone then .error .keyError
    else .ok ⟨raw, .alias, none⟩
  | .tup _ => .error .keyError
  | .other => .error .keyError

/-- `toParts` (shortcuts.py lines 108-119). -/
def toParts (k : ClKey) : Except Err (Str × Str) :=
  match k.kind with
  | .long | .short =>
    match k.groups with
    | some g => .ok g
    | none => .error .exception   -- `None.groups()`: AttributeError, unreachable from `ctor`
  | .alias =>
    match k.raw with
    | .tup [p1, p2] => .ok (p1, p2)
    | _ => .error .valueError     -- unpacking error, unreachable from `ctor`

/-- `fromParts(p1, p2, kind)` (shortcuts.py lines 121-138). The argument `none` stands for any string
that is not one of the three kinds. -/
def fromParts (p1 p2 : Str) (kind : Option Kind) : Except Err ClKey :=
  match kind with
  | none => .error .invalidKey
  | some kd =>
    let raw := match kd with
      | .long => Raw.str (p1 ++ "_".toList ++ p2)
      | .short => Raw.str (p1 ++ p2)
      | .alias => Raw.tup [p1, p2]
    match ctor raw with
    | .error e => .error e
    | .ok k => if k.kind ≠ kd then .error .valueError else .ok k

/-- Dictionary subscript: `KeyError` when absent. For `shortcuts.py` L192-204 (see `transformTo`). -/
def dictGet (d : Dict Str Str) (k : Str) : Except Err Str :=
  match d.lookup k with
  | some v => .ok v
  | none => .error .keyError

/-- `transformTo(new_kind)` (shortcuts.py lines 192-204); `copy.deepcopy(self)` is `ClKey(self.key)`
(lines 79-83). -/
def transformTo (k : ClKey) (newKind : Option Kind) : Except Err ClKey :=
  if newKind = some k.kind then ctor k.raw
  else match newKind with
    | none => .error .invalidKey
    | some nk =>
      match toParts k with
      | .error e => .error e
      | .ok (p1, p2) =>
        match translMapping k.kind nk with
        | none => .error .keyError
        | some m =>
          match dictGet m p1 with
          | .error e => .error e
          | .ok q1 =>
            match dictGet m p2 with
            | .error e => .error e
            | .ok q2 => fromParts q1 q2 (some nk)

/-- `getReverseKey` (shortcuts.py lines 187-190). -/
def getReverseKey (k : ClKey) : Except Err ClKey :=
  match toParts k with
  | .error e => .error e
  | .ok (p1, p2) => fromParts p2 p1 (some k.kind)

/-- `toLongRawKey`, `toShortRawKey`, `toTupleRawKey` (shortcuts.py lines 206-222). -/
def toRawKey (k : ClKey) (kind : Kind) : Except Err Raw :=
  match transformTo k (some kind) with
  | .error e => .error e
  | .ok k' => .ok k'.raw

/-- The value handed to Python's `hash` by `__hash__` (shortcuts.py lines 67-71). -/
def hashed (k : ClKey) : Except Err Raw := toRawKey k .short

/-- `equivalentTo` (shortcuts.py lines 85-88). -/
def equivalentTo (k other : ClKey) : Except Err Bool :=
  match transformTo k (some other.kind) with
  | .error e => .error e
  | .ok t => .ok (decide (t.raw = other.raw) && decide (t.kind = other.kind))

/-- `__eq__` (shortcuts.py lines 76-77); `none` stands for an object that is not a `ClKey`. -/
def keyEq (k : ClKey) (other : Option ClKey) : Except Err Bool :=
  match other with
  | none => .ok false
  | some o => equivalentTo k o

/-- `is_auto_correlation` (shortcuts.py lines 90-94). -/
def isAuto (k : ClKey) : Except Err Bool :=
  match toParts k with
  | .error e => .error e
  | .ok (p1, p2) => .ok (decide (p1 = p2))

/-- `toFisherStringRepr(kind)` (shortcuts.py lines 224-232). -/
def toFisherStringRepr (k : ClKey) (kind : Kind := .alias) : Except Err Str :=
  match (if kind ≠ k.kind then transformTo k (some kind) else .ok k) with
  | .error e => .error e
  | .ok key =>
    match toParts key with
    | .error e => .error e
    | .ok (p1, p2) =>
      if p1 = p2 then .ok p1
      else .ok ("XC(".toList ++ p1 ++ ",".toList ++ p2 ++ ")".toList)

/-- `xc_regex.match(s)` with the pattern `XC\((WL|GCph|GCsp|V),(WL|GCph|GCsp|V)\)` (shortcuts.py lines
147-149). -/
def xcMatch (s : Str) : Option (Str × Str) :=
  (stripPrefix "XC(".toList s).bind fun r =>
    matchAlt aliasAlts r fun w1 r => (stripPrefix ",".toList r).bind fun r =>
      matchAlt aliasAlts r fun w2 r => (stripPrefix ")".toList r).bind fun _ => some (w1, w2)

/-- `fromFisherStringRepr` (shortcuts.py lines 140-155). -/
def fromFisherStringRepr (s : Str) : Except Err ClKey :=
  match aliasMatch s with
  | some p => fromParts p p (some .alias)
  | none =>
    match xcMatch s with
    | none => .error .exception
    | some (p1, p2) => fromParts p1 p2 (some .alias)

/-! ### Probe names -/

/-- `ProbeName` (shortcuts.py lines 269-329): name and inferred kind. -/
structure ProbeName where
  name : Str
  kind : Kind
  deriving DecidableEq, Repr

/-- Constructor with `inferKind` (shortcuts.py lines 273-305). -/
def probeCtor (name : Str) : Except Err ProbeName :=
  if name ∈ longNames then .ok ⟨name, .long⟩
  else if name ∈ shortNames then .ok ⟨name, .short⟩
  else if name ∈ aliasNames then .ok ⟨name, .alias⟩
  else .error .valueError

/-- `transformTo` (shortcuts.py lines 307-315). An unknown kind string makes
`_TRANSL_MAPPINGS[...]` raise `KeyError`. -/
def probeTransformTo (p : ProbeName) (kind : Option Kind) : Except Err ProbeName :=
  if kind = some p.kind then .ok p
  else match kind with
    | none => .error .keyError
    | some k =>
      match translMapping p.kind k with
      | none => .error .keyError
      | some m =>
        match dictGet m p.name with
        | .error e => .error e
        | .ok n => probeCtor n

/-- `equivalentTo` (shortcuts.py lines 326-329). -/
def probeEquiv (p other : ProbeName) : Except Err Bool :=
  match probeTransformTo other (some p.kind) with
  | .error e => .error e
  | .ok t => .ok (decide (p.name = t.name))

/-! ### Dictionaries indexed by keys -/

variable {V : Type*}

/-- The items of a Python dictionary whose keys are `ClKey` objects. For `shortcuts.py` L236-239 (see `smartCtor`). -/
abbrev KeyDict (V : Type*) := List (ClKey × V)

/-- Whether a stored key is found by a query: same hash value, then `stored == query`. Python's `hash`
on strings is represented by the string itself: a collision of hash values alone never makes two keys
equal, because `==` is asked afterwards. For `shortcuts.py` L76-77 (see `keyEq`). -/
def found (stored query : ClKey) : Bool :=
  match hashed stored, hashed query with
  | .ok a, .ok b => decide (a = b) && decide (keyEq stored (some query) = .ok true)
  | _, _ => false

/-- `d[k] = v`: replaces the value of the first matching key, or appends. For `shortcuts.py` L236-239 (see `smartCtor`). -/
def dictSet (d : KeyDict V) (k : ClKey) (v : V) : KeyDict V :=
  match d with
  | [] => [(k, v)]
  | (k', v') :: rest => if found k' k then (k', v) :: rest else (k', v') :: dictSet rest k v

/-- `d[k]`: hashing the query may raise; an absent key raises `KeyError`. For `shortcuts.py` L253-261 (see `smartGet`). -/
def dictGetKey (d : KeyDict V) (k : ClKey) : Except Err V :=
  match hashed k with
  | .error e => .error e
  | .ok _ =>
    match d.find? fun p => found p.1 k with
    | some p => .ok p.2
    | none => .error .keyError

/-- `SmartKeyDict(data_dict)` for a plain `dict` with raw keys (shortcuts.py lines 236-239): a
dictionary comprehension over the items, then `update` of an empty dictionary. -/
def smartCtor (items : List (Raw × V)) : Except Err (KeyDict V) :=
  items.foldlM (init := []) fun d p =>
    match ctor p.1 with
    | .error e => .error e
    | .ok k =>
      match hashed k with
      | .error e => .error e
      | .ok _ => .ok (dictSet d k p.2)

/-- `SmartKeyDict.__getitem__` for a raw key (shortcuts.py lines 253-261); `tr` is
`reversed_key_transform`: the identity for `SmartKeyDict`, the transposition of the last two axes for
`ClSmartKeyDict`. -/
def smartGet (tr : V → V) (d : KeyDict V) (key : Raw) : Except Err V :=
  match ctor key with
  | .error e => .error e
  | .ok k =>
    match dictGetKey d k with
    | .ok v => .ok v
    | .error .keyError =>
      match getReverseKey k with
      | .error e => .error e
      | .ok rk =>
        match dictGetKey d rk with
        | .error e => .error e
        | .ok v => .ok (tr v)
    | .error e => .error e

/-- A three dimensional array (multipole, bin, bin), as in cl_dict.py lines 82-102. -/
structure Arr3 (K : Type*) where
  nl : Nat
  n : Nat
  m : Nat
  get : Fin nl → Fin n → Fin m → K

/-- `np.transpose(X, axes=(0, 2, 1))` (cl_dict.py lines 84 and 102). -/
def Arr3.transpose {K : Type*} (X : Arr3 K) : Arr3 K := ⟨X.nl, X.m, X.n, fun l i j => X.get l j i⟩

/-- `TupleSmartDict.__getitem__` (cl_dict.py lines 87-97) for a pair of strings. -/
def tupleGet (tr : V → V) (d : Dict (Str × Str) V) (key : Str × Str) : Except Err V :=
  match d.lookup key with
  | some v => .ok v
  | none =>
    match d.lookup (key.2, key.1) with
    | some v => .ok (tr v)
    | none => .error .keyError

/-- `get_probes_combination_key` (general_utils.py lines 115-116). -/
def combKey (p1 p2 : Str) : Str := p1 ++ "_".toList ++ p2

/-- `reverse_probes_comb_key` (general_utils.py lines 119-125): unpacking the split into two names
raises `ValueError` when there are not exactly two parts. -/
def reverseCombKey (s : Str) : Except Err Str :=
  match splitChar '_' s with
  | [p1, p2] => .ok (combKey p2 p1)
  | _ => .error .valueError

/-- `alias_to_fullname` (cl_dict.py lines 26-28, table lines 8-10). -/
def aliasToFullname (p : Str) : Except Err Str :=
  dictGet ((longNames.zip aliasNames).map fun q => (q.2, q.1)) p

/-- `FlexDict.__getitem__` (cl_dict.py lines 38-57); `tr` is the identity for `FlexDict` and the
transposition for `ClDict`. The base dictionary has string keys, so a tuple is never found directly. -/
def flexGet (tr : V → V) (d : Dict Str V) (key : Raw) : Except Err V :=
  match key with
  | .str s =>
    match d.lookup s with
    | some v => .ok v
    | none =>
      match reverseCombKey s with
      | .error e => .error e
      | .ok r =>
        match d.lookup r with
        | some v => .ok (tr v)
        | none => .error .keyError
  | .tup [p1, p2] =>
    match aliasToFullname p1 with
    | .error e => .error e
    | .ok f1 =>
      match aliasToFullname p2 with
      | .error e => .error e
      | .ok f2 =>
        match d.lookup (combKey f1 f2) with
        | some v => .ok v
        | none =>
          match d.lookup (combKey f2 f1) with
          | some v => .ok (tr v)
          | none => .error .keyError
  | .tup _ => .error .valueError
  | .other => .error .typeError

/-- `key in flex_dict`: `Mapping.__contains__` calls `self[key]` and turns `KeyError` into `False`;
other exceptions propagate. For `cl_dict.py` L59-69 (see `tupleKeyToStrKey`). -/
def flexContains (tr : V → V) (d : Dict Str V) (key : Raw) : Except Err Bool :=
  match flexGet tr d key with
  | .ok _ => .ok true
  | .error .keyError => .ok false
  | .error e => .error e

/-- `tuple_key_to_str_key` (cl_dict.py lines 59-69). -/
def tupleKeyToStrKey (tr : V → V) (d : Dict Str V) (p1 p2 : Str) : Except Err Str :=
  match aliasToFullname p1 with
  | .error e => .error e
  | .ok f1 =>
    match aliasToFullname p2 with
    | .error e => .error e
    | .ok f2 =>
      match flexContains tr d (.str (combKey f1 f2)) with
      | .error e => .error e
      | .ok true => .ok (combKey f1 f2)
      | .ok false => reverseCombKey (combKey f1 f2)

end Seyfert.Keys
