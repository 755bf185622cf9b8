import Mathlib.Data.List.Basic

/-!
Python string operations used by the modelled code. A string is the list of its characters.
-/

namespace Seyfert

/-- A text of Python, by its characters; used for names everywhere in `/repo/seyfert` (nothing is simplified but the
type). For `cosmology.py` L186-199 (see `check` in `Background.lean`). -/
abbrev Str := List Char

/-- `s.split(c)` for a one-character separator: always at least one part, empty parts are kept.
For `fisher_utils.py` L65-69 (see `probesFromName` in `DeltaCl.lean`). -/
def splitChar (c : Char) : Str → List Str
  | [] => [[]]
  | x :: xs =>
    if x = c then [] :: splitChar c xs
    else match splitChar c xs with
      | [] => [[x]]
      | h :: t => (x :: h) :: t

/-- `sep.join(parts)`. For `fisher_utils.py` L56-62 (see `xcName` in `DeltaCl.lean`). -/
def joinStr (sep : Str) : List Str → Str
  | [] => []
  | [p] => p
  | p :: q :: rest => p ++ sep ++ joinStr sep (q :: rest)

/-- `s.replace(c, "")` for a one-character pattern. For `cosmology.py` L186-199 (see `Str`). -/
def removeChar (c : Char) (s : Str) : Str := s.filter (fun x => decide (x ≠ c))

/-- What is left of `s` after the literal prefix `p`, when `s` starts with `p`.
For `seyfert/utils/dir_explorer.py` L17 (see `regex1` in `Explorer.lean`). -/
def stripPrefix : Str → Str → Option Str
  | [], s => some s
  | _ :: _, [] => none
  | a :: p, b :: s => if a = b then stripPrefix p s else none

/-- Match of a regular expression alternative `(w1|w2|...)` at the start of `s`, followed by the
continuation `k`: alternatives are tried in order, with backtracking into the next alternative when
the continuation fails. For `seyfert/utils/dir_explorer.py` L17 (see `regex1` in `Explorer.lean`). -/
def matchAlt {α : Type} (ws : List Str) (s : Str) (k : Str → Str → Option α) : Option α :=
  ws.findSome? fun w => (stripPrefix w s).bind fun rest => k w rest

/-- `[a-z]`. For L7 (see `isLetter` in `Tools.lean`). -/
def isLower (c : Char) : Bool := 'a'.toNat ≤ c.toNat && c.toNat ≤ 'z'.toNat
/-- `[A-Z]`. For L7 (see `isLetter` in `Tools.lean`). -/
def isUpper (c : Char) : Bool := 'A'.toNat ≤ c.toNat && c.toNat ≤ 'Z'.toNat
/-- `[0-9]`. For `seyfert/utils/dir_explorer.py` L18 (see `digits` in `Explorer.lean`). -/
def isDigit (c : Char) : Bool := '0'.toNat ≤ c.toNat && c.toNat ≤ '9'.toNat

/-- Dictionary lookup: `dict(zip(keys, values))` with distinct keys is the association list.
For `cosmology.py` L186-199 (see `check` in `Background.lean`). -/
abbrev Dict (κ υ : Type*) := List (κ × υ)

end Seyfert
