import Verif.Model.PyStr

/-!
Decimal notation of integers, as written by `str` and `format` and read by `int`.
-/

namespace Seyfert

/-- The decimal digit of a number below ten. For `forecast_config.py` L299-301 (see `decStr`). -/
def digitChar (d : Nat) : Char := Char.ofNat ('0'.toNat + d)

/-- The number of a decimal digit. For `filesystem_utils.py` L92-102 (see `stepAfter` in `Names.lean`). -/
def digitVal (c : Char) : Nat := c.toNat - '0'.toNat

/-- `str(n)` for a nonnegative integer. For `forecast_config.py` L299-301 (see `gcspSets` in `Config.lean`). -/
def decStr (n : Nat) : Str :=
  if n < 10 then [digitChar n] else decStr (n / 10) ++ [digitChar (n % 10)]

/-- Value of a string of decimal digits. For `seyfert/file_io/ext_input.py` L248 (see `matchPair` in `External.lean`). -/
def decVal (s : Str) : Nat := s.foldl (fun a c => 10 * a + digitVal c) 0

/-- `int(s)` restricted to strings of ASCII digits; `none` is the `ValueError`.
For `seyfert/file_io/ext_input.py` L248 (see `decVal`). -/
def parseNat (s : Str) : Option Nat :=
  if s ≠ [] ∧ s.all isDigit then some (decVal s) else none

/-- `format(n, "0wd")` for a nonnegative integer. For `seyfert/utils/formatters.py` L37-38 (see `stampStr` in `Names.lean`). -/
def padDec (w n : Nat) : Str := List.replicate (w - (decStr n).length) '0' ++ decStr n

end Seyfert
