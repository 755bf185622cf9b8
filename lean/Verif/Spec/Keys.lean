import Verif.Model.Keys
import Mathlib.Data.Fintype.Basic

/-! Specification of the four probes and of the way pairs of probes are written. -/

namespace Seyfert.Keys

/-- Specification: the four probes. -/
inductive Probe
  | photo | spectro | lensing | void
  deriving DecidableEq, Repr

instance : Fintype Probe := ⟨{.photo, .spectro, .lensing, .void}, by intro x; cases x <;> decide⟩
instance : Fintype Kind := ⟨{.long, .short, .alias}, by intro x; cases x <;> decide⟩

/-- Specification: the name of a probe in each notation. -/
def Probe.name : Kind → Probe → Str
  | .long, .photo => "PhotometricGalaxy".toList
  | .long, .spectro => "SpectroscopicGalaxy".toList
  | .long, .lensing => "Lensing".toList
  | .long, .void => "Void".toList
  | .short, .photo => "ph".toList
  | .short, .spectro => "sp".toList
  | .short, .lensing => "wl".toList
  | .short, .void => "vd".toList
  | .alias, .photo => "GCph".toList
  | .alias, .spectro => "GCsp".toList
  | .alias, .lensing => "WL".toList
  | .alias, .void => "V".toList

/-- Specification: how the pair of probes `(a, b)` is written in a notation. -/
def written : Kind → Probe → Probe → Raw
  | .long, a, b => .str (a.name .long ++ "_".toList ++ b.name .long)
  | .short, a, b => .str (a.name .short ++ b.name .short)
  | .alias, a, b => .tup [a.name .alias, b.name .alias]

end Seyfert.Keys
