import Verif.Model.Kernel
import Mathlib.Data.Real.Basic

/-!
The spectra between the bins of all probes (`cosmology/c_ells.py`), over the reals.
-/

namespace Seyfert.Spectra

open Kernel

/-- The factor that the cut of small scales puts on the spectrum of a pair, when one of the two is a void,
c_ells.py L249-262. -/
def cutFactor (f : Nat → ℝ) (a b : Bool) (z : Nat) : ℝ := if a = true ∨ b = true then f z else 1

variable {P : Type} [DecidableEq P]

/-- What the spectra are made of: the weight of every bin of every probe, the cosmology, the spectrum of matter
at the wave number of each multipole and redshift, the cut for voids, whether spectra between different bins of a
probe are computed. For `c_ells.py` L237-262 (see `limber`). -/
structure Setup (P : Type) where
  nb : P → Nat
  W : P → Nat → Nat → ℝ
  co : Cosmo ℝ
  matter : Nat → Nat → ℝ
  cut : Nat → Nat → ℝ
  void : P → Bool
  offDiag : P → Bool

/-- `evaluateLimberApproximatedPowerSpectrum` for two probes: the spectrum of matter (ten to the power of a spline,
hence positive), cut when one of them is the void probe, c_ells.py L237-262. -/
noncomputable def limber (S : Setup P) (A B : P) (l z : Nat) : ℝ :=
  S.matter l z * cutFactor (S.cut l) (S.void A) (S.void B) z

/-- The spectrum of two probes, c_ells.py L164-194. -/
noncomputable def spectrum (integ : (Nat → ℝ) → ℝ) (S : Setup P) (A B : P) : Nat → Nat → Nat → ℝ :=
  if A = B then autoCl integ (limber S A B) (product S.co (S.W A) (S.W B)) (S.offDiag A) (S.nb A)
  else crossCl integ (limber S A B) (product S.co (S.W A) (S.W B)) (S.nb A) (S.nb B)

/-- The spectra with noise, times a factor common to all probes (`computeNoise` and `evaluate`,
delta_cl.py L84-118).  The factor is common when the widths of the multipole bins are. -/
noncomputable def noisy (integ : (Nat → ℝ) → ℝ) (S : Setup P) (noise : P → Nat → ℝ) (s : ℝ) (l : Nat) :
    P → P → ℝ → Nat → Nat → ℝ :=
  fun A B _ i j => s * (spectrum integ S A B l i j + if A = B ∧ i = j then noise A i else 0)

end Seyfert.Spectra
