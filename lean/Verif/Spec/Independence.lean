import Verif.Spec.Information

/-! Specification notions for independent probes. -/

namespace Seyfert.Cov

variable {P N K : Type} [DecidableEq P] [LinearOrder N] [Field K] [LinearOrder K]

/-- The spectra between two probes vanish. -/
def Uncorrelated (δ : P → P → K → Nat → Nat → K) (x y : P) : Prop :=
  ∀ ℓ i j, δ x y ℓ i j = 0 ∧ δ y x ℓ i j = 0

/-- A spectrum does not depend on the nuisance parameters of probes other than its own two. -/
def OwnOnly (cosmo : List N) (nuis : P → List N) (d : N → P → P → K → Nat → Nat → K) : Prop :=
  ∀ p, ∀ a ∈ nuis p, a ∉ cosmo → ∀ x y, a ∉ nuis x → a ∉ nuis y → ∀ ℓ i j, d a x y ℓ i j = 0

/-- A data vector of probes that have nothing to do with each other: it has the auto-correlations of all its probes,
different probes are uncorrelated, and their correlation, if it is in the data vector, depends on no parameter. -/
structure Separate (δ : P → P → K → Nat → Nat → K) (d : N → P → P → K → Nat → Nat → K) (dv : List (P × P)) : Prop where
  autos : ∀ x ∈ probesOf dv, (x, x) ∈ dv
  uncorrelated : ∀ x ∈ probesOf dv, ∀ y ∈ probesOf dv, x ≠ y → Uncorrelated δ x y
  idle : ∀ AB ∈ dv, AB.1 ≠ AB.2 → ∀ a ℓ i j, d a AB.1 AB.2 ℓ i j = 0

end Seyfert.Cov
