import Verif.Spec.Covariance
import Verif.Model.Evaluator
import Verif.Spec.Fisher

/-!
Specification of the Fisher matrix of a data vector.
-/

namespace Seyfert.Cov

open Fisher hiding Err

variable {P N K : Type} [DecidableEq P] [LinearOrder N] [Field K] [LinearOrder K]

/-- A component of the derivative of the data vector. -/
def dcomp (d : P → P → K → Nat → Nat → K) (ℓ : K) (x : (P × Nat) × (P × Nat)) : K :=
  d x.1.1 x.2.1 ℓ x.1.2 x.2.2

/-- The Gaussian covariance of the data vector at a multipole. -/
def covAt (nb : P → Nat) (δ : P → P → K → Nat → Nat → K) (dv : List (P × P)) (ℓ : K) :
    Matrix (Fin (layout nb dv).length) (Fin (layout nb dv).length) K :=
  Matrix.of fun i j => covSpec δ ℓ ((layout nb dv).get i) ((layout nb dv).get j)

/-- The derivative of the data vector at a multipole. -/
def derivAt (nb : P → Nat) (d : P → P → K → Nat → Nat → K) (dv : List (P × P)) (ℓ : K) :
    Fin (layout nb dv).length → K := fun i => dcomp d ℓ ((layout nb dv).get i)

/-- The Fisher information of two parameters at a multipole: derivative, inverse covariance,
derivative. -/
noncomputable def fisherSpec (nb : P → Nat) (δ : P → P → K → Nat → Nat → K)
    (d : N → P → P → K → Nat → Nat → K) (dv : List (P × P)) (ℓ : K) (a b : N) : K :=
  dotProduct (derivAt nb (d a) dv ℓ) (Matrix.mulVec (covAt nb δ dv ℓ)⁻¹ (derivAt nb (d b) dv ℓ))

/-- A table over multipoles: index `ells`, the pairs of names in `S`, values `f`. -/
structure IsTable (T : FEll N K) (ells : List K) (S : Finset N) (f : K → N → N → K) : Prop where
  index : T.ells = ells
  names : ∀ p ∈ T.cols, p.1.1 ∈ S ∧ p.1.2 ∈ S
  col : ∀ a ∈ S, ∀ b ∈ S, T.cols.lookup (a, b) = some (ells.map (fun ℓ => f ℓ a b))

end Seyfert.Cov
