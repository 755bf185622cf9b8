import Verif.Model.Covariance

/-!
Specification of the covariance of a data vector, independent of the evaluation code.
-/

namespace Seyfert.Cov

variable {P K : Type} [DecidableEq P] [Field K] [LinearOrder K]

/-- The bin pairs of a correlation in the order of the data vector: column after column, only the
upper triangle for an auto-correlation. -/
def binPairs (nb : P → Nat) (AB : P × P) : List (Nat × Nat) :=
  (List.range (nb AB.2)).flatMap (fun j =>
    (List.range (if AB.1 = AB.2 then j + 1 else nb AB.1)).map (fun i => (i, j)))

/-- The components of the data vector: for every correlation, its bin pairs. -/
def layout (nb : P → Nat) (dv : List (P × P)) : List ((P × Nat) × (P × Nat)) :=
  dv.flatMap (fun AB => (binPairs nb AB).map (fun p => ((AB.1, p.1), (AB.2, p.2))))

/-- Covariance of two components at a multipole. -/
def covSpec (δ : P → P → K → Nat → Nat → K) (ℓ : K) (x y : (P × Nat) × (P × Nat)) : K :=
  (δ x.1.1 y.1.1 ℓ x.1.2 y.1.2 * δ x.2.1 y.2.1 ℓ x.2.2 y.2.2
    + δ x.1.1 y.2.1 ℓ x.1.2 y.2.2 * δ x.2.1 y.1.1 ℓ x.2.2 y.1.2) / (2 * ℓ + 1)

/-- The block of the spectrum `(a, b)`: grid `g a b`, `nb a` by `nb b` bins, values `δ a b`. -/
def fullBlock (nb : P → Nat) (g : P → P → List K) (δ : P → P → K → Nat → Nat → K) (a b : P) :
    Tomo K := ⟨g a b, nb a, nb b, (g a b).map (δ a b)⟩

/-- A container holds spectra `δ` over grids `g`: increasing grids, and spectra of reversed pairs are
transposes of each other (in particular auto-correlations are symmetric). -/
structure Holds (s : Store P K) (nb : P → Nat) (g : P → P → List K)
    (δ : P → P → K → Nat → Nat → K) : Prop where
  stored : ∀ a b t, s.lookup (a, b) = some t → t = fullBlock nb g δ a b
  symm : ∀ a b ℓ i j, δ a b ℓ i j = δ b a ℓ j i
  gsymm : ∀ a b, g a b = g b a
  sorted : ∀ a b, (g a b).Pairwise (· < ·)

/-- The pair is stored in some orientation. -/
def Has (s : Store P K) (a b : P) : Prop := (s.lookup (a, b)).isSome ∨ (s.lookup (b, a)).isSome

/-- The probes of a data vector. -/
def probesOf (dv : List (P × P)) : List P := dv.flatMap (fun AB => [AB.1, AB.2])

end Seyfert.Cov
