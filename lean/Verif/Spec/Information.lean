import Verif.Spec.Evaluator
import Mathlib.Analysis.Matrix.Order

/-! Specification notions for the Fisher information of data vectors: comparing data vectors, and what a complete set of
spectra and derivatives is. -/

namespace Seyfert.Cov

section
variable {P N K : Type} [DecidableEq P] [LinearOrder N] [Field K] [LinearOrder K]

/-- The correlation of two probes is listed, in either order of the probes. -/
def Lists (dv : List (P × P)) (A B : P) : Prop := (A, B) ∈ dv ∨ (B, A) ∈ dv

/-- All correlations of the one are listed in the other. -/
def Within (dv dv' : List (P × P)) : Prop := ∀ A B, Lists dv A B → Lists dv' A B

/-- The same correlations are listed, in any order. -/
def SameCorr (dv dv' : List (P × P)) : Prop := ∀ A B, Lists dv A B ↔ Lists dv' A B

/-- No correlation is listed twice, not even with its probes exchanged. -/
def NoRepeats (dv : List (P × P)) : Prop :=
  dv.Nodup ∧ ∀ AB ∈ dv, AB.1 ≠ AB.2 → (AB.2, AB.1) ∉ dv

/-- The correlations of a data vector do not depend on a parameter. -/
def Insensitive (d : N → P → P → K → Nat → Nat → K) (dv : List (P × P)) (a : N) : Prop :=
  ∀ AB ∈ dv, ∀ ℓ i j, d a AB.1 AB.2 ℓ i j = 0

/-- The multipoles that all probes of a data vector have. -/
def commonOf (e : P → List K) (dv : List (P × P)) : List K :=
  match probesOf dv with
  | [] => []
  | x :: xs => (e x).filter fun ℓ => decide (∀ y ∈ xs, ℓ ∈ e y)

/-- `p` has a parameter. -/
def Has1 (cosmo : List N) (nuis : P → List N) (p : P) (a : N) : Prop := a ∈ cosmo ∨ a ∈ nuis p

instance (cosmo : List N) (nuis : P → List N) (p : P) (a : N) : Decidable (Has1 cosmo nuis p a) := by
  unfold Has1; infer_instance

/-- The total information of a data vector: that of all its correlations at every multipole that its probes share, and
that of each auto-correlation in it at every multipole of the probe that they do not share. -/
noncomputable def totalInfo (cosmo : List N) (nuis : P → List N) (nb : P → Nat) (e : P → List K)
    (δ : P → P → K → Nat → Nat → K) (d : N → P → P → K → Nat → Nat → K) (dv : List (P × P)) (a b : N) : K :=
  (∑ ℓ ∈ (commonOf e dv).toFinset, fisherSpec nb δ d dv ℓ a b) +
    ∑ p ∈ (autoProbes dv).toFinset, ∑ ℓ ∈ (e p).toFinset \ (commonOf e dv).toFinset,
      if Has1 cosmo nuis p a ∧ Has1 cosmo nuis p b then fisherSpec nb δ d [(p, p)] ℓ a b else 0

end

variable {P N : Type} [DecidableEq P] [LinearOrder N]

/-- All the bins of the probes of a data vector. -/
def bins (nb : P → Nat) (dv : List (P × P)) : Finset (P × Nat) :=
  ((probesOf dv).flatMap (fun p => (List.range (nb p)).map (fun i => (p, i)))).toFinset

/-- The spectra between all bins at a multipole, as one matrix. -/
def joint (nb : P → Nat) (δ : P → P → ℝ → Nat → Nat → ℝ) (dv : List (P × P)) (ℓ : ℝ) :
    Matrix (bins nb dv) (bins nb dv) ℝ :=
  Matrix.of fun x y => δ x.1.1 y.1.1 ℓ x.1.2 y.1.2

/-- A complete set of spectra `δ` and derivatives `d` for some probes: every pair of probes has its spectrum and, for every
free parameter, its derivative, at the multipoles that both probes have, at least two being shared by all; the spectra
between the bins form positive definite matrices. -/
structure Survey (probes : List P) (cosmo : List N) (nuis : P → List N) (delta : Store P ℝ) (D : N → Option (Store P ℝ))
    (nb : P → Nat) (e : P → List ℝ) (g : P → P → List ℝ) (δ : P → P → ℝ → Nat → Nat → ℝ)
    (d : N → P → P → ℝ → Nat → Nat → ℝ) : Prop where
  spectra : Holds delta nb g δ
  grids : ∀ x y ℓ, ℓ ∈ g x y ↔ ℓ ∈ e x ∧ ℓ ∈ e y
  increasing : ∀ x, (e x).Pairwise (· < ·)
  stored : ∀ x ∈ probes, ∀ y ∈ probes, Has delta x y
  free : cosmo ≠ []
  derivs : ∀ a, (a ∈ cosmo ∨ ∃ p ∈ probes, a ∈ nuis p) →
    ∃ s, D a = some s ∧ Holds s nb g (d a) ∧ ∀ x ∈ probes, ∀ y ∈ probes, Has s x y
  two : ∃ ℓ ℓ', ℓ ≠ ℓ' ∧ ∀ x ∈ probes, ℓ ∈ e x ∧ ℓ' ∈ e x
  positive : ∀ x ∈ probes, ∀ ℓ ∈ e x, 0 < 2 * ℓ + 1
  posDef : ∀ dv : List (P × P), (∀ x ∈ probesOf dv, x ∈ probes) → ∀ ℓ, (∀ x ∈ probesOf dv, ℓ ∈ e x) →
    (joint nb δ dv ℓ).PosDef

/-- A data vector without repetitions of correlations of these probes. -/
structure Over (probes : List P) (dv : List (P × P)) : Prop where
  nonempty : dv ≠ []
  probes : ∀ x ∈ probesOf dv, x ∈ probes
  once : NoRepeats dv

/-- The stored tables of the auto-correlations of a data vector are those computed for them. -/
def RunTables (cosmo : List N) (nuis : P → List N) (delta : Store P ℝ) (D : N → Option (Store P ℝ))
    (dv : List (P × P)) (A : List (P × FEll N ℝ)) : Prop :=
  ∀ p, (p, p) ∈ dv → ∃ F fe, computeFisher cosmo nuis delta D [(p, p)] [p] none = .ok (F, fe) ∧ A.lookup p = some fe

end Seyfert.Cov
