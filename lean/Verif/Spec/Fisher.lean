import Mathlib.LinearAlgebra.Matrix.NonsingularInverse
import Mathlib.Data.Finset.Sort
import Verif.Model.Fisher

/-! Specifications used in the statements about Fisher matrices: label-indexed blocks as matrices
over a finite set of labels, inverses in the sense of linear algebra, well-formed objects. -/

namespace Seyfert.Fisher

variable {N K : Type} [LinearOrder N] [Field K] [DecidableEq K]

/-- The square matrix with rows and columns `S` whose entries are given by `v`. -/
def block (S : Finset N) (v : N → N → K) : Matrix S S K := Matrix.of fun a b => v a b

/-- `B` restricted to `S` is the inverse of `A` restricted to `S`. -/
def Inverse (S : Finset N) (A B : N → N → K) : Prop := block S A * block S B = 1

/-- `en` lists the elements of every set exactly once, in some order. -/
def Iteration (en : Finset N → List N) : Prop := ∀ s, (en s).Nodup ∧ ∀ a, a ∈ en s ↔ a ∈ s

/-- Rows and columns of the frame are the names in `S`, each once, in the same order. -/
structure DF.On (d : DF N K) (S : Finset N) : Prop where
  same : d.cols = d.rows
  nodup : d.rows.Nodup
  mem : ∀ a, a ∈ d.rows ↔ a ∈ S

/-- The object is well formed: its matrix is labelled by its parameters. -/
def FM.WF (F : FM N K) : Prop := F.matrix.On (F.cosmo ∪ F.nuis)

/-- Entry of a frame, zero for a parameter that the frame does not have. -/
def DF.ent (d : DF N K) (a b : N) : K := if a ∈ d.rows ∧ b ∈ d.cols then d.val a b else 0

end Seyfert.Fisher
