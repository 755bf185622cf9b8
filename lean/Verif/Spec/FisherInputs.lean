import Verif.Model.FisherInputs

/-!
What a block of normalised spectra should be.
-/

namespace Seyfert.Inputs

open Ells Cov

variable {P K : Type} [DecidableEq P] [Field K] [LinearOrder K]

/-- The block of the pair `k` of probes, whose spectrum is `t`, with noise matrix `N` at every
multipole: spectrum plus noise, times the square root of one over width and sky fraction. -/
structure Normalised (sq : K → K) (b : Block P K) (k : P × P) (t : Cl K) (fs : K) (N : Nat → Nat → K) :
    Prop where
  pair : b.p1 = k.1 ∧ b.p2 = k.2
  grid : b.ells = t.ells ∧ b.widths = t.widths
  size : b.n = t.n ∧ b.m = t.m
  spectrum : b.c = t.arr
  widths : t.widths.length = t.arr.length
  noise : ∃ x, b.noise = some x ∧ x.length = t.arr.length ∧ ∀ y ∈ x, y = N
  values : ∃ d, b.delta = some d ∧ d.length = t.arr.length ∧
    ∀ l w, t.widths[l]? = some w → ∀ i j,
      entryAt d l i j = sq (1 / (w * fs)) * (entryAt t.arr l i j + N i j)

/-- The shot noise of a pair of probes under a configuration that gives no file: on the diagonal of an
auto-correlation, that of the bin. -/
def configNoise (g : NoiseCfg P K) (k : P × P) (i j : Nat) : K :=
  if k.1 = k.2 ∧ i = j then
    (g.shot k.1).getD i 0 * (if k.1 = g.spec ∧ g.reduced = true then g.nSpec / g.nPhot else 1)
  else 0

end Seyfert.Inputs
