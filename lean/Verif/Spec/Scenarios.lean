import Verif.Model.Scenarios

/-! What the helpers of notebooks which load runs are expected to do. -/

namespace Seyfert.Scen

/-- The name of a run of a scenario with a number of bins: scenario, number and `sp_bins`, with something after them. -/
def RunName (scenario : Str) (n : Nat) (name : Str) : Prop :=
  ∃ ds rest, name = scenario ++ "_".toList ++ ds ++ "_sp_bins_".toList ++ rest ∧ ds ≠ [] ∧ (∀ c ∈ ds, isDigit c = true) ∧
    decVal ds = n

/-- A directory of a run of one of the two scenarios, with or without the galaxies of the other survey. -/
def IsRun (flag : Bool) (n : Nat) (e : Entry) : Prop :=
  e.dir = true ∧ (RunName "optm".toList n e.name ∨ RunName "pess".toList n e.name) ∧
    (flag = true ↔ "gcph_minus_gcsp".toList <:+: e.name)

/-- A matrix with the three-dimensional spectrum. -/
def Hybrid (name : Str) : Prop := "GCsp(Pk)".toList <:+: name

end Seyfert.Scen
