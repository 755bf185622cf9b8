import Verif.Model.Combos
import Verif.Props.FisherStore
import Mathlib.Data.Fintype.Basic

/-! Specification notions for the shipped combinations: what each of them is made of. -/

namespace Seyfert.Combos

open Fisher (Comb)

/-- What is observed: the three auto-correlations, the three cross-correlations, and the spectroscopic clustering in three
dimensions, whose matrix comes from outside. -/
inductive Obs where
  | wl | ph | sp | wlph | wlsp | phsp | pk
deriving DecidableEq

def Obs.all : List Obs := [.wl, .ph, .sp, .wlph, .wlsp, .phsp, .pk]

instance : Fintype Obs := ⟨⟨Obs.all, by decide⟩, fun s => by cases s <;> decide⟩

def Obs.label : Obs → Str
  | .wl => "WL".toList
  | .ph => "GCph".toList
  | .sp => "GCsp".toList
  | .wlph => "XC(WL,GCph)".toList
  | .wlsp => "XC(WL,GCsp)".toList
  | .phsp => "XC(GCph,GCsp)".toList
  | .pk => "GCsp(Pk)".toList

/-- The name of the matrix of some observables. -/
def label (l : List Obs) : Str := "[".toList ++ joinStr "+".toList (l.map Obs.label) ++ "]".toList

/-- The external matrix. -/
def external : Str := label [.pk]

/-- A combination by the observables of its operands. -/
structure OComb where
  first : List Obs
  terms : List (Bool × List Obs)
deriving DecidableEq

def OComb.operands (c : OComb) : List (List Obs) := c.first :: c.terms.map Prod.snd

/-- The combination of the matrices with these names. -/
def OComb.comb (c : OComb) : Comb := ⟨label c.first, c.terms.map fun x => (x.1, label x.2)⟩

/-- How often an observable is counted in a combination: operands that are subtracted count negatively. -/
def OComb.tally (c : OComb) (s : Obs) : Int :=
  (c.first.count s : Int) + (c.terms.map fun x => if x.1 then (x.2.count s : Int) else -(x.2.count s : Int)).sum

/-- The observables of a combination. -/
def OComb.content (c : OComb) : List Obs := Obs.all.filter fun s => decide (0 < c.tally s)

/-- Whether the external matrix is an operand. -/
def OComb.Pk (c : OComb) : Prop := [Obs.pk] ∈ c.operands

instance (c : OComb) : Decidable c.Pk := inferInstanceAs (Decidable (_ ∈ _))

/-- The combinations that are meant, in the order of the file. -/
def shipped : List OComb :=
  [⟨[.ph], [(true, [.sp])]⟩,
   ⟨[.ph], [(true, [.phsp])]⟩,
   ⟨[.ph, .phsp], [(true, [.sp])]⟩,
   ⟨[.sp, .phsp], [(true, [.ph])]⟩,
   ⟨[.ph, .sp], [(true, [.phsp])]⟩,
   ⟨[.ph], [(true, [.sp]), (true, [.phsp])]⟩,
   ⟨[.ph], [(true, [.pk])]⟩,
   ⟨[.ph, .phsp], [(true, [.pk])]⟩,
   ⟨[.ph, .sp, .phsp], [(false, [.sp])]⟩,
   ⟨[.ph, .sp, .phsp], [(false, [.sp]), (true, [.pk])]⟩,
   ⟨[.wl], [(true, [.sp])]⟩,
   ⟨[.wl], [(true, [.wlsp])]⟩,
   ⟨[.wl, .wlsp], [(true, [.sp])]⟩,
   ⟨[.sp, .wlsp], [(true, [.wl])]⟩,
   ⟨[.wl, .sp], [(true, [.wlsp])]⟩,
   ⟨[.wl], [(true, [.sp]), (true, [.wlsp])]⟩,
   ⟨[.wl], [(true, [.pk])]⟩,
   ⟨[.wl, .wlsp], [(true, [.pk])]⟩,
   ⟨[.wl, .sp, .wlsp], [(false, [.sp])]⟩,
   ⟨[.wl, .sp, .wlsp], [(false, [.sp]), (true, [.pk])]⟩,
   ⟨[.wl], [(true, [.ph])]⟩,
   ⟨[.wl], [(true, [.wlph])]⟩,
   ⟨[.wl, .wlph], [(true, [.ph])]⟩,
   ⟨[.ph, .wlph], [(true, [.wl])]⟩,
   ⟨[.wl], [(true, [.ph]), (true, [.wlph])]⟩,
   ⟨[.wl], [(true, [.ph]), (true, [.sp])]⟩,
   ⟨[.sp], [(true, [.wlph])]⟩,
   ⟨[.wl, .ph], [(true, [.sp])]⟩,
   ⟨[.wl, .ph, .wlph], [(true, [.sp])]⟩,
   ⟨[.wl, .ph, .wlph, .wlsp, .phsp], [(true, [.sp])]⟩,
   ⟨[.wl, .ph, .wlph, .phsp], [(true, [.sp])]⟩,
   ⟨[.wl, .ph, .wlph, .wlsp], [(true, [.sp])]⟩,
   ⟨[.wl, .ph, .wlsp, .phsp], [(true, [.sp])]⟩,
   ⟨[.wl, .ph, .wlph], [(true, [.sp])]⟩,
   ⟨[.wl, .ph, .wlsp], [(true, [.sp])]⟩,
   ⟨[.wl, .ph, .phsp], [(true, [.sp])]⟩,
   ⟨[.wl, .ph, .sp, .wlph, .wlsp, .phsp], [(false, [.sp])]⟩,
   ⟨[.wl, .ph, .sp, .wlph, .wlsp], [(false, [.sp])]⟩,
   ⟨[.wl, .ph, .sp, .wlph, .phsp], [(false, [.sp])]⟩,
   ⟨[.wl, .ph, .sp, .wlsp, .phsp], [(false, [.sp])]⟩,
   ⟨[.wl, .ph, .sp, .wlph, .wlsp, .phsp], [(false, [.sp]), (true, [.pk])]⟩,
   ⟨[.wl, .ph, .sp, .wlsp], [(false, [.sp]), (true, [.pk])]⟩,
   ⟨[.wl, .ph, .sp, .phsp], [(false, [.sp]), (true, [.pk])]⟩,
   ⟨[.wl, .ph, .sp, .wlph, .wlsp], [(false, [.sp]), (true, [.pk])]⟩,
   ⟨[.wl, .ph, .sp, .wlph, .phsp], [(false, [.sp]), (true, [.pk])]⟩,
   ⟨[.wl, .ph, .sp, .wlsp, .phsp], [(false, [.sp]), (true, [.pk])]⟩,
   ⟨[.wl], [(true, [.ph]), (true, [.pk])]⟩,
   ⟨[.wl, .ph, .wlph], [(true, [.pk])]⟩,
   ⟨[.wl, .ph, .wlph, .wlsp, .phsp], [(true, [.pk])]⟩,
   ⟨[.wl, .ph, .wlsp], [(true, [.pk])]⟩,
   ⟨[.wl, .ph, .phsp], [(true, [.pk])]⟩,
   ⟨[.wl, .ph, .wlph, .wlsp], [(true, [.pk])]⟩,
   ⟨[.wl, .ph, .wlph, .phsp], [(true, [.pk])]⟩,
   ⟨[.wl, .ph, .wlsp, .phsp], [(true, [.pk])]⟩]

/-- A line without the blanks at its two ends. -/
def Trimmed (line l : Str) : Prop :=
  ∃ a b, line = a ++ l ++ b ∧ (∀ c ∈ a ++ b, Boltzmann.isSpace c = true) ∧
    (∀ c, l.head? = some c → Boltzmann.isSpace c = false) ∧ (∀ c, l.getLast? = some c → Boltzmann.isSpace c = false)

end Seyfert.Combos
