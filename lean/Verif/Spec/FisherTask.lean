import Verif.Model.FisherTask

/-! Specification notions for the Fisher task. -/

namespace Seyfert.FTask

open Resume (File)

variable {V : Type}

/-- The Fisher matrix of a data vector: that of an auto-correlation, or that computed with the tables of all its
probes. -/
def Comp.right (C : Comp V) (name : Str) : V :=
  match C.single name with
  | some _ => C.autoFisher name
  | none => C.fisher name fun p => some (C.table p)

/-- The Fisher matrix of a data vector uses the tables of its involved probes only. -/
def Comp.Local (C : Comp V) : Prop :=
  ∀ name f g, (∀ p ∈ C.probes name, f p = g p) → C.fisher name f = C.fisher name g

/-- The first data vectors are single auto-correlations of three or more different probes, the others are not and involve
these probes only, there is at least one, and no data vector is listed twice. -/
structure Comp.WF (C : Comp V) : Prop where
  isLocal : C.Local
  autos : ∀ name ∈ C.autos, (C.single name).isSome
  three : 3 ≤ C.autos.length
  distinct : (C.autos.map C.single).Nodup
  cross : ∀ name ∈ C.cross, C.single name = none
  probes : ∀ name ∈ C.cross, ∀ p ∈ C.probes name, ∃ a ∈ C.autos, C.single a = some p
  nodup : (C.autos ++ C.cross).Nodup
  some : C.cross ≠ []

/-- What can be read is right. -/
structure Right (C : Comp V) (d : Disk V) : Prop where
  fishers : ∀ name v, d.fishers.lookup name = some (.full v) → v = C.right name
  autos : ∀ t k v, d.autos = some (.full t) → t.lookup k = some v → v = C.table k

/-- The Fisher matrices of these data vectors are there and right. -/
def Done (C : Comp V) (names : List Str) (d : Disk V) : Prop :=
  ∀ name ∈ names, d.fishers.lookup name = some (.full (C.right name))

/-- No file was cut off while it was written. -/
def Whole (d : Disk V) : Prop :=
  d.autos ≠ some .unreadable ∧ ∀ name, d.fishers.lookup name ≠ some .unreadable

/-- Every auto-correlation with a Fisher matrix has its table. -/
def Tables (C : Comp V) (d : Disk V) : Prop :=
  ∀ name k, C.single name = some k → (d.fishers.lookup name).isSome →
    ∃ t, d.autos = some (.full t) ∧ (t.lookup k).isSome

/-- The Fisher matrix of a data vector cannot be computed: the file of tables is cut off, or has too few tables or not
those needed. -/
def Blocked (C : Comp V) (d : Disk V) (name : Str) : Prop :=
  ((C.single name).isSome ∧ d.autos = some .unreadable) ∨
    (C.single name = none ∧ ∀ t, d.autos = some (.full t) → t.length < 3 ∨ ∃ p ∈ C.probes name, t.lookup p = none)

/-- The file of a data vector after its turn: the one there was before, or a right one. -/
def after (C : Comp V) (d : Disk V) (name : Str) : Option (File V) :=
  (d.fishers.lookup name).or (some (.full (C.right name)))

/-- No process is at work and nothing has been computed. -/
def Sys.empty : Sys V := ⟨⟨none, []⟩, []⟩

end Seyfert.FTask
