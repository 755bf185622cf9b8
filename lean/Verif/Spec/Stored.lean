import Verif.Model.Stored

/-! What the files of densities, weight functions, spectra, covariances and derivatives keep. -/

namespace Seyfert.Stored

variable {A : Type}

/-- A dictionary in the order of its names. -/
def byName (d : Dict Str A) : Dict Str A := d.insertionSort (fun a b => nameLe a.1 b.1)

/-- What the writer of densities requires. -/
def Dens.Complete (d : Dens A) : Prop :=
  d.fromInput.isSome ∧ d.domain.isSome ∧ d.edges.isSome ∧ d.fSky.isSome ∧
    (d.fromInput = some true → d.nIz.isSome) ∧
    (d.fromInput ≠ some true → d.dN.isSome ∧ (d.response.map (·.1)).Nodup)

/-- What a file keeps of a density: the tables of the kind it was not made from are lost. -/
def Dens.kept (d : Dens A) : Dens A :=
  if d.fromInput = some true then { d with dN := none, response := [] }
  else { d with nIz := none, response := byName d.response }

/-- What the writer and the reader of weight functions require. -/
def Weight.Complete (w : Weight A) : Prop := w.probe ∈ probes ∧ ∀ d, w.dens = some d → d.Complete

/-- What a file keeps of a weight function: its values only together with their redshifts. -/
def Weight.kept (w : Weight A) : Weight A :=
  { w with w := if w.grid.isSome then w.w else none, dens := w.dens.map Dens.kept }

/-- What the writer of a spectrum requires: its arrays and its kernel, with both weight functions. -/
def Cl.Complete (c : Cl A) : Prop :=
  c.c.isSome ∧ c.ells.isSome ∧ ∃ k, c.kernel = some k ∧ k.grid.isSome ∧ k.k.isSome ∧ k.w1.isSome ∧ k.w2.isSome

/-- What a file keeps of a spectrum. -/
def Cl.kept (c : Cl A) : Cl A :=
  { c with kernel := c.kernel.map (fun k => { k with w1 := k.w1.map Weight.kept, w2 := k.w2.map Weight.kept }) }

/-- A collection as the program builds it: spectra of known probes under their keys, all with the weight functions of
the collection. -/
structure Coll.Sound (o : Coll A) : Prop where
  names : (o.cls.map (·.1)).Nodup
  wnames : (o.weights.map (·.1)).Nodup
  keys : ∀ i ∈ o.cls, i.1 = key i.2.p1 i.2.p2 ∧ i.2.p1 ∈ probes ∧ i.2.p2 ∈ probes
  cls : ∀ i ∈ o.cls, i.2.Complete
  weights : ∀ i ∈ o.weights, i.2.Complete ∧ i.1 = i.2.probe
  same : ∀ i ∈ o.cls, ∀ k, i.2.kernel = some k →
    k.w1 = o.weights.lookup i.2.p1 ∧ k.w2 = o.weights.lookup i.2.p2

/-- Whether a spectrum of the probe is in the collection. -/
def Coll.used (o : Coll A) (p : Str) : Prop := ∃ i ∈ o.cls, p = i.2.p1 ∨ p = i.2.p2

/-- What the writer of a covariance requires. -/
def DeltaCl.Complete (d : DeltaCl A) : Prop := d.ells.isSome ∧ d.delta.isSome

end Seyfert.Stored
