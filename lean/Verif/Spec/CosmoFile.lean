import Verif.Model.CosmoFile
import Verif.Spec.Stored

/-! What the files of cosmologies and power spectra keep. -/

namespace Seyfert.CosmoFile

variable {A : Type}

/-- What the writer of power spectra requires. -/
def Power.Complete (p : Power A) : Prop := p.z.isSome ∧ p.k.isSome ∧ p.lin.isSome ∧ p.nonlin.isSome

/-- What a file keeps of a parameter: no description, and the probe of nuisance parameters only. The flag comes back as a
numpy value. -/
def parKept (p : Param.Par A) : Param.Par A :=
  { p with description := [], probe := if p.kind = .nuisance then p.probe else none, numpyFlag := true }

/-- A cosmology that can be saved and read: evaluated on a grid, with parameters under different names, of which those of
nuisance have a probe. -/
structure Cosmo.Complete (c : Cosmo A) (ps : Dict Str (Param.Par A)) : Prop where
  flat : c.flat.isSome
  model : c.model.isSome
  grid : c.grid.isSome
  pars : c.pars = some ps
  names : (ps.map (·.1)).Nodup
  probes : ∀ i ∈ ps, i.2.kind = .nuisance → i.2.probe.isSome

/-- The parameters as they are in the file, ordered by name. -/
def parsKept (ps : Dict Str (Param.Par A)) : Dict Str (Param.Par A) :=
  (Stored.byName ps).map (fun i => (i.1, parKept i.2))

end Seyfert.CosmoFile
