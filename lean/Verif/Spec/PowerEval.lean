import Verif.Model.PowerEval
import Verif.Props.Ini

/-!
Specification for the computation of matter power spectra (C158).
-/

namespace Seyfert.PowerEval
open Boltzmann (readIni GoodValue)

variable {K : Type} [Field K] [LinearOrder K]

/-- The parameters needed. -/
def parNames : List Str := ["h".toList, "Omm".toList, "Omb".toList, "mnu".toList, "OmDE".toList, "w0".toList, "wa".toList,
  "ns".toList, "sigma8".toList]

/-- The codes there are. -/
def Known (s : Str) : Prop := s = "CAMB".toList ∨ s = "CLASS".toList

/-- The entries of an ini file which are given by the parameters. -/
def entry (p : Str → K) (n : Str) : Option K :=
  let h := p "h".toList
  if n = "hubble".toList then some (100 * h)
  else if n = "w".toList then some (p "w0".toList)
  else if n = "wa".toList then some (p "wa".toList)
  else if n = "scalar_spectral_index".toList then some (p "ns".toList)
  else if n = "omch2".toList then some (p "Omm".toList * h * h - p "Omb".toList * h * h - p "mnu".toList / (9314 / 100))
  else if n = "ombh2".toList then some (p "Omb".toList * h * h)
  else if n = "omnuh2".toList then some (p "mnu".toList / (9314 / 100))
  else if n = "omk".toList then some (1 - p "Omm".toList - p "OmDE".toList)
  else none

/-- What CLASS is to be given for parameters, settings and a largest redshift. -/
def classFor (round6 : K → K) (s : ClassSet K) (z : K) (p : Str → K) : ClassPars K where
  omegaB := p "Omb".toList
  omegaCdm := p "Omm".toList - p "Omb".toList - p "mnu".toList / (9314 / 100 * p "h".toList * p "h".toList)
  h := p "h".toList
  sigma8 := p "sigma8".toList
  ns := p "ns".toList
  mnu := p "mnu".toList
  kMax := s.kMax
  zMax := z
  w0 := p "w0".toList
  wa := p "wa".toList
  omegaK := round6 (1 - p "Omm".toList - p "OmDE".toList)
  omegaFld := p "OmDE".toList

/-- The ini file has, apart from the amplitude, the entries for the parameters and otherwise those of the reference file. -/
def IniFor (lib : Lib K) (p : Str → K) (ref text : Str) : Prop :=
  ∀ n, n ≠ "scalar_amp".toList → (readIni text).lookup n = ((entry p n).map lib.str).or ((readIni ref).lookup n)

/-- Numbers written are read back. -/
structure Regular (lib : Lib K) : Prop where
  num_str : ∀ x, lib.num (lib.str x) = some x
  good : ∀ x, GoodValue (lib.str x)

/-- CAMB computes the redshifts of a group one by one, and its wave numbers do not depend on them. -/
structure ByRedshift (c : Camb K) (s : CambSet K) : Prop where
  lin : ∀ g, c.lin s g = (g.map fun z => c.lin s [z]).flatten
  nonlin : ∀ g, c.nonlin s g = (g.map fun z => c.nonlin s [z]).flatten
  k : ∀ g g', c.k s g = c.k s g'

/-- Calls which compute the spectra of an object. -/
def Op.Computes (i : Nat) : Op K → Prop
  | .evaluate j _ _ => j = i
  | .cosmology j _ _ _ _ => j = i
  | _ => False

end Seyfert.PowerEval
