import Verif.Model.ForecastLoad
import Verif.Spec.Keys

/-! Specification of what a configuration file of a forecast declares. -/

namespace Seyfert.FLoad

open Param (Par Args Coll construct)
open Keys (Probe)

variable {K : Type}

/-- A file with one entry for each of the given probes, under the alias of the probe. -/
def Lists (j : Json K) (ps : List (Probe × PDict K)) : Prop :=
  j.probes = ps.map (fun q => (q.1.name .alias, q.2)) ∧ (ps.map (·.1)).Nodup

/-- The entries that are switched on. -/
def on (ps : List (Probe × PDict K)) : List (Probe × PDict K) := ps.filter (fun q => q.2.present)

/-- The nuisance parameter that a probe has for an entry of its bias file: free if the bias is marginalised over,
varied with the method of the configuration or else with `SteM`. -/
def biasPar [One K] (p : Probe) (free : Bool) (method : Option Str) (kv : Str × K) : Par K :=
  { name := kv.1, fiducial := kv.2, current := kv.2, kind := .nuisance, probe := some (p.name .long), free := free,
    numpyFlag := false, stem := 1, description := [], units := "None".toList, method := method.getD "SteM".toList }

/-- The bias parameters of a probe: none for lensing, and none if the flag is `null`. -/
def biasPars [One K] (q : Probe × PDict K) : List (Str × Par K) :=
  if q.1 = .lensing then []
  else match q.2.marg with
    | none => []
    | some m => q.2.bias.map (fun kv => (kv.1, biasPar q.1 m q.2.diff kv))

/-- The parameters of a list of parameter dictionaries. -/
def listed (l : List (Args K)) : List (Str × Par K) :=
  l.filterMap (fun a => (construct a).toOption.map (fun p => (p.name, p)))

/-- The nuisance parameters of one probe, in order. -/
def probeDeclared [One K] (q : Probe × PDict K) : List (Str × Par K) := biasPars q ++ listed (q.2.extra.getD [])

/-- All parameters, in order: the cosmological ones, then those of each probe switched on. -/
def declared [One K] (j : Json K) (ps : List (Probe × PDict K)) : List (Str × Par K) :=
  listed j.cosmo ++ (on ps).flatMap probeDeclared

/-- What has to be in order for the file to be read. -/
def Readable (isFile : Str → Bool) (j : Json K) (ps : List (Probe × PDict K)) : Prop :=
  (∀ s, j.shot = some s → isFile s = true) ∧ (∀ a ∈ j.cosmo, ∃ p, construct a = .ok p) ∧
    ∀ q ∈ on ps, (∃ g, q.2.grid = .ok g) ∧ ∀ a ∈ q.2.extra.getD [], ∃ p, construct a = .ok p

/-- The last value given for a name. -/
def lastOf (l : List (Str × Par K)) (k : Str) : Option (Par K) := l.reverse.lookup k

end Seyfert.FLoad
