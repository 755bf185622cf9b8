import Verif.Model.ClDerivative

/-!
Specification of derivatives of spectra: the points through which the line is fitted.
-/

namespace Seyfert.ClDer

open Param (Coll Par)

variable {K S : Type} [Field K] [LinearOrder K]

/-- The steps `-n, ..., -1, 0, 1, ..., n`. -/
def allSteps (n : Nat) : List Int := (List.range (2 * n + 1)).map (fun i : Nat => (i : Int) - n)

/-- The displacement of a step: that of step `k > 0` is the `k`-th smallest of the base displacements,
that of `-k` its negative, that of `0` is zero. -/
def dispAt (base : List K) (s : Int) : K :=
  if s = 0 then 0
  else
    let d := ((base.insertionSort (· ≤ ·))[s.natAbs - 1]?).getD 0
    if s < 0 then -d else d

/-- The value of a parameter at a step: relative to the fiducial, or absolute if that is zero. -/
def valueAt (base : List K) (p : Par K) (s : Int) : K :=
  if p.fiducial = 0 then dispAt base s * p.stem else p.fiducial * (1 + dispAt base s * p.stem)

/-- The spectra of a parameter at a step; those at step zero are the fiducial ones. -/
def spectraAt (sp : Str → Int → Cls K) (dvar : Str) (s : Int) : Cls K :=
  if s = 0 then sp Param.central 0 else sp dvar s

/-- Entry `e` of the spectrum under a key. -/
def entry (cls : Cls K) (key : Str × Str) (e : Nat) : K :=
  ((cls.lookup key).map (fun s => s.vals.getD e 0)).getD 0

/-- The points for one entry: value of the parameter and entry of the spectrum, in the order of the
steps. -/
def points (base : List K) (p : Par K) (sp : Str → Int → Cls K) (dvar : Str) (key : Str × Str) (e : Nat) :
    List (K × K) :=
  (allSteps base.length).map (fun s => (valueAt base p s, entry (spectraAt sp dvar s) key e))

/-- A finished computation of all spectra of a run: every job wrote `sp`, and the directories are listed in
whatever order. -/
structure Finished (th : Theory K S) (store : Store K S) (c : Coll K) (n : Nat)
    (sp : Str → Int → Cls K) (dirs : List (Str × Cls K)) : Prop where
  central : clJob th store c (Names.jobDir Param.central 0) = .ok (sp Param.central 0)
  steps : ∀ q ∈ c.pars, q.2.free = true → q.2.method = Names.stem → ∀ s ∈ Param.stepNumbers n,
    clJob th store c (Names.jobDir q.1 s) = .ok (sp q.1 s)
  listed : ∃ jobs, Names.angularJobs c = some jobs ∧
    dirs.Perm (jobs.map (fun q => (Names.jobDir q.1 q.2, sp q.1 q.2)))

/-- All spectra have the same `m` entries under a key. -/
def Entries (sp : Str → Int → Cls K) (dvar : Str) (n : Nat) (key : Str × Str) (m : Nat) : Prop :=
  ∀ s ∈ allSteps n, ∃ t, (spectraAt sp dvar s).lookup key = some t ∧ t.vals.length = m

/-- A collection with positive displacements, whose parameters are named by letters and digits, each once,
and a free parameter of it. -/
structure Setting (c₀ : Coll K) (base : List K) (dvar : Str) (p : Par K) : Prop where
  pos : ∀ x ∈ base, 0 < x
  nodup : (c₀.pars.map (·.1)).Nodup
  good : ∀ q ∈ c₀.pars, q.1 ≠ [] ∧ ∀ x ∈ q.1, Names.isAlnum x = true
  mem : c₀.pars.lookup dvar = some p
  name : p.name = dvar
  free : p.free = true
  notCentral : dvar ≠ Param.central

/-- A spectrum can depend on the parameter: it is a cosmological one, or belongs to one of the two
probes. -/
def Relevant (p : Par K) (key : Str × Str) : Prop :=
  p.kind = .cosmo ∨ p.probe = some key.1 ∨ p.probe = some key.2

/-- The file of the cosmology for a parameter and a step: its own if it is a cosmological one, the central
one otherwise. -/
def fileFor (p : Par K) (dvar : Str) (s : Int) : Str × Int :=
  if p.kind = .cosmo then (dvar, s) else (Param.central, 0)

end Seyfert.ClDer
