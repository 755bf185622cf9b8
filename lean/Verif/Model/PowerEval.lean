import Verif.Model.Boltzmann

/-!
Model of the computation of the matter power spectrum: objects `PowerSpectrum` (`seyfert/cosmology/power_spectrum.py` L21-96)
with their configuration, parameters and solver (`seyfert/cosmology/boltzmann_solver.py` L27-275), the ini files, and
`Cosmology.evaluatePowerSpectrum` (`seyfert/cosmology/cosmology.py` L222-232), over any history of calls and changes.

Objects, dictionaries of parameters and configurations are known by numbers, as several objects can share them. The codes CAMB
and CLASS are functions (`Lib`). Numbers are elements of an ordered field. That the directory of a file is missing or can
not be written is not modelled.
-/

namespace Seyfert.PowerEval
open Boltzmann (readIni writeIni updatedIni cambGroups cambBasis)

/-- Where a file is: its directory and its name (`workdir / name`, `boltzmann_solver.py` L65). -/
structure Loc where
  dir : List Str
  name : Str
  deriving DecidableEq

/-- The texts of the files (`boltzmann_solver.py` L78-82, L125-141). -/
abbrev Files := Loc → Option Str

/-- The settings of CAMB used (`boltzmann_solver.py` L61-62). -/
structure CambSet (K : Type) where
  kMax : K
  perLog : Nat

/-- The settings of CLASS (`boltzmann_solver.py` L205-207). -/
structure ClassSet (K : Type) where
  kMax : K
  kMin : K
  nK : Nat

/-- `PowerSpectrumConfig` (`main_config.py` L41-106) by what is used of it: the redshifts (L70-71), the code (L78-79), the
settings of the two codes, if they are there, and the name of the ini file of CAMB. -/
structure Cfg (K : Type) where
  zGrid : List K
  code : Str
  camb : Option (CambSet K × Str)
  cls : Option (ClassSet K)

/-- What is asked of CAMB after it has read an ini file (`boltzmann_solver.py` L90-117, L131-135): σ₈ today, and for a group of
redshifts the wave numbers, the two spectra and the transfer function. -/
structure Camb (K : Type) where
  sigma8 : K
  k : CambSet K → List K → List K
  lin : CambSet K → List K → List (List K)
  nonlin : CambSet K → List K → List (List K)
  transfer : CambSet K → List K → List K

/-- The parameters handed to CLASS which are not fixed (`computeCLASSCosmologicalBasis`, `boltzmann_solver.py` L225-246). -/
structure ClassPars (K : Type) where
  omegaB : K
  omegaCdm : K
  h : K
  sigma8 : K
  ns : K
  mnu : K
  kMax : K
  zMax : K
  w0 : K
  omegaK : K
  omegaFld : K
  wa : K

/-- What is asked of CLASS (`boltzmann_solver.py` L259, L264): the two spectra at a wave number and a redshift. -/
structure ClassRun (K : Type) where
  lin : K → K → K
  nonlin : K → K → K

/-- The installation: conversion of numbers (`float`, `str`, `boltzmann_solver.py` L81, L129, L138), the directory of the
configurations (`main_config.py` L102-103), `round(·, 6)` (L223), `np.logspace` (L256), CAMB for the text of an ini file and
CLASS for parameters; `none`: the code raises an exception. -/
structure Lib (K : Type) where
  num : Str → Option K
  str : K → Str
  config : List Str
  round6 : K → K
  logspace : K → K → Nat → List K
  camb : Str → Option (Camb K)
  cls : ClassPars K → Option (ClassRun K)

/-- The exceptions: missing entries or parameters, `None` used as an object, a missing file, a text which is no number, a
division by zero, no redshifts, an exception of the code; `running`: the tuning has not ended in the given number of
rounds (`boltzmann_solver.py` L58-275). -/
inductive Err where
  | keyError | attributeError | fileNotFound | valueError | zeroDivision | indexError | code | running
  deriving DecidableEq

/-- The kind of a solver and what its constructor keeps (`boltzmann_solver.py` L59-65, L203-207). -/
inductive Kind (K : Type) where
  | camb (s : CambSet K) (ref ini : Loc)
  | cls (s : ClassSet K)

/-- A solver (`boltzmann_solver.py` L37-47): its parameters by reference, its redshifts, and what has been computed. -/
structure Solver (K : Type) where
  kind : Kind K
  pars : Nat
  z : List K
  k : Option (List K) := none
  transfer : Option (List K) := none
  lin : Option (List (List K)) := none
  nonlin : Option (List (List K)) := none

/-- The spectra which an object holds (`power_spectrum.py` L55-59, L88-96). -/
structure Spectra (K : Type) where
  z : Option (List K) := none
  k : Option (List K) := none
  lin : Option (List (List K)) := none
  nonlin : Option (List (List K)) := none
  transfer : Option (List K) := none

/-- `PowerSpectrum` (`power_spectrum.py` L42-63). -/
structure Obj (K : Type) where
  cfg : Option Nat
  pars : Nat
  code : Str
  solver : Option (Solver K)
  spec : Spectra K

variable {K : Type} [Field K] [LinearOrder K]

/-- `cosmo_pars_current[name]`, `cosmological_parameters[name].current_value` (`boltzmann_solver.py` L148-152, L126). -/
def par (d : Dict Str K) (n : Str) : Except Err K :=
  match d.lookup n with
  | none => .error .keyError
  | some x => .ok x

/-- `computeCAMBCosmologicalBasis` (`boltzmann_solver.py` L143-168) with the values as texts (L81). -/
def basis (lib : Lib K) (d : Dict Str K) : Except Err (Dict Str Str) := do
  let h ← par d "h".toList
  let omm ← par d "Omm".toList
  let omb ← par d "Omb".toList
  let mnu ← par d "mnu".toList
  let omde ← par d "OmDE".toList
  let w0 ← par d "w0".toList
  let wa ← par d "wa".toList
  let ns ← par d "ns".toList
  let b := cambBasis ⟨h, omm, omb, mnu, omde⟩
  return [("hubble".toList, lib.str b.hubble), ("w".toList, lib.str w0), ("wa".toList, lib.str wa),
    ("scalar_spectral_index".toList, lib.str ns), ("omch2".toList, lib.str b.omch2), ("ombh2".toList, lib.str b.ombh2),
    ("omnuh2".toList, lib.str b.omnuh2), ("omk".toList, lib.str b.omk)]

/-- The entry of the amplitude (`boltzmann_solver.py` L129, L138). -/
def ampKey : Str := "scalar_amp".toList

/-- The tolerance (`boltzmann_solver.py` L130). -/
def tol : K := 1 / 10 ^ 12

/-- The loop of `finetuneScalarAmpFromSigma8` (`boltzmann_solver.py` L130-141): the text of the file at its end, and the
exception. `ev` is `sigma8_eval`. With numbers of NumPy a division by zero gives infinity, which is not modelled. -/
def tuneLoop (lib : Lib K) (s8 : K) : Nat → K → K → Dict Str Str → Str → Str × Option Err
  | 0, _, _, _, text => (text, some .running)
  | n + 1, ev, amp, d, text =>
    if s8 = 0 then (text, some .zeroDivision)
    else if tol < |(s8 - ev) / s8| then
      match lib.camb text with
      | none => (text, some .code)
      | some c =>
        if c.sigma8 = 0 then (text, some .zeroDivision)
        else
          let amp' := amp * (s8 / c.sigma8) ^ 2
          let d' := PyDict.set d ampKey (lib.str amp')
          tuneLoop lib s8 n c.sigma8 amp' d' (writeIni d')
    else (text, none)

/-- `finetuneScalarAmpFromSigma8` (`boltzmann_solver.py` L125-141) on the text of the ini file. -/
def finetune (lib : Lib K) (rounds : Nat) (d : Dict Str K) (text : Str) : Str × Option Err :=
  match par d "sigma8".toList with
  | .error e => (text, some e)
  | .ok s8 => match (readIni text).lookup ampKey with
    | none => (text, some .keyError)
    | some a => match lib.num a with
      | none => (text, some .valueError)
      | some amp => tuneLoop lib s8 rounds 10 amp (readIni text) text

/-- `run` of CAMB (`boltzmann_solver.py` L84-123): the groups one after the other; the wave numbers and the transfer function are
kept if they are already there. -/
def cambRun (lib : Lib K) (s : CambSet K) (text : Str) (v : Solver K) : Except Err (Solver K) :=
  match cambGroups v.z with
  | .error _ => .error .valueError
  | .ok gs => match lib.camb text with
    | none => .error .code
    | some c => .ok { v with
        k := v.k.or (gs.head?.map (c.k s))
        transfer := v.transfer.or (gs.head?.map (c.transfer s))
        lin := some (gs.map (c.lin s)).flatten
        nonlin := some (gs.map (c.nonlin s)).flatten }

/-- `computeCLASSCosmologicalBasis` (`boltzmann_solver.py` L209-248). -/
def classPars (lib : Lib K) (s : ClassSet K) (z : List K) (d : Dict Str K) : Except Err (ClassPars K) := do
  let h ← par d "h".toList
  let omm ← par d "Omm".toList
  let omb ← par d "Omb".toList
  let mnu ← par d "mnu".toList
  let omde ← par d "OmDE".toList
  let s8 ← par d "sigma8".toList
  if h = 0 then throw .zeroDivision
  let ns ← par d "ns".toList
  let zMax ← match z.getLast? with
    | none => throw .indexError
    | some x => pure x
  let w0 ← par d "w0".toList
  let wa ← par d "wa".toList
  return ⟨omb, omm - omb - mnu / (9314 / 100 * h * h), h, s8, ns, mnu, s.kMax, zMax, w0, lib.round6 (1 - omm - omde), omde, wa⟩

/-- `run` of CLASS (`boltzmann_solver.py` L250-269). -/
def classRun (lib : Lib K) (s : ClassSet K) (d : Dict Str K) (v : Solver K) : Except Err (Solver K) :=
  match classPars lib s v.z d with
  | .error e => .error e
  | .ok p => match lib.cls p with
    | none => .error .code
    | some c =>
      let ks := lib.logspace s.kMin s.kMax s.nK
      .ok { v with
        k := some ks
        lin := some (v.z.map fun z => ks.map fun k => c.lin k z)
        nonlin := some (v.z.map fun z => ks.map fun k => c.nonlin k z) }

/-- A file is written whole (`boltzmann_solver.py` L186-188, L139-141). -/
def put (f : Files) (l : Loc) (t : Str) : Files := fun l' => if l' = l then some t else f l'

/-- `evaluateLinearAndNonLinearPowerSpectra` of the solvers (`boltzmann_solver.py` L67-76, L271-275): the files, the solver,
the exception. -/
def solve (lib : Lib K) (rounds : Nat) (d : Dict Str K) (f : Files) (v : Solver K) : Files × Solver K × Option Err :=
  match v.kind with
  | .cls s => match classRun lib s d v with
    | .error e => (f, v, some e)
    | .ok v' => (f, v', none)
  | .camb s ref ini => match basis lib d with
    | .error e => (f, v, some e)
    | .ok b => match f ref with
      | none => (f, v, some .fileNotFound)
      | some t =>
        let r := finetune lib rounds d (updatedIni t b)
        match r.2 with
        | some e => (put f ini r.1, v, some e)
        | none => match cambRun lib s r.1 v with
          | .error e => (put f ini r.1, v, some e)
          | .ok v' => (put f ini r.1, v', none)

/-- What there is: configurations, dictionaries of parameters, files, objects (`power_spectrum.py` L42-63). -/
structure World (K : Type) where
  cfgs : Nat → Cfg K
  pars : Nat → Dict Str K
  files : Files
  objs : Nat → Option (Obj K)

/-- The solver made for a known code (`power_spectrum.py` L75-84, constructors `boltzmann_solver.py` L37-65, L203-207); `none`:
the code is unknown and no solver is made. -/
def makeSolver (lib : Lib K) (w : World K) (o : Obj K) (dir : List Str) : Option (Except Err (Solver K)) :=
  if o.code = "CAMB".toList then some (match o.cfg with
    | none => .error .attributeError
    | some c => match (w.cfgs c).camb with
      | none => .error .keyError
      | some (s, n) => .ok { kind := .camb s ⟨lib.config, n⟩ ⟨dir, n⟩, pars := o.pars, z := (w.cfgs c).zGrid })
  else if o.code = "CLASS".toList then some (match o.cfg with
    | none => .error .attributeError
    | some c => match (w.cfgs c).cls with
      | none => .error .keyError
      | some s => .ok { kind := .cls s, pars := o.pars, z := (w.cfgs c).zGrid })
  else none

/-- `getResultsFromMatterPowerGenerator` (`power_spectrum.py` L88-96). -/
def results (v : Solver K) : Spectra K := ⟨some v.z, v.k, v.lin, v.nonlin, v.transfer⟩

/-- An object is replaced. For `power_spectrum.py` L85-86 (see `evaluateWith`). -/
def World.setObj (w : World K) (i : Nat) (o : Obj K) : World K :=
  { w with objs := fun j => if j = i then some o else w.objs j }

/-- The end of `evaluateLinearAndNonLinearPowerSpectra` (`power_spectrum.py` L85-86) with a solver. -/
def evaluateWith (lib : Lib K) (rounds : Nat) (w : World K) (i : Nat) (o : Obj K) (v : Solver K) : World K × Option Err :=
  let r := solve lib rounds (w.pars v.pars) w.files v
  ({ w with files := r.1 }.setObj i
    { o with solver := some r.2.1, spec := if r.2.2 = none then results r.2.1 else o.spec }, r.2.2)

/-- `evaluateLinearAndNonLinearPowerSpectra(workdir)` (`power_spectrum.py` L71-86). With an unknown code the solver of an
earlier call is used, or `None`. -/
def evaluate (lib : Lib K) (rounds : Nat) (w : World K) (i : Nat) (dir : List Str) : World K × Option Err :=
  match w.objs i with
  | none => (w, some .attributeError)
  | some o => match makeSolver lib w o dir with
    | some (.error e) => (w, some e)
    | some (.ok v) => evaluateWith lib rounds w i o v
    | none => match o.solver with
      | none => (w, some .attributeError)
      | some v => evaluateWith lib rounds w i o v

/-- The constructor (`power_spectrum.py` L42-63). -/
def create (w : World K) (c : Option Nat) (p : Nat) : Obj K :=
  match c with
  | none => ⟨none, p, "CLASS".toList, none, {}⟩
  | some j => ⟨some j, p, (w.cfgs j).code, none, { z := some (w.cfgs j).zGrid }⟩

/-- What can happen: an object is made, an attribute of it is set, a configuration or a dictionary of parameters is changed, a
file is written or removed, spectra are computed, or `Cosmology.evaluatePowerSpectrum` is called, whose power spectrum is the
object `i` (`cosmology.py` L222-232). -/
inductive Op (K : Type) where
  | new (i : Nat) (c : Option Nat) (p : Nat)
  | setCode (i : Nat) (s : Str)
  | usePars (i p : Nat)
  | useCfg (i : Nat) (c : Option Nat)
  | editCfg (c : Nat) (v : Cfg K)
  | editPars (p : Nat) (d : Dict Str K)
  | write (l : Loc) (t : Option Str)
  | evaluate (i : Nat) (dir : List Str) (rounds : Nat)
  | cosmology (i : Nat) (c p : Nat) (dir : List Str) (rounds : Nat)

/-- One of these (`power_spectrum.py` L42-96, `cosmology.py` L231-232). -/
def step (lib : Lib K) (w : World K) : Op K → World K × Option Err
  | .new i c p => (w.setObj i (create w c p), none)
  | .setCode i s => match w.objs i with
    | none => (w, some .attributeError)
    | some o => (w.setObj i { o with code := s }, none)
  | .usePars i p => match w.objs i with
    | none => (w, some .attributeError)
    | some o => (w.setObj i { o with pars := p }, none)
  | .useCfg i c => match w.objs i with
    | none => (w, some .attributeError)
    | some o => (w.setObj i { o with cfg := c }, none)
  | .editCfg c v => ({ w with cfgs := fun j => if j = c then v else w.cfgs j }, none)
  | .editPars p d => ({ w with pars := fun j => if j = p then d else w.pars j }, none)
  | .write l t => ({ w with files := fun l' => if l' = l then t else w.files l' }, none)
  | .evaluate i dir rounds => evaluate lib rounds w i dir
  | .cosmology i c p dir rounds => evaluate lib rounds (w.setObj i (create w (some c) p)) i dir

/-- Any number of them; exceptions are caught by the caller. For `power_spectrum.py` L42-96 (see `step`). -/
def steps (lib : Lib K) (w : World K) (l : List (Op K)) : World K := l.foldl (fun w op => (step lib w op).1) w

end Seyfert.PowerEval
