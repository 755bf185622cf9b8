import Verif.Model.ClDerivative
import Verif.Model.Background

/-!
The other way of `compute_cls_variations` (`seyfert/main/cl_core.py` L82-105, `compute_pmm=True`), in which the power spectra of the
displaced parameters are computed and not read, and the jobs which write the files that are read otherwise (`bin/compute_pmm`).

Simplified: what a cosmology holds besides its parameters, the power spectra and the quantities on the grid of redshifts, is a
function of parameters and flatness; a second computation gives the same. The checks of the constructor are those of
`Model/Background.lean`.
-/

namespace Seyfert.ClDirect

open Param (Coll Par)
open ClDer (Cosmo Cls Store Theory)

variable {S : Type}

/-- The exceptions: those of `Model/ClDerivative.lean` and those of the constructor (`cosmology.py` L71-74, L186-199). -/
inductive Err where
  | old (e : ClDer.Err)
  | cosmology (e : Background.Err)

/-- The computation of the power spectra, from parameters and flatness (`cosmology.py`, `evaluatePowerSpectrum` and
`evaluateOverRedshiftGrid`, called in `cl_core.py` L95-97 and `bin/compute_pmm` L43-44). -/
abbrev Power (S : Type) := List (Str × Par ℚ) → Bool → Except ClDer.Err S

/-- `cosmological_parameters` (`parameter.py` L161-163). -/
def cosmoPars (c : Coll ℚ) : List (Str × Par ℚ) := c.pars.filter (fun q => decide (q.2.kind = .cosmo))

/-- A new `Cosmology` with its power spectra (`cosmology.py` L58-74; `cl_core.py` L92-97, `bin/compute_pmm` L41-44). -/
def make (power : Power S) (pars : List (Str × Par ℚ)) (flat : Option Bool) : Except Err (Cosmo ℚ S) :=
  match Background.create (some (pars.map fun q => (q.1, (q.2.fiducial, q.2.current)))) flat with
  | .error e => .error (.cosmology e)
  | .ok _ =>
    match power pars (flat.getD false) with
    | .error e => .error (.old e)
    | .ok s => .ok ⟨pars, s⟩

/-- What the job for a parameter and a step writes (`bin/compute_pmm` L38-47): the flatness is that of the run. -/
def pmmJob (power : Power S) (c : Coll ℚ) (dvar : Str) (step : Int) : Except Err (Cosmo ℚ S) :=
  match Param.update c dvar step with
  | (_, some e) => .error (.old (.par e))
  | (c', none) => make power (cosmoPars c') c'.flat

/-- The loop of `compute_cls_variations` with `compute_pmm=True` (`cl_core.py` L86-103): the universe is taken to be flat (L93). -/
def directLoop (th : Theory ℚ S) (power : Power S) (fid : Cosmo ℚ S) (dvar : Str) :
    Coll ℚ → List Int → Coll ℚ × Except Err (List (Int × Cls ℚ))
  | c, [] => (c, .ok [])
  | c, s :: rest =>
    match Param.update c dvar s with
    | (c', some e) => (c', .error (.old (.par e)))
    | (c', none) =>
      match make power (cosmoPars c') (some true) with
      | .error e => (c', .error e)
      | .ok cosmo =>
        match th cosmo fid c'.pars with
        | .error e => (c', .error (.old e))
        | .ok cls =>
          match directLoop th power fid dvar (Param.reset c') rest with
          | (c'', .error e) => (c'', .error e)
          | (c'', .ok l) => (c'', .ok ((s, cls) :: l))

end Seyfert.ClDirect
