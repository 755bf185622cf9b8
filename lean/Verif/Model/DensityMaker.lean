import Verif.Model.Stored

/-!
Model of `bin/create_h5density`, which writes the file of a redshift density from an archive of arrays, and of the way the
programs of a forecast take such a file up again: `RedshiftDensity.fromHDF5`, `setUp`, `evaluate` and
`evaluateSurfaceDensity` (`seyfert/cosmology/redshift_density.py`, called from `seyfert/main/cl_core.py` L42-52,
`seyfert/main/seyfert_core.py` L65-78 and `seyfert/seyfert.py` L104-120). The arguments are those `argparse` has read. The
dates and the author written at `/` are left out, as in `Model/Stored.lean`; what is printed is left out too.
-/

namespace Seyfert.DMake
open H5 (Path File)
open Stored (Val Dens N)

variable {A : Type}

/-- What Python makes of a text (`float(...)`: `none` is a `ValueError`; `eval(...)`: `none` is an exception, `some none` an
object other than a number), and how the numbers written in the program look as arrays. For L11-30 (see `responses`). -/
structure Py (A : Type) where
  float : Str → Option A
  eval : Str → Option (Option A)
  num : Rat → A

/-- The arguments of `create_h5density` (L33-52). `archive` is what `np.load` finds in the file, `none` if it cannot be read. -/
structure Args (A : Type) where
  probe : Str
  response : Str
  hasNiz : Bool
  archive : Option (Dict Str A)
  fSky : Str
  outfile : Option Str

/-- The exceptions of the functions modelled here, by their kinds (`bin/create_h5density`). For L62-66 (see `readSky`). -/
inductive Err
  | assertion
  | noArchive
  | evalError
  | keyError
  | saving (e : Stored.Err)
  deriving DecidableEq, Repr

/-- `PROBES_LONG_NAMES` (`seyfert/__init__.py` L5). -/
def longNames : List Str :=
  ["PhotometricGalaxy".toList, "SpectroscopicGalaxy".toList, "Lensing".toList, "Void".toList]

/-- `default_instrument_responses` (L11-30). -/
def responses (py : Py A) : Dict Str (Dict Str A) :=
  [("phz".toList, [("f_out".toList, py.num (1 / 10)), ("z_o".toList, py.num (1 / 10)), ("z_b".toList, py.num 0),
      ("sigma_o".toList, py.num (5 / 100)), ("sigma_b".toList, py.num (5 / 100)), ("c_o".toList, py.num 1),
      ("c_b".toList, py.num 1)]),
   ("spz".toList, [("f_out".toList, py.num 0), ("z_o".toList, py.num (1 / 10)), ("z_b".toList, py.num 0),
      ("sigma_o".toList, py.num (5 / 100)), ("sigma_b".toList, py.num (1 / 1000)), ("c_o".toList, py.num 1),
      ("c_b".toList, py.num 1)])]

/-- The sky fraction (L62-66): `float`, otherwise `eval`. -/
def readSky (py : Py A) (t : Str) : Except Err (Option A) :=
  match py.float t with
  | some a => .ok (some a)
  | none => match py.eval t with
    | none => .error .evalError
    | some v => .ok v

/-- `dens_data[name]`. For L55-87 (see `build`). -/
def array (d : Dict Str A) (n : Str) : Except Err A :=
  match d.lookup n with
  | none => .error .keyError
  | some a => .ok a

/-- The density `main` makes (L55-87), before it is saved. -/
def build (py : Py A) (a : Args A) : Except Err (Dens A) :=
  if a.probe ∈ longNames then
    match a.archive with
    | none => .error .noArchive
    | some d =>
      (readSky py a.fSky).bind fun fs =>
      (array d "z".toList).bind fun z =>
      (array d "z_bin_edges".toList).bind fun e =>
      if a.hasNiz then
        (array d "niz".toList).bind fun n =>
        .ok { probe := a.probe, fromInput := some true, domain := some z, edges := some e, fSky := fs, nIz := some n }
      else
        (array d "dndzdomega_invsterad".toList).bind fun n =>
        match (responses py).lookup a.response with
        | none => .error .keyError
        | some r =>
          .ok { probe := a.probe, fromInput := some false, domain := some z, edges := some e, fSky := fs, dN := some n,
                response := r }
  else .error .assertion

/-- The output file (L68-70). -/
def outName (a : Args A) : Str :=
  match a.outfile with
  | none => a.probe ++ "_density.h5".toList
  | some o => o

/-- The files of densities by name (`redshift_density.py` L53-60). -/
abbrev Files (A : Type) := Dict Str (File (Val A))

/-- `saveToHDF5` of a density to a path (`redshift_density.py` L58-60, `hdf5_io.py` L120-124): to the file which is there, or
to a new one. -/
def save (fs : Files A) (out : Str) (d : Dens A) : Except Err Unit × Files A :=
  let r := Stored.runOps ((fs.lookup out).getD File.empty) (Stored.saveDens [] d)
  (match r.1 with | .ok () => .ok () | .error e => .error (.saving e), PyDict.set fs out r.2)

/-- `main` (L55-91): the result, and the files afterwards. -/
def main (py : Py A) (fs : Files A) (a : Args A) : Except Err Unit × Files A :=
  match build py a with
  | .error e => (.error e, fs)
  | .ok d => save fs (outName a) d

/-! ### Taking the file up again -/

/-- The exceptions when a stored density is used (`redshift_density.py` L62-108, L194-199). -/
inductive UseErr
  | noFile
  | reading (e : Stored.Err)
  | keyError
  | typeError
  deriving DecidableEq, Repr

/-- What the numerical libraries compute: the number of bins of the edges, the surface density of a bin taken from an array or
by integration. For L194-199 (see `surfaceAt`). -/
structure Nums (A : Type) where
  nBins : A → Nat
  item : A → Nat → A
  quad : A → A → Nat → A

/-- The two sets of parameters of the instrument (`setUp`, `redshift_density.py` L88-102), as amplitude factor, mean, width and
slope of the good and of the catastrophic fraction. -/
structure Fractions (A : Type) where
  fOut : A
  zB : A
  sigmaB : A
  cB : A
  zO : A
  sigmaO : A
  cO : A
  deriving DecidableEq

/-- `self.instrument_response[name]` (`redshift_density.py` L88-105). -/
def entry (r : Dict Str A) (n : Str) : Except UseErr A :=
  match r.lookup n with
  | none => .error .keyError
  | some a => .ok a

/-- `setUp` (L88-105) without the interpolation and the integrals: `none` if the density was given bin by bin. -/
def setUp (d : Dens A) : Except UseErr (Option (Fractions A)) :=
  if d.fromInput = some true then .ok none
  else
    (entry d.response "f_out".toList).bind fun fo =>
    (entry d.response "z_b".toList).bind fun zb =>
    (entry d.response "sigma_b".toList).bind fun sb =>
    (entry d.response "c_b".toList).bind fun cb =>
    (entry d.response "z_o".toList).bind fun zo =>
    (entry d.response "sigma_o".toList).bind fun so =>
    (entry d.response "c_o".toList).bind fun co =>
    .ok (some ⟨fo, zb, sb, cb, zo, so, co⟩)

/-- `computeSurfaceDensityAtBin` (L194-199): `None[i]` is a `TypeError`. -/
def surfaceAt (nu : Nums A) (d : Dens A) (e : A) (i : Nat) : Except UseErr A :=
  if d.fromInput = some true then match d.surface with
    | none => .error .typeError
    | some s => .ok (nu.item s i)
  else match d.dN with
    | none => .error .typeError
    | some n => .ok (nu.quad n e i)

/-- The surface densities of the bins, one after the other (`redshift_density.py` L107-108). -/
def surfaces (nu : Nums A) (d : Dens A) (e : A) : List Nat → Except UseErr (List A)
  | [] => .ok []
  | i :: is => (surfaceAt nu d e i).bind fun x => (surfaces nu d e is).bind fun l => .ok (x :: l)

/-- `evaluateSurfaceDensity` (L107-108) over the bins of the edges (L76-82). -/
def evaluateSurface (nu : Nums A) (d : Dens A) : Except UseErr (List A) :=
  match d.edges with
  | none => .error .typeError
  | some e => surfaces nu d e (List.range (nu.nBins e))

/-- `RedshiftDensity.fromHDF5(file)` (L53-56, L210-217). -/
def fromFile (fs : Files A) (p : Str) : Except UseErr (Dens A) :=
  match fs.lookup p with
  | none => .error .noFile
  | some f => match Stored.readDens (Stored.view f []) with
    | .ok d => .ok d
    | .error e => .error (.reading e)

/-- What a forecast does with the file of one probe (`cl_core.py` L45-49, `seyfert_core.py` L69-73, `seyfert.py` L109-114);
`evaluate` only adds the density on the grid and is left out. -/
def takeUp (nu : Nums A) (fs : Files A) (p : Str) : Except UseErr (Dens A × Option (Fractions A) × List A) :=
  (fromFile fs p).bind fun d => (setUp d).bind fun r => (evaluateSurface nu d).bind fun s => .ok (d, r, s)

end Seyfert.DMake
