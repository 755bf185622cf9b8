import Mathlib.Algebra.Order.Field.Basic
import Verif.Model.Fisher

/-!
Model of the files of Fisher matrices (`fisher_matrix.py` L313-378), of result tables
(`utils/table_utils.py`) and of relative errors (`fisher_analysis.py` L257-266).
-/

namespace Seyfert.Fisher

variable {N K : Type} [LinearOrder N] [Field K] [DecidableEq K]

/-- The character replacement of `getFilename` (fisher_matrix.py L314-318). -/
def fileChar (c : Char) : Char :=
  if c = '[' ∨ c = ']' ∨ c = '(' ∨ c = ')' ∨ c = ' ' then '_' else if c = ',' then '-' else c

/-- `re.sub(r"_+", "_", s)`. For `fisher_matrix.py` L313-321 (see `fileName`). -/
def collapse : Str → Str
  | [] => []
  | '_' :: '_' :: r => collapse ('_' :: r)
  | c :: r => c :: collapse r

/-- `s.strip("_")`. For `fisher_matrix.py` L313-321 (see `fileName`). -/
def stripUnderscore (s : Str) : Str :=
  ((s.dropWhile (· == '_')).reverse.dropWhile (· == '_')).reverse

/-- `getFilename` (`fisher_matrix.py` L313-321). -/
def fileName (name : Str) : Str :=
  "fisher_".toList ++ collapse (stripUnderscore (name.map fileChar)) ++ ".hdf5".toList

/-- Content of a Fisher file: the datasets written at L343-352. -/
structure FisherFile (N K : Type) where
  name : Str
  indices : List N
  data : List (List K)
  cosmo : List N
  nuis : Option (List N)

/-- A file system as far as Fisher files are concerned. For `fisher_matrix.py` L323-353 (see `writeFisher`). -/
abbrev Disk (N K : Type) := Str → Option (FisherFile N K)

/-- The exceptions of reading and writing (`fisher_matrix.py` L313-378). -/
inductive IOErr where
  | fisherError    -- FisherMatrixError
  | fileExists     -- FileExistsError
  | notFound
  | valueError
deriving DecidableEq

/-- The datasets written for an object (`fisher_matrix.py` L341-353). -/
def FM.toFile (en : Finset N → List N) (F : FM N K) : FisherFile N K where
  name := F.name
  indices := F.matrix.rows
  data := F.matrix.rows.map (fun a => F.matrix.cols.map (fun b => F.matrix.val a b))
  cosmo := en F.cosmo
  nuis := if (en F.nuis).length > 0 then some (en F.nuis) else none

/-- Entry of a rectangular list of lists. For `fisher_matrix.py` L357-366 (see `FisherFile.toFM`). -/
def cell (data : List (List K)) (i j : Nat) : K := ((data[i]?).bind (fun r => r[j]?)).getD 0

/-- The object filled by `loadFromFile` for HDF5 (`fisher_matrix.py` L357-366), starting from a new object: a missing
dataset of nuisance parameters means none.  Strings are read back as strings, as in h5py 2. -/
def FisherFile.toFM (f : FisherFile N K) : FM N K where
  matrix := ⟨f.indices, f.indices,
    fun a b => cell f.data (f.indices.idxOf a) (f.indices.idxOf b)⟩
  name := f.name
  cosmo := f.cosmo.toFinset
  nuis := match f.nuis with
    | some l => l.toFinset
    | none => ∅

/-- `loadFromFile` for HDF5 (`fisher_matrix.py` L355-366); `DataFrame(data, index, columns)` raises `ValueError` if the
shapes do not fit. -/
def FisherFile.load (f : FisherFile N K) : Except IOErr (FM N K) :=
  if f.data.length = f.indices.length ∧ ∀ r ∈ f.data, r.length = f.indices.length then .ok f.toFM
  else .error .valueError

/-- The path chosen at L325-331; `none` when neither argument is given. -/
def outPath (outdir outfile : Option Str) (name : Str) : Option Str :=
  match outfile with
  | none => outdir.map (fun d => d ++ "/".toList ++ fileName name)
  | some f => some f

/-- `writeToFile` (`fisher_matrix.py` L323-353).  The directory is taken to exist and to be writable. -/
def writeFisher (en : Finset N → List N) (disk : Disk N K) (outdir outfile : Option Str)
    (overwrite skip : Bool) (F : FM N K) : Disk N K × Except IOErr Unit :=
  match outPath outdir outfile F.name with
  | none => (disk, .error .fisherError)
  | some p =>
    if (disk p).isSome ∧ skip then (disk, .ok ())
    else if (disk p).isSome ∧ ¬ overwrite then (disk, .error .fileExists)
    else (fun q => if q = p then some (F.toFile en) else disk q, .ok ())

/-- `fromHDF5` (`fisher_matrix.py` L380-385): h5py raises if the file does not exist. -/
def loadFisher (disk : Disk N K) (p : Str) : Except IOErr (FM N K) :=
  match disk p with
  | none => .error .notFound
  | some f => f.load

/-- `saveFishersToDisk` (fisher_analysis.py L228-231). -/
def saveAll (en : Finset N → List N) (outdir : Str) (overwrite : Bool) :
    Disk N K → List (FM N K) → Disk N K × Except IOErr Unit
  | disk, [] => (disk, .ok ())
  | disk, F :: Fs =>
    match writeFisher en disk (some outdir) none overwrite false F with
    | (d, .error e) => (d, .error e)
    | (d, .ok _) => saveAll en outdir overwrite d Fs

/-- `write_dataframe_table` (table_utils.py L9-20) for a table written as `T`; only the suffix of the
name decides the format. -/
def writeTable {T : Type} (files : Str → Option T) (path suffix : Str) (overwrite : Bool) (t : T) :
    (Str → Option T) × Except IOErr Unit :=
  if (files path).isNone ∨ ((files path).isSome ∧ overwrite) then
    if suffix = ".csv".toList ∨ suffix = ".xlsx".toList then
      (fun q => if q = path then some t else files q, .ok ())
    else (files, .error .valueError)
  else (files, .ok ())

section
variable {K : Type} [Field K] [LinearOrder K] [IsStrictOrderedRing K]

/-- The denominator of a relative error (fisher_analysis.py L258-260). -/
def relDen (fids : List (N × K)) (p : N) : Option K :=
  (fids.lookup p).map (fun v => if v ≠ 0 then v else 1)

/-- One entry of `evaluateRelativeMarginalizedErrors` (`fisher_analysis.py` L257-266): `none` is NaN, the result of
aligning an error with a missing fiducial or a fiducial with a missing error. -/
def relErr (fids errs : List (N × K)) (p : N) : Option K :=
  match errs.lookup p, relDen fids p with
  | some e, some d => some |e / d|
  | _, _ => none

/-- The figure of merit column (`fisher_analysis.py` L263-266). -/
def relFom (fom : K) : K := |fom / 1|

end

end Seyfert.Fisher
