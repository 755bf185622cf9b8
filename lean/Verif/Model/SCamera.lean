import Verif.Model.External
import Verif.Model.Stored

/-!
Conversion of the angular spectra of another code, and reading their derivatives
(`seyfert/file_io/ext_input.py` L118-206).  Line numbers without a file refer to it.  Directory listings come in any
order, which is a parameter.  The new directory of the conversion, named after the time, is not there before, and its
parent is (L119-122).
-/

namespace Seyfert.SCam

/-- The exceptions of the functions modelled here, by their kinds (`ext_input.py` L118-206). -/
inductive Err where
  | assertion | keyError | valueError | typeError | fileExists | noMatch
  | ext (e : Ext.Err)
  | stored (e : Stored.Err)
deriving DecidableEq

/-- A text file: whether its first line starts with `#`, the lines which do, the rows of numbers.
For `seyfert/file_io/ext_input.py` L180-182 (see `Src`). -/
structure Content where
  first : Bool
  header : List Str
  rows : List (ℚ × List ℚ)
deriving DecidableEq

/-- The files `*.dat` of the three directories (L180-182), as they are listed. -/
structure Src where
  ph : List (Str × Content)
  sp : List (Str × Content)
  xc : List (Str × Content)

/-- A cosmology: parameter and step. For `seyfert/file_io/ext_input.py` L184-189 (see `cosmoFiles`). -/
abbrev Key := Str × Int

/-- A long name of `SCAMERA_PROBE_MAP` (`ext_input.py` L40-42). -/
def phot : Str := "PhotometricGalaxy".toList
/-- A long name of `SCAMERA_PROBE_MAP` (`ext_input.py` L40-42). -/
def spec : Str := "SpectroscopicGalaxy".toList

/-- `SCAMERA_PROBE_MAP` (L39-43). -/
def probeMap : Dict Str (Str × Str) :=
  [("GCph".toList, (phot, phot)), ("GCsp".toList, (spec, spec)), ("XC".toList, (phot, spec))]

/-- `correct_ij_shapes` (L124). -/
def shapes : Dict Str (Nat × Nat) :=
  [("GCph".toList, (10, 10)), ("GCsp".toList, (4, 4)), ("XC".toList, (10, 4))]

/-- `get_cosmo_files_dict` (L184-189). -/
def cosmoFiles (c : Param.Coll ℚ) (d : Dict Key Content) : List (Str × Content) → Except Err (Dict Key Content)
  | [] => .ok d
  | (n, x) :: l => match Ext.parseIST c n with
    | .error e => .error (.ext e)
    | .ok k => cosmoFiles c (PyDict.set d k x) l

/-- `set(d) == set(d')`. For `seyfert/file_io/ext_input.py` L179-206 (see `build`). -/
def sameKeys (d d' : Dict Key Content) : Bool :=
  d.all (fun q => (d'.map (·.1)).contains q.1) && d'.all (fun q => (d.map (·.1)).contains q.1)

/-- `buildCosmoClsFilesDict` (L179-206). -/
def build (c : Param.Coll ℚ) (s : Src) : Except Err (Dict Key (Content × Content × Content)) :=
  match cosmoFiles c [] s.ph with
  | .error e => .error e
  | .ok ph => match cosmoFiles c [] s.sp with
    | .error e => .error e
    | .ok sp => match cosmoFiles c [] s.xc with
      | .error e => .error e
      | .ok xc =>
        if !sameKeys ph sp then .error .assertion
        else if !sameKeys ph xc then .error .assertion
        else .ok (ph.filterMap fun q => match sp.lookup q.1, xc.lookup q.1 with
          | some b, some x => some (q.1, q.2, b, x)
          | _, _ => none)

/-- Arrays: multipoles, and matrices for each multipole with their shape.
For `seyfert/file_io/ext_input.py` L136-138 (see `spectrum`). -/
inductive Arr where
  | ells (l : List ℚ)
  | cl (n m : Nat) (c : List (Nat → Nat → ℚ))

/-- What `readSCameraClFile` returns for a file of the spectra of `p1` and `p2` (L130-131, L168-170). -/
def table (p1 p2 : Str) (x : Content) : Except Err (List (ℚ × (Nat → Nat → ℚ) × Nat × Nat)) :=
  match Ext.readCl x.first x.header x.rows (p1 == p2) with
  | .error e => .error (.ext e)
  | .ok t => .ok t

/-- The spectrum with the arrays read (L136-138); its widths and its kernel are not set. -/
def spectrum (p1 p2 : Str) (shape : Nat × Nat) (t : List (ℚ × (Nat → Nat → ℚ) × Nat × Nat)) : Stored.Cl Arr :=
  { p1 := p1, p2 := p2, c := some (.cl shape.1 shape.2 (t.map (·.2.1))), ells := some (.ells (t.map (·.1))) }

/-- One turn of the inner loop (L129-139): the spectrum with its key, and the number of multipoles. -/
def readProbe (probe : Str) (x : Content) : Except Err ((Str × Stored.Cl Arr) × Nat) :=
  match probeMap.lookup probe, shapes.lookup probe with
  | some (p1, p2), some shape => match table p1 p2 x with
    | .error e => .error e
    | .ok t =>
      if t.head?.map (·.2.2) = some shape then
        .ok ((Stored.key p1 p2, spectrum p1 p2 shape t), t.length)
      else .error .assertion
  | _, _ => .error .keyError

/-- The inner loop (L128-139) over the three files of a cosmology. -/
def readProbes (d : Dict Str (Stored.Cl Arr)) (ls : List Nat) :
    List (Str × Content) → Except Err (Dict Str (Stored.Cl Arr) × List Nat)
  | [] => .ok (d, ls)
  | (p, x) :: r => match readProbe p x with
    | .error e => .error e
    | .ok (q, n) => readProbes (PyDict.set d q.1 q.2) (ls ++ [n, n]) r

/-- A file of spectra (`ext_input.py` L126-144). -/
abbrev File := H5.File (Stored.Val Arr)

/-- The outer loop (L126-144) and the check after it (L146-147).  `ell_shapes` is a set of whole numbers, which can not be
joined to a text unless it is empty.  `save` makes the file of a collection. -/
def loop (save : Stored.Coll Arr → Except Stored.Err Unit × File) (out : Dict Str File) (ls : List Nat) :
    Dict Key (Content × Content × Content) → Except Err Unit × Dict Str File
  | [] =>
    if ls.dedup.length = 1 then (.ok (), out)
    else if ls = [] then (.error .valueError, out) else (.error .typeError, out)
  | (k, a, b, x) :: r =>
    match readProbes [] [] [("GCph".toList, a), ("GCsp".toList, b), ("XC".toList, x)] with
    | .error e => (.error e, out)
    | .ok (cls, ns) =>
      if (out.map (·.1)).contains (Names.jobDir k.1 k.2) then (.error .fileExists, out)
      else match save { cls := cls } with
        | (.error e, f) => (.error (.stored e), out ++ [(Names.jobDir k.1 k.2, f)])
        | (.ok (), f) => loop save (out ++ [(Names.jobDir k.1 k.2, f)]) (ls ++ ns) r

/-- The conversion with any way of saving. For `seyfert/file_io/ext_input.py` L118-147 (see `convert`). -/
def convertWith (save : Stored.Coll Arr → Except Stored.Err Unit × File) (c : Param.Coll ℚ) (s : Src) :
    Except Err Unit × Dict Str File :=
  match build c s with
  | .error e => (.error e, [])
  | .ok d => loop save [] [] d

/-- `AngularCoefficientsCollector.saveToHDF5` into a new file (`c_ells.py` L411-413, L532-545). -/
def saveNew (o : Stored.Coll Arr) : Except Stored.Err Unit × File := Stored.run H5.File.empty (Stored.saveColl [] o)

/-- `convertSCameraDerivativesInput` (L118-147): how it ends and what is in the new directory, files by the names of their
directories. -/
def convert (c : Param.Coll ℚ) (s : Src) : Except Err Unit × Dict Str File := convertWith saveNew c s

/-! ### Derivatives -/

/-- `-([a-zA-Z0-9]+)-Stef.dat` at the start. For `seyfert/file_io/ext_input.py` L151 (see `lastDer`). -/
def endDer : Str → Option Str
  | '-' :: r =>
    if (Names.spanChars Names.isAlnum r).1 = [] then none
    else match stripPrefix "-Stef".toList (Names.spanChars Names.isAlnum r).2 with
      | some (c :: t) => if c ≠ '\n' ∧ (stripPrefix "dat".toList t).isSome then some (Names.spanChars Names.isAlnum r).1 else none
      | _ => none
  | _ => none

/-- `.*-([a-zA-Z0-9]+)-Stef.dat` at the start: as much as possible is skipped.
For `seyfert/file_io/ext_input.py` L151 (see `matchDer`). -/
def lastDer : Str → Option Str
  | [] => none
  | c :: s => (if c = '\n' then none else lastDer s).or (endDer (c :: s))

/-- The regular expression of L151 at the start of a name: both names of parameters.  What is skipped may hold letters and
digits, so the first name need not give any back. -/
def matchDer (s : Str) : Option (Str × Str) :=
  match stripPrefix "dCijGGd".toList s with
  | none => none
  | some r =>
    if (Names.spanChars Names.isAlnum r).1 = [] then none
    else (lastDer (Names.spanChars Names.isAlnum r).2).map fun g => ((Names.spanChars Names.isAlnum r).1, g)

/-- The matrices of the multipoles, with their shape. For `seyfert/file_io/ext_input.py` L156-175 (see `readDer`). -/
abbrev Der := List ((Nat → Nat → ℚ) × Nat × Nat)

/-- One turn of the loop (L156-175): parameter, key of the spectra, derivative. -/
def readDer (f : Str × Str × Content) : Except Err (Str × Str × Der) :=
  match matchDer f.2.1 with
  | none => .error .noMatch
  | some (v, v') =>
    if v ≠ v' then .error .assertion
    else match probeMap.lookup f.1 with
      | none => .error .keyError
      | some (p1, p2) => match Ext.parNames.lookup v with
        | none => .error .keyError
        | some mine => match table p1 p2 f.2.2 with
          | .error e => .error e
          | .ok t => .ok (mine, Stored.key p1 p2, t.map (·.2))

/-- `readSCameraClDerivatives` (L149-177): subdirectory, name and content of the files found, in the order found. -/
def readDers (d : Dict Str (Dict Str Der)) : List (Str × Str × Content) → Except Err (Dict Str (Dict Str Der))
  | [] => .ok d
  | f :: r => match readDer f with
    | .error e => .error e
    | .ok (v, k, t) => readDers (PyDict.set d v (PyDict.set ((d.lookup v).getD []) k t)) r

end Seyfert.SCam
