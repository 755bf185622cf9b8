import Mathlib.Data.Finset.Sort
import Mathlib.Algebra.Field.Rat
import Mathlib.Algebra.Order.Field.Rat
import Verif.Model.PyNum
import Verif.Model.Names
import Verif.Model.Parameter
import Verif.Model.Background

/-!
Reading results of other codes (`seyfert/file_io/ext_input.py`).  Line numbers without a file refer to it.
-/

namespace Seyfert.Ext

/-- The exceptions of the functions modelled here, by their kinds (`ext_input.py` L46-309). -/
inductive Err where
  | keyError | assertion | valueError | indexError | typeError | mismatch | fileExists | cosmology | runtime
  | param (e : Param.Err)
deriving DecidableEq

/-! ### Names of files -/

/-- `IST_STEM_DICT` (L19-27). -/
def stemNames : Dict Str ℚ :=
  [("6p3E-3".toList, 625 / 100000), ("1p3E-2".toList, 1250 / 100000), ("1p9E-2".toList, 1875 / 100000),
   ("2p5E-2".toList, 2500 / 100000), ("3p8E-2".toList, 3750 / 100000), ("5p0E-2".toList, 5000 / 100000),
   ("1p0E-1".toList, 10000 / 100000)]

/-- `IST_PMM_COSMO_MAP` (L28-37). -/
def parNames : Dict Str Str :=
  [("Ob".toList, "Omb".toList), ("Ode".toList, "OmDE".toList), ("Om".toList, "Omm".toList), ("h".toList, "h".toList),
   ("ns".toList, "ns".toList), ("s8".toList, "sigma8".toList), ("w0".toList, "w0".toList), ("wa".toList, "wa".toList)]

/-- `IST_STEM_EPS` (L38). -/
def stemEps : List ℚ :=
  [625 / 100000, 125 / 10000, 1875 / 100000, 25 / 1000, 375 / 10000, 5 / 100, 1 / 10]

/-- `_(mn|pl)_eps_([0-9]p[0-9]E-[0-9])` at the start of `s`: whether the sign is `mn`, and the displacement.
For `seyfert/file_io/ext_input.py` L60 (see `matchIST`). -/
def matchTail (s : Str) : Option (Bool × Str) :=
  match (stripPrefix "_mn_eps_".toList s).map (fun r => (true, r)) |>.or
      ((stripPrefix "_pl_eps_".toList s).map (fun r => (false, r))) with
  | some (m, a :: 'p' :: b :: 'E' :: '-' :: c :: _) =>
    if isDigit a && isDigit b && isDigit c then some (m, [a, 'p', b, 'E', '-', c]) else none
  | _ => none

/-- The regular expression of L60 at the start of `s`.  The letters and digits cannot be given back, since `_` must
follow. -/
def matchIST (s : Str) : Option (Str × Bool × Str) :=
  if (Names.spanChars Names.isAlnum s).1 = [] then none
  else (matchTail (Names.spanChars Names.isAlnum s).2).map fun t => ((Names.spanChars Names.isAlnum s).1, t)

/-- `ist_regex.search` (L209). -/
def searchIST : Str → Option (Str × Bool × Str)
  | [] => none
  | c :: s => (matchIST (c :: s)).or (searchIST s)

/-- `parseISTCosmoString` (L208-223). -/
def parseIST (c : Param.Coll ℚ) (s : Str) : Except Err (Str × Int) :=
  match searchIST s with
  | none => .ok (Param.central, 0)
  | some (dvar, minus, eps) =>
    match stemNames.lookup eps with
    | none => .error .keyError
    | some e =>
      match parNames.lookup dvar with
      | none => .error .keyError
      | some name =>
        match c.inv with
        | none => .error .typeError
        | some inv =>
          match inv.lookup (if minus then -e else e) with
          | none => .error .keyError
          | some step => .ok (name, step)

/-! ### Power spectra -/

/-- One row of a file: redshift, wave number, linear and non linear spectrum.
For `seyfert/file_io/ext_input.py` L265-276 (see `readTable`). -/
structure Row where
  z : ℚ
  k : ℚ
  lin : ℚ
  non : ℚ
deriving DecidableEq

/-- A power spectrum on a grid. For `seyfert/file_io/ext_input.py` L265-276 (see `readTable`). -/
structure Spec where
  z : List ℚ
  k : List ℚ
  lin : List (List ℚ)
  non : List (List ℚ)
deriving DecidableEq

/-- `np.unique`. For `seyfert/file_io/ext_input.py` L265-276 (see `readTable`). -/
def unique (l : List ℚ) : List ℚ := l.toFinset.sort (· ≤ ·)

/-- `x.reshape(n, m)` for `n * m` values, row by row. For `seyfert/file_io/ext_input.py` L265-276 (see `readTable`). -/
def rowsOf (m : Nat) : Nat → List ℚ → List (List ℚ)
  | 0, _ => []
  | n + 1, l => l.take m :: rowsOf m n (l.drop m)

/-- `readISTPowerSpectrumTextFile` (L265-276). -/
def readTable (t : List Row) : Except Err Spec :=
  let z := unique (t.map (·.z))
  let k := unique (t.map (·.k))
  if t.length ≠ z.length * k.length then .error .valueError
  else .ok ⟨z, k, (rowsOf k.length z.length (t.map (·.lin))).reverse,
    (rowsOf k.length z.length (t.map (·.non))).reverse⟩

/-- The change of units and the removal of redshift zero (L94-103). -/
def convertSpec (h : ℚ) (s : Spec) : Spec :=
  let keep := s.z.map fun z => decide (0 < z)
  let mask {A : Type} (l : List A) : List A := ((l.zip keep).filter (·.2)).map (·.1)
  ⟨mask s.z, s.k.map (· * h), (mask s.lin).map (·.map (· / h ^ 3)), (mask s.non).map (·.map (· / h ^ 3))⟩

/-- What is stored in one `p_mm.h5`: the current values of the cosmological parameters and the spectrum.
For `seyfert/file_io/ext_input.py` L83-114 (see `convertOne`). -/
structure Stored where
  pars : Dict Str ℚ
  spec : Spec
deriving DecidableEq

/-- The cosmological parameters with their fiducial and current values.
For `seyfert/file_io/ext_input.py` L83-114 (see `convertOne`). -/
def cosmoPars (c : Param.Coll ℚ) : Dict Str (ℚ × ℚ) :=
  (c.pars.filter (fun q => decide (q.2.kind = .cosmo))).map fun q => (q.1, (q.2.fiducial, q.2.current))

/-- One turn of the loop of `convertISTPowerSpectra` (L83-114): the parameters afterwards, the directories written
so far, the exception. -/
def convertOne (flat : Bool) (c : Param.Coll ℚ) (out : Dict Str Stored) (name : Str) (t : List Row) :
    Param.Coll ℚ × Dict Str Stored × Option Err :=
  match (cosmoPars c).lookup "h".toList with
  | none => (c, out, some .keyError)
  | some _ =>
    match parseIST c name with
    | .error e => (c, out, some e)
    | .ok (dvar, step) =>
      match Param.update c dvar step with
      | (c, some e) => (c, out, some (.param e))
      | (c, none) =>
        match readTable t with
        | .error e => (c, out, some e)
        | .ok s =>
          match Background.check (cosmoPars c) flat, (cosmoPars c).lookup "h".toList with
          | .error _, _ => (c, out, some .cosmology)
          | .ok _, none => (c, out, some .keyError)
          | .ok _, some h =>
            if (out.map (·.1)).contains (Names.jobDir dvar step) then (c, out, some .fileExists)
            else (Param.reset c, PyDict.set out (Names.jobDir dvar step)
              ⟨(cosmoPars c).map fun q => (q.1, q.2.2), convertSpec h.2 s⟩, none)

/-- The loop (L83-114) over the files in order of their paths. -/
def convertAll (flat : Bool) : Param.Coll ℚ → Dict Str Stored → List (Str × List Row) →
    Param.Coll ℚ × Dict Str Stored × Option Err
  | c, out, [] => (c, out, none)
  | c, out, f :: rest =>
    match convertOne flat c out f.1 f.2 with
    | (c, out, none) => convertAll flat c out rest
    | r => r

/-- `checkISTParams` (L65-72) after the first assertion: the parameters left and the exception.  Removing an entry of
the dictionary while iterating over it raises at the next turn. -/
def checkPars (pars : Dict Str ℚ) : Dict Str ℚ × Option Err :=
  if ¬ ∀ n ∈ parNames.map (·.2), n ∈ pars.map (·.1) then (pars, some .assertion)
  else
    match pars.find? (fun q => !(parNames.map (·.2)).contains q.1) with
    | some q => (PyDict.erase pars q.1, some .runtime)
    | none => if pars.lookup "h".toList = some (67 / 100) then (pars, none) else (pars, some .assertion)

/-! ### Angular spectra -/

/-- The digits at the start of `s` and what follows. For `seyfert/file_io/ext_input.py` L248 (see `matchPair`). -/
def digits (s : Str) : Str × Str := Names.spanChars isDigit s

/-- `([0-9]+).?([0-9]+)` at the start of `s` (L248): both numbers and what follows.  All leading digits are taken if
one more character and a digit follow, otherwise the last digit is given back. -/
def matchPair (s : Str) : Option ((Nat × Nat) × Str) :=
  let d := (digits s).1
  let r := (digits s).2
  if d = [] then none
  else
    match r with
    | c :: r' =>
      if c ≠ '\n' ∧ (digits r').1 ≠ [] then some ((decVal d, decVal (digits r').1), (digits r').2)
      else if 2 ≤ d.length then some ((decVal d.dropLast, decVal (d.drop (d.length - 1))), r) else none
    | [] => if 2 ≤ d.length then some ((decVal d.dropLast, decVal (d.drop (d.length - 1))), []) else none

/-- `findall` (L249), with as many turns as there are characters. -/
def findPairs : Nat → Str → List (Nat × Nat)
  | 0, _ => []
  | _ + 1, [] => []
  | n + 1, c :: s =>
    match matchPair (c :: s) with
    | some (p, r) => p :: findPairs n r
    | none => findPairs n s

/-- The pairs of numbers found in the header (`ext_input.py` L249). -/
def pairsOf (hdr : Str) : List (Nat × Nat) := findPairs hdr.length hdr

/-- `getIndicesFromSCameraClFileHeader` (L246-263): the pairs counted from zero and the shape. -/
def indices (hdr : Str) (symmetric : Bool) : Except Err (List (Nat × Nat) × Nat × Nat) :=
  let ps := pairsOf hdr
  match (ps.map (·.1)).min?, (ps.map (·.1)).max?, (ps.map (·.2)).min?, (ps.map (·.2)).max? with
  | some imin, some imax, some jmin, some jmax =>
    if imin ≠ jmin then .error .assertion
    else if symmetric ∧ imax ≠ jmax then .error .mismatch
    else if imin = 0 then .ok (ps, imax + 1, jmax + 1)
    else .ok (ps.map (fun p => (p.1 - 1, p.2 - 1)), imax, jmax)
  | _, _, _, _ => .error .valueError

/-- `clij[:, i, j] = cl_data` for one multipole: of positions given twice the last one counts; the rest stays.
For `seyfert/file_io/ext_input.py` L235-244 (see `readRow`). -/
def assign (f : Nat → Nat → ℚ) (ps : List (Nat × Nat)) (vs : List ℚ) : Nat → Nat → ℚ :=
  (ps.zip vs).foldl (fun f q i j => if (i, j) = q.1 then q.2 else f i j) f

/-- One row of `readSCameraClFile` (L235-244), with the shape: as many values as pairs, or one value for all. -/
def readRow (ps : List (Nat × Nat)) (shape : Nat × Nat) (symmetric : Bool) (vs : List ℚ) :
    Except Err ((Nat → Nat → ℚ) × Nat × Nat) :=
  if vs.length ≠ ps.length ∧ vs.length ≠ 1 then .error .valueError
  else
    let vs := if vs.length = ps.length then vs else List.replicate ps.length (vs.headD 0)
    let f := assign (fun _ _ => 0) ps vs
    let f := if symmetric then assign f (ps.map fun p => (p.2, p.1)) vs else f
    .ok (if shape.1 < shape.2 then (fun i j => f j i, shape.2, shape.1) else (f, shape.1, shape.2))

/-- `readSCameraClFile` (L225-244): lines starting with `#` in order, rows of numbers.  The multipole is the first
number of a row.  `np.loadtxt` refuses rows of different lengths; a single row or column is not a table. -/
def readCl (first : Bool) (header : List Str) (rows : List (ℚ × List ℚ)) (symmetric : Bool) :
    Except Err (List (ℚ × (Nat → Nat → ℚ) × Nat × Nat)) :=
  if ¬ first then .error .assertion
  else
    match indices (joinStr " ".toList header) symmetric with
    | .error e => .error e
    | .ok (ps, shape) =>
      if ¬ ∀ r ∈ rows, ∀ r' ∈ rows, r.2.length = r'.2.length then .error .valueError
      else if rows.length ≤ 1 ∨ ∃ r ∈ rows, r.2 = [] then .error .indexError
      else rows.mapM fun r =>
        match readRow ps shape symmetric r.2 with
        | .error e => .error e
        | .ok x => .ok (r.1, x)

/-! ### Fisher matrices -/

/-- `IST_FISHER_NAMES_MAP` (L45-51). -/
def fisherNames : Dict Str Str :=
  [("WL".toList, "[WL]".toList), ("GCph".toList, "[GCph]".toList), ("GCsp".toList, "[GCsp(Pk)]".toList),
   ("GCph_WL_XC".toList, "[WL+GCph+XC(WL,GCph)]".toList),
   ("GCsp_GCph_WL_XC".toList, "[WL+GCph+XC(WL,GCph)] + [GCsp(Pk)]".toList)]

/-- The letters of `[WLGCphsX_]` (L281). -/
def isNameChar (c : Char) : Bool := "WLGCphsX_".toList.contains c

/-- `EuclidISTF_([WLGCphsX_]+)` searched in the name (L281-285), without underscores at both ends. -/
def searchName : Str → Option Str
  | [] => none
  | c :: s =>
    match stripPrefix "EuclidISTF_".toList (c :: s) with
    | some r =>
      if (Names.spanChars isNameChar r).1 = [] then searchName s
      else some ((((Names.spanChars isNameChar r).1.dropWhile (· == '_')).reverse.dropWhile (· == '_')).reverse)
    | none => searchName s

/-- The name given to a matrix read from a file (L281-289). -/
def fisherName (file : Str) : Except Err (Option Str) :=
  match searchName file with
  | none => .ok none
  | some n => match fisherNames.lookup n with
    | none => .error .keyError
    | some x => .ok (some x)

/-- New name of a column (L292-302): `b` and a number from one on is a photometric bias, counted from zero. -/
def newName (n : Str) : Str :=
  match n with
  | 'b' :: r =>
    if (digits r).1 = [] then n
    else "bgph".toList ++ (if decVal (digits r).1 = 0 then "-1".toList else decStr (decVal (digits r).1 - 1))
  | _ =>
    if n = "Omegam".toList then "Omm".toList
    else if n = "Omegab".toList then "Omb".toList
    else if n = "Omegade".toList then "OmDE".toList
    else n

/-- Order of texts. For `seyfert/file_io/ext_input.py` L291-307 (see `readFisher`). -/
def strLe : Str → Str → Bool
  | [], _ => true
  | _ :: _, [] => false
  | a :: s, b :: t => a.toNat < b.toNat || (a == b && strLe s t)

/-- `readISTFisherMatrixFile` (L291-307) for a square table, rows in the order of the columns: names after sorting,
with the entry at each place. -/
def readFisher (cols : List Str) (entry : Nat → Nat → ℚ) : List Str × (Nat → Nat → ℚ) :=
  let tagged := (cols.map newName).zipIdx.mergeSort (fun a b => strLe a.1 b.1)
  (tagged.map (·.1), fun i j => match tagged[i]?, tagged[j]? with
    | some a, some b => entry a.2 b.2
    | _, _ => 0)

end Seyfert.Ext
