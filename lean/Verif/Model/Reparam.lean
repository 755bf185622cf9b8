import Verif.Model.TeX
import Mathlib.LinearAlgebra.Matrix.NonsingularInverse

/-!
`seyfert/utils/ist_comparison.py`: files of external Fisher matrices, comparison of their errors, and the change from
`b_i, sigma8` to `b_i * sigma8`.
-/

namespace Seyfert.Reparam

/-- The exceptions of the functions modelled here, by their kinds (`ist_comparison.py` L18-45, L90-140). -/
inductive Err
  | keyError
  | notASymbol
  | singular
  | shape
  | badName
  | valueError
  deriving DecidableEq, Repr

/-! ### Which files are read -/

/-- Capital letters, `[A-Z]`. For `seyfert/utils/ist_comparison.py` L34-40 (see `codeKey`). -/
def isUpper (c : Char) : Bool := 'A'.toNat ≤ c.toNat && c.toNat ≤ 'Z'.toNat

/-- How the names of the files begin (`ist_comparison.py` L34). -/
def filePrefix : Str := "fisher_matrices_results_baseline_GR_".toList

/-- The two capital letters after the prefix of a file name (L34-40). A name with a newline is not considered. -/
def codeKey (name : Str) : Option Str :=
  match stripPrefix filePrefix name with
  | some (a :: b :: rest) =>
    if isUpper a && isUpper b && ".txt".toList.isSuffixOf rest then some [a, b] else none
  | _ => none

/-- The loop of `read_ISTGCphFishers` (L35-45) over the files in the order in which the directory is listed: the code
of each file, as named by the legend, and the file. -/
def collect (legend : Dict Str Str) (files : List Str) : Except Err (Dict Str Str) :=
  go files []
where
  go : List Str → Dict Str Str → Except Err (Dict Str Str)
    | [], acc => .ok acc
    | f :: rest, acc =>
      match codeKey f with
      | none => .error .badName
      | some key => match legend.lookup key with
        | none => .error .keyError
        | some code => go rest (PyDict.set acc code f)

/-- `read_ISTGCphFishers` (L16-53) up to reading the tables: the directory that is chosen, relative to the argument,
or the complaint about the scenario (L21-26). -/
def subdir (flat : Bool) (scenario : Str) : Except Err Str :=
  if scenario = "optimistic".toList ∨ scenario = "pessimistic".toList then
    .ok ((if flat then "Flat".toList else "NonFlat".toList) ++ '/' :: scenario)
  else .error .valueError

/-! ### Differences of errors -/

section Deltas

variable {K : Type} [Field K]

/-- `np.mean(errs, axis=0)` for one parameter (L76): the errors are those of the different codes. -/
def mean (l : List K) : K := l.sum / l.length

/-- `100 * (err - ref) / ref` (L84). -/
def delta (ref x : K) : K := 100 * (x - ref) / ref

/-- The differences from the mean (L79-84, reference "mean"). -/
def deltasMean (l : List K) : List K := l.map (delta (mean l))

end Deltas

/-- `np.median(errs, axis=0)` for one parameter (L77). -/
def median (l : List ℚ) : ℚ :=
  let s := l.mergeSort (fun a b => decide (a ≤ b))
  if l.length % 2 = 1 then s.getD (l.length / 2) 0
  else (s.getD (l.length / 2 - 1) 0 + s.getD (l.length / 2) 0) / 2

/-- The differences from the median (L79-84, reference "median"). -/
def deltasMedian (l : List ℚ) : List ℚ := l.map (delta (median l))

/-! ### The change of parameters -/

/-- `name.startswith("bg")` (L97, L105). -/
def isBias (s : Str) : Bool := "bg".toList.isPrefixOf s

/-- The parameter which is replaced (`ist_comparison.py` L98-103). -/
def sigma8 : Str := "sigma8".toList

/-- The symbol made by `sympy.symbols` from the TeX name (L92). An empty text is refused; a text with a blank, a comma
or a colon makes several symbols, which have no derivative. The two exceptions are one here. -/
def symText (s : Str) : Option Str :=
  match TeX.physParNameToTeX s false with
  | .error _ => none
  | .ok t => if t = [] ∨ t.any (fun c => TeX.isBlank c || c == ',' || c == ':') = true then none else some t

/-- A new parameter as a function of the old ones (L96-100). -/
inductive Expr
  | var (s : Str)
  | mul (s t : Str)

section Change

variable {K : Type} [Field K] [DecidableEq K]

/-- `tp.diff(t)` with the fiducial values put in (L111-112, L119-120). -/
def Expr.diff (v : Str → K) (t : Str) : Expr → K
  | .var s => if s = t then 1 else 0
  | .mul a b => (if a = t then v b else 0) + (if b = t then v a else 0)

variable {n : ℕ} (nm : Fin n → Str) (fid : Str → Option K)

/-- `theta[name]` (L92). -/
def sym (i : Fin n) : Str := (symText (nm i)).getD []

/-- `fid_theta` (L93): a dictionary by symbol, a later parameter with the same symbol wins. -/
def fidTheta (t : Str) : K :=
  ((PyDict.ofItems ((List.finRange n).map fun i => (sym nm i, (fid (nm i)).getD 0))).lookup t).getD 0

/-- `thetap` (L95-100). -/
def thetap (i : Fin n) : Expr :=
  if isBias (nm i) then .mul (sym nm i) ((symText sigma8).getD []) else .var (sym nm i)

/-- The labels of `thetap`. For `seyfert/utils/ist_comparison.py` L97 (see `isBias`). -/
def newLabel (s : Str) : Str := if isBias s then s ++ "_sigma8".toList else s

/-- Reasons for `get_params_bases` (L91-107) and the products of `T1` to stop. A repeated name makes the Jacobian
smaller than the matrix (L92, L113). Only which inputs are refused is modelled, not the order of the checks. -/
def refused : Option Err :=
  if ∃ i, symText (nm i) = none then some .notASymbol
  else if ∃ i, fid (nm i) = none then some .keyError
  else if ∀ i, nm i ≠ sigma8 then some .keyError
  else if ∃ i j, i ≠ j ∧ nm i = nm j then some .shape
  else none

/-- The matrix that `T1` inverts (L111), at the fiducial values. -/
def jac : Matrix (Fin n) (Fin n) K := Matrix.of fun i j => (thetap nm i).diff (fidTheta nm fid) (sym nm j)

/-- `T1` (L110-115) after `get_params_bases`. The inverse is symbolic in the code: it fails if the determinant is zero
as a function, and turning the result into numbers fails if it vanishes at the fiducial values. -/
noncomputable def T1 (F : Matrix (Fin n) (Fin n) K) : Except Err (Matrix (Fin n) (Fin n) K) :=
  match refused nm fid with
  | some e => .error e
  | none =>
    if (jac nm fid).det = 0 then .error .singular
    else .ok (((jac nm fid)⁻¹).transpose * F * (jac nm fid)⁻¹)

/-- The parameters left after dropping `sigma8` (L130, L140). -/
abbrev Kept := {i : Fin n // nm i ≠ sigma8}

/-- The parameters that are not bias parameters, `thetaf` (L105). -/
abbrev Cosmo := {i : Fin n // isBias (nm i) = false}

/-- `apply_T1_remove_sigma8` (L136-142). -/
noncomputable def applyT1Drop (F : Matrix (Fin n) (Fin n) K) : Except Err (Matrix (Kept nm) (Kept nm) K) :=
  match T1 nm fid F with
  | .error e => .error e
  | .ok F1 => .ok (F1.submatrix (fun i => i.1) (fun i => i.1))

/-- The matrix of derivatives in `T2` (L119). -/
def jac2 : Matrix (Kept nm) (Cosmo nm) K :=
  Matrix.of fun i j => (thetap nm i.1).diff (fidTheta nm fid) (sym nm j.1)

/-- `apply_T1_remove_sigma8_then_T2` (L118-133). -/
noncomputable def applyT1DropT2 (F : Matrix (Fin n) (Fin n) K) : Except Err (Matrix (Cosmo nm) (Cosmo nm) K) :=
  match applyT1Drop nm fid F with
  | .error e => .error e
  | .ok F1 => .ok ((jac2 nm fid).transpose * F1 * jac2 nm fid)

end Change

end Seyfert.Reparam
