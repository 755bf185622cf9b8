import Verif.Model.Covariance
import Verif.Model.Fisher

/-!
Model of the evaluation of a Fisher matrix from the covariance and the derivatives of the spectra
(`fisher/fisher_evaluator.py` L116-290, `fisher/fisher_utils.py` L109-118).

`N` are the names of physical parameters, `P` probes, `K` the numbers.
-/

namespace Seyfert.Cov

open Ells
open Fisher hiding Err

variable {P N K : Type} [DecidableEq P] [LinearOrder N] [Field K] [LinearOrder K]

/-- `lt.vecp(block[l])` or `lt.vec(block[l])` (fisher_utils.py L109-118). -/
def vecBlock (auto : Bool) (n m : Nat) (f : Nat → Nat → K) : Except Err (List K) :=
  if auto then liftLinalg (Linalg.vecp (fun (i : Fin n) (j : Fin m) => f i j))
  else .ok (Linalg.vec (fun (i : Fin n) (j : Fin m) => f i j))

/-- `vecpClArray`, `vecClArray` (fisher_utils.py L109-118): `np.stack` of nothing raises. -/
def vecArray (auto : Bool) (n m : Nat) (arr : List (Nat → Nat → K)) : Except Err (List (List K)) :=
  if arr.length = 0 then .error .valueError else arr.mapM (vecBlock auto n m)

/-- `np.concatenate(vec_dcls, axis=1)` (`fisher_evaluator.py` L218): all arrays must have as many rows. -/
def concatRows : List (List (List K)) → Except Err (List (List K))
  | [] => .error .valueError
  | [b] => .ok b
  | b :: c :: bs =>
    match concatRows (c :: bs) with
    | .error e => .error e
    | .ok r => if b.length = r.length then .ok (List.zipWith (· ++ ·) b r) else .error .valueError

/-- Masking and vectorising one selected block (`fisher_evaluator.py` L206-216). -/
def vecEntry (ells : List K) (p : (P × P) × Tomo K) : Except Err (List (List K)) :=
  match maskArr p.2.ells ells p.2.arr with
  | .error e => .error e
  | .ok a => vecArray (decide (p.1.1 = p.1.2)) p.2.n p.2.m a

/-- The rest of `buildClDerivativeDataVector` once the grid is known (`fisher_evaluator.py` L208-220). -/
def derivRows (ells : List K) (sel : List ((P × P) × Tomo K)) :
    Except Err (List K × List (List K)) :=
  match sel.mapM (vecEntry ells) with
  | .error e => .error e
  | .ok bs =>
    match concatRows bs with
    | .error e => .error e
    | .ok r => .ok (ells, r)

/-- `buildClDerivativeDataVector` (`fisher_evaluator.py` L204-220) with `selectClDerivatives` (L191-202): the grid and, for
each multipole in it, the vector of derivatives. -/
def derivVec (s : Store P K) (dv : List (P × P)) : Except Err (List K × List (List K)) :=
  match dv.mapM (fun AB => s.get AB.1 AB.2) with
  | .error e => .error e
  | .ok ts =>
    match commonElls (dv.zip ts) with
    | .error e => .error e
    | .ok ells => derivRows ells (dv.zip ts)

/-- `{}.update(...)`: names already in the dictionary keep their place.
For `fisher_evaluator.py` L179-189 (see `freeNuisance`). -/
def updateNames (d l : List N) : List N := l.foldl (fun acc a => if a ∈ acc then acc else acc ++ [a]) d

/-- `selectFreeParameters` (`fisher_evaluator.py` L179-189): the names in `free_nuisance_parameters`. -/
def freeNuisance (nuis : P → List N) (dv : List (P × P)) : List N :=
  dv.foldl (fun d AB => updateNames (updateNames d (nuis AB.1)) (nuis AB.2)) []

/-- `selectFreeParameters` (`fisher_evaluator.py` L179-189): the names in `free_physical_parameters`. -/
def freeParams (cosmo : List N) (nuis : P → List N) (dv : List (P × P)) : List N :=
  updateNames (updateNames [] cosmo) (freeNuisance nuis dv)

/-- One step of the loop at L225-228. -/
def derivOf (D : N → Option (Store P K)) (dv : List (P × P)) (a : N) :
    Except Err (List K × List (List K)) :=
  match D a with
  | none => .error .keyError
  | some s => derivVec s dv

/-- `np.all(v == common)` (`fisher_evaluator.py` L245): elementwise for equal lengths, broadcast for a `common` of length
one.  For other lengths numpy returns `False` or raises, depending on its version; both are an error
here. -/
def gridEq (v common : List K) : Prop :=
  if v.length = common.length then v = common
  else match common with
    | [c] => ∀ x ∈ v, x = c
    | _ => False

instance (v common : List K) : Decidable (gridEq v common) := by
  unfold gridEq
  split
  · infer_instance
  · split <;> infer_instance

/-- L230-231 and `checkClDerivativeMultipolesConsistency` (`fisher_evaluator.py` L242-248).  The grids of all derivatives
are stacked (`ValueError` for none or for different lengths), the distinct rows kept and axes of
length one dropped.  One row of length one becomes a scalar and is refused; several rows of length
one become a list. -/
def checkGrids (grids : List (List K)) (common : List K) : Except Err Unit :=
  match grids with
  | [] => .error .valueError
  | h :: t =>
    if ∃ g ∈ t, g.length ≠ h.length then .error .valueError
    else if ∀ g ∈ t, g = h then
      if h.length = 1 then .error .multipole
      else if gridEq h common then .ok () else .error .multipole
    else if h.length = 1 then
      if gridEq ((h :: t).flatten.dedup.insertionSort (· ≤ ·)) common then .ok ()
      else .error .multipole
    else .error .multipole

/-- The array at a multipole as a square matrix. For `fisher_evaluator.py` L52-53 (see `invAll`). -/
def covMatrix (size : Nat) (f : Nat → Nat → K) : Matrix (Fin size) (Fin size) K :=
  Matrix.of fun i j => f i j

/-- `np.linalg.inv(matrix)` (`fisher_evaluator.py` L52-53): raises if the matrix of some multipole is singular. -/
noncomputable def invAll (M : CovMat K) : Except Err (List (Matrix (Fin M.size) (Fin M.size) K)) :=
  if ∀ f ∈ M.arr, (covMatrix M.size f).det ≠ 0 then
    .ok (M.arr.map (fun f => (covMatrix M.size f)⁻¹))
  else .error .linAlg

/-- A list as a vector. For `fisher_evaluator.py` L256-258 (see `fisherAt`). -/
def toVec (n : Nat) (u : List K) : Fin n → K := fun i => u.getD i 0

/-- `dCl_da[l] @ inverse[l] @ dCl_db[l]` (`fisher_evaluator.py` L256-258): a wrong index raises `IndexError`, a wrong length
`ValueError`. -/
def fisherAt {n : Nat} (inv : List (Matrix (Fin n) (Fin n) K)) (da db : List (List K)) (l : Nat) :
    Except Err K :=
  match da[l]?, inv[l]?, db[l]? with
  | some u, some A, some v =>
    if u.length = n ∧ v.length = n then .ok (dotProduct (Matrix.vecMul (toVec n u) A) (toVec n v))
    else .error .valueError
  | _, _, _ => .error .indexError

/-- `itertools.combinations_with_replacement(l, 2)` (`fisher_evaluator.py` L253). -/
def combos : List N → List (N × N)
  | [] => []
  | a :: l => (a :: l).map (fun b => (a, b)) ++ combos l

/-- A table of Fisher elements over multipoles: the index and the columns, one for every pair of
names.  The columns are listed latest assignment first. For `fisher_evaluator.py` L250-268 (see `fisherOfMultipole`). -/
structure FEll (N K : Type) where
  ells : List K
  cols : List ((N × N) × List K)

/-- The column of a pair. For `fisher_evaluator.py` L250-268 (see `fisherOfMultipole`). -/
def fisherCol {n : Nat} (inv : List (Matrix (Fin n) (Fin n) K)) (V : List (N × List (List K)))
    (nElls : Nat) (p : N × N) : Except Err ((N × N) × List K) :=
  match V.lookup p.1, V.lookup p.2 with
  | some da, some db =>
    match (List.range nElls).mapM (fisherAt inv da db) with
    | .error e => .error e
    | .ok c => .ok (p, c)
  | _, _ => .error .keyError

/-- `computeFisherOfMultipole` (`fisher_evaluator.py` L250-268). -/
def fisherOfMultipole {n : Nat} (inv : List (Matrix (Fin n) (Fin n) K)) (ells : List K)
    (names : List N) (V : List (N × List (List K))) : Except Err (FEll N K) :=
  match (combos names).mapM (fisherCol inv V ells.length) with
  | .error e => .error e
  | .ok cs => .ok ⟨ells, (cs.flatMap (fun c => [c, ((c.1.2, c.1.1), c.2)])).reverse⟩

/-- Sum of a column over the multipoles selected by `sel`. For `fisher_evaluator.py` L270-275 (see `sumFisher`). -/
def sumCol (ells : List K) (sel : K → Bool) (c : List K) : K :=
  (((ells.zip c).filter (fun p => sel p.1)).map (·.2)).sum

/-- `sumFisherOverMultipoles` (`fisher_evaluator.py` L270-275): rows and columns are the sorted names of the first and
second level of the columns.  A missing pair would give NaN. -/
def sumFisher (F : FEll N K) (sel : K → Bool) : Except Err (DF N K) :=
  let rows := sortLabels (F.cols.map (fun p => p.1.1)).dedup
  let cols := sortLabels (F.cols.map (fun p => p.1.2)).dedup
  if ∀ a ∈ rows, ∀ b ∈ cols, (F.cols.lookup (a, b)).isSome then
    .ok ⟨rows, cols, fun a b => sumCol F.ells sel ((F.cols.lookup (a, b)).getD [])⟩
  else .error .nan

/-- `f_mat_df.add(contrib, fill_value=0)` (`fisher_evaluator.py` L288): an entry missing in one operand counts as zero, one
missing in both would give NaN. -/
def addFill (F G : DF N K) : Except Err (DF N K) :=
  let rows := joinLabels F.rows G.rows
  let cols := joinLabels F.cols G.cols
  if ∀ a ∈ rows, ∀ b ∈ cols, (a ∈ F.rows ∧ b ∈ F.cols) ∨ (a ∈ G.rows ∧ b ∈ G.cols) then
    .ok ⟨rows, cols, fun a b =>
      (if a ∈ F.rows ∧ b ∈ F.cols then F.val a b else 0)
        + (if a ∈ G.rows ∧ b ∈ G.cols then G.val a b else 0)⟩
  else .error .nan

/-- `addInvolvedProbesContribution` (`fisher_evaluator.py` L277-290); `probes` lists the set of the probes whose
auto-correlation is in the data vector, in the order of iteration. -/
def addInvolved (ells : List K) (auto : List (P × FEll N K)) :
    List P → DF N K → Except Err (DF N K)
  | [], F => .ok F
  | p :: ps, F =>
    match auto.lookup p with
    | none => .error .keyError
    | some A =>
      if ∃ ℓ ∈ A.ells, ℓ ∉ ells then
        match sumFisher A (fun ℓ => decide (ℓ ∈ A.ells.filter (fun ℓ => decide (ℓ ∉ ells)))) with
        | .error e => .error e
        | .ok C =>
          match addFill F C with
          | .error e => .error e
          | .ok F' => addInvolved ells auto ps F'
      else addInvolved ells auto ps F

/-- The involved auto-correlation probes in order of appearance (datavector.py L98-105). -/
def autoProbes (dv : List (P × P)) : List P :=
  ((dv.filter (fun AB => decide (AB.1 = AB.2))).map (·.1)).dedup

/-- `is_single_autocorrelation` (datavector.py L46-48). -/
def singleAuto : List (P × P) → Bool
  | [AB] => decide (AB.1 = AB.2)
  | _ => false

/-- The end of `computeFisherMatrix` (`fisher_evaluator.py` L159-177). -/
def finish (ells : List K) (dv : List (P × P)) (order : List P)
    (auto : Option (List (P × FEll N K))) (fe : FEll N K) : Except Err (DF N K × FEll N K) :=
  match sumFisher fe (fun ℓ => decide (ℓ ∈ ells)) with
  | .error e => .error e
  | .ok F =>
    if singleAuto dv then .ok (F, fe)
    else match auto with
      | none => .error .valueError
      | some A =>
        match addInvolved ells A order F with
        | .error e => .error e
        | .ok F' => .ok (F', fe)

/-- The middle of `computeFisherMatrix` (`fisher_evaluator.py` L151-162): derivatives, check, elements. -/
noncomputable def elements (names : List N) (dv : List (P × P)) (D : N → Option (Store P K))
    (M : CovMat K) (inv : List (Matrix (Fin M.size) (Fin M.size) K)) : Except Err (FEll N K) :=
  match names.mapM (derivOf D dv) with
  | .error e => .error e
  | .ok vs =>
    match checkGrids (vs.map (·.1)) M.ells with
    | .error e => .error e
    | .ok _ => fisherOfMultipole inv M.ells names (names.zip (vs.map (·.2)))

/-- `computeFisherMatrix` (`fisher_evaluator.py` L141-177): the Fisher matrix and the table over multipoles.  `order` is the
order in which the set of involved auto-correlation probes is iterated. -/
noncomputable def computeFisher (cosmo : List N) (nuis : P → List N) (delta : Store P K)
    (D : N → Option (Store P K)) (dv : List (P × P)) (order : List P)
    (auto : Option (List (P × FEll N K))) : Except Err (DF N K × FEll N K) :=
  match covariance delta dv with
  | .error e => .error e
  | .ok M =>
    match invAll M with
    | .error e => .error e
    | .ok inv =>
      match elements (freeParams cosmo nuis dv) dv D M inv with
      | .error e => .error e
      | .ok fe => finish M.ells dv order auto fe

end Seyfert.Cov
