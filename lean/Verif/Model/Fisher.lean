import Mathlib.LinearAlgebra.Matrix.NonsingularInverse
import Mathlib.Data.Finset.Sort
import Mathlib.Data.List.Dedup
import Verif.Model.PyStr

/-!
Model of `seyfert/fisher/fisher_matrix.py`, `seyfert/fisher/fisher_utils.py` L81-83.

A pandas `DataFrame` whose rows and columns are parameter names is a list of row labels, a list of
column labels and an entry for every pair of labels; entries outside the labels are meaningless.
Parameter names are any linearly ordered type `N`, floats any field `K`.

Python sets are `Finset`s.  Iterating over a set yields its elements in an order that the language
leaves open (for strings it changes from one process to the next); the order is the parameter
`en : Finset N → List N` of every definition that iterates over a set or indexes a frame with one.
-/

namespace Seyfert.Fisher


/-- Exceptions.  `nan` is no exception in the code: it marks the places where pandas fills entries
with NaN, which is outside the model. For `fisher_utils.py` L81-83 (see `invertDf`). -/
inductive Err where
  | fisherError    -- FisherMatrixError
  | exception      -- bare Exception of fixParameters
  | keyError       -- pandas KeyError
  | valueError
  | singular       -- numpy.linalg.LinAlgError
  | typeError
  | zeroDivision
  | nan
deriving DecidableEq, Repr

variable {N K : Type}

/-- `pandas.DataFrame` with parameter names on both axes. For `fisher_utils.py` L81-83 (see `invertDf`). -/
structure DF (N K : Type) where
  rows : List N
  cols : List N
  val : N → N → K

variable [LinearOrder N] [Field K] [DecidableEq K]

/-- `sorted(labels)`, the order `DataFrame.sort_index` gives. For `fisher_matrix.py` L163-167 (see `DF.sortIndex`). -/
def sortLabels (l : List N) : List N := l.mergeSort (fun a b => decide (a ≤ b))

/-- `df.sort_index(axis=0).sort_index(axis=1)`. For `fisher_matrix.py` L163-167 (see `FM.eq`). -/
def DF.sortIndex (d : DF N K) : DF N K :=
  { d with rows := sortLabels d.rows, cols := sortLabels d.cols }

/-- `df.loc[s, s]` for a set `s`: rows and columns in iteration order of the set, `KeyError` if a
label is missing. For `fisher_matrix.py` L195-208 (see `FM.select`). -/
def DF.locSet (en : Finset N → List N) (d : DF N K) (s : Finset N) : Except Err (DF N K) :=
  if (∀ a ∈ s, a ∈ d.rows) ∧ (∀ a ∈ s, a ∈ d.cols) then
    .ok { d with rows := en s, cols := en s }
  else .error .keyError

/-- `df.drop(s, axis=0).drop(s, axis=1)`: `KeyError` if a label is missing on an axis.
For `fisher_matrix.py` L210-217 (see `FM.fix`). -/
def DF.dropSet (d : DF N K) (s : Finset N) : Except Err (DF N K) :=
  if (∀ a ∈ s, a ∈ d.rows) ∧ (∀ a ∈ s, a ∈ d.cols) then
    .ok { d with rows := d.rows.filter (fun a => decide (a ∉ s)),
                 cols := d.cols.filter (fun a => decide (a ∉ s)) }
  else .error .keyError

/-- The array under a frame: `df.values`, for a frame with as many columns as rows.
For `fisher_utils.py` L81-83 (see `invertDf`). -/
def DF.values (d : DF N K) (h : d.rows.length = d.cols.length) :
    Matrix (Fin d.rows.length) (Fin d.rows.length) K :=
  Matrix.of fun i j => d.val (d.rows.get i) (d.cols.get (j.cast h))

/-- Entry of the inverse array at a pair of labels. For `fisher_utils.py` L81-83 (see `invertDf`). -/
noncomputable def DF.invEntry (d : DF N K) (h : d.rows.length = d.cols.length) (a b : N) : K :=
  if ha : d.rows.idxOf a < d.rows.length then
    if hb : d.cols.idxOf b < d.rows.length then
      (d.values h)⁻¹ ⟨d.rows.idxOf a, ha⟩ ⟨d.cols.idxOf b, hb⟩
    else 0
  else 0

/-- `fisher_utils.invert_dataframe` (fisher_utils.py L81-83): the inverse of the array with the
labels of the argument.  `numpy.linalg.inv` raises on arrays that are not square or are singular. -/
noncomputable def invertDf (d : DF N K) : Except Err (DF N K) :=
  if h : d.rows.length = d.cols.length then
    if (d.values h).det = 0 then .error .singular
    else .ok { d with val := d.invEntry h }
  else .error .singular

/-- `df[p] = 0; df.loc[p] = 0` (fisher_matrix.py L133-134): the column, then the row, is appended
if it is new and filled with zeros in any case. -/
def DF.zeroPar (d : DF N K) (p : N) : DF N K :=
  { rows := if p ∈ d.rows then d.rows else d.rows ++ [p]
    cols := if p ∈ d.cols then d.cols else d.cols ++ [p]
    val := fun a b => if a = p ∨ b = p then 0 else d.val a b }

/-- Labels of an axis after aligning two frames: kept if both are equal, else the sorted union.
For `fisher_matrix.py` L141-150 (see `DF.zip`). -/
def joinLabels (l₁ l₂ : List N) : List N :=
  if l₁ = l₂ then l₁ else sortLabels (l₁ ++ l₂).dedup

/-- `df1 + df2`, `df1 - df2`: aligned by label.  A label that only one operand has would give NaN
entries (outside the model). For `fisher_matrix.py` L141-150 (see `FM.combine`). -/
def DF.zip (op : K → K → K) (d₁ d₂ : DF N K) : Except Err (DF N K) :=
  if d₁.rows.toFinset = d₂.rows.toFinset ∧ d₁.cols.toFinset = d₂.cols.toFinset then
    .ok { rows := joinLabels d₁.rows d₂.rows, cols := joinLabels d₁.cols d₂.cols
          val := fun a b => op (d₁.val a b) (d₂.val a b) }
  else .error .nan

/-- `FisherMatrix` (fisher_matrix.py L22-49).  The parameter sets are never `None` here. -/
structure FM (N K : Type) where
  matrix : DF N K
  name : Str
  cosmo : Finset N
  nuis : Finset N
  margFlag : Bool := true
  inverse : Option (DF N K) := none
  correlation : Option (DF N K) := none

/-- `physical_parameters` (`fisher_matrix.py` L51-53). -/
def FM.phys (F : FM N K) : Finset N := F.nuis ∪ F.cosmo

/-- `copy` (`fisher_matrix.py` L119-123) and `__deepcopy__` (L172-173): the cached inverse and correlation are not
copied. -/
def FM.copy (F : FM N K) : FM N K :=
  { matrix := F.matrix, name := F.name, cosmo := F.cosmo, nuis := F.nuis, margFlag := F.margFlag }

/-- `zeroPadMatrices` (`fisher_matrix.py` L125-139). -/
def zeroPad (en : Finset N → List N) (F₁ F₂ : FM N K) : FM N K × FM N K :=
  let sumNuis := F₁.nuis ∪ F₂.nuis
  let sumCosmo := F₁.cosmo ∪ F₂.cosmo
  let sumPhys := sumCosmo ∪ sumNuis
  let missing₁ := sumPhys \ F₁.phys
  let missing₂ := sumPhys \ F₂.phys
  ({ F₁ with matrix := (en missing₁).foldl DF.zeroPar F₁.matrix },
   { F₂ with matrix := (en missing₂).foldl DF.zeroPar F₂.matrix })

/-- Common part of `__add__` (`fisher_matrix.py` L141-150) and `__sub__` (L152-161). -/
def FM.combine (en : Finset N → List N) (op : K → K → K) (sep : Str) (F G : FM N K) :
    Except Err (FM N K) :=
  let (F₁, F₂) := zeroPad en F.copy G.copy
  match DF.zip op F₁.matrix F₂.matrix with
  | .error e => .error e
  | .ok m => .ok { matrix := m, name := F₁.name ++ sep ++ F₂.name,
                   cosmo := F₁.cosmo ∪ F₂.cosmo, nuis := F₁.nuis ∪ F₂.nuis }

/-- `__add__` (`fisher_matrix.py` L141-150). -/
def FM.add (en : Finset N → List N) (F G : FM N K) : Except Err (FM N K) :=
  F.combine en (· + ·) " + ".toList G

/-- `__sub__` (`fisher_matrix.py` L152-161). -/
def FM.sub (en : Finset N → List N) (F G : FM N K) : Except Err (FM N K) :=
  F.combine en (· - ·) " - ".toList G

/-- `__eq__` (`fisher_matrix.py` L163-167).  Comparing frames with different labels raises `ValueError` in pandas. -/
def FM.eq (F G : FM N K) : Except Err Bool :=
  let a := F.matrix.sortIndex
  let b := G.matrix.sortIndex
  if a.rows = b.rows ∧ a.cols = b.cols then
    .ok (a.rows.all (fun x => a.cols.all (fun y => decide (a.val x y = b.val x y)))
      && decide (F.name = G.name) && decide (F.phys = G.phys))
  else .error .valueError

/-- `checkAttributes` (`fisher_matrix.py` L175-193), on attributes of the right type. -/
def FM.check (F : FM N K) : Except Err Unit :=
  if F.matrix.rows.toFinset ≠ F.matrix.cols.toFinset then .error .exception
  else if F.matrix.rows.toFinset ≠ F.phys then .error .valueError
  else .ok ()

/-- Result of a method that may change the object and may raise: the object afterwards and the
returned value or exception. For `fisher_matrix.py` L195-208 (see `FM.select`). -/
abbrev Res (N K α : Type) := FM N K × Except Err α

/-- `selectRelevantFisherSubMatrix` (`fisher_matrix.py` L195-208). -/
def FM.select (en : Finset N → List N) (F : FM N K) : Res N K Unit :=
  let relevant := F.cosmo ∪ F.nuis
  if ∀ a ∈ relevant, a ∈ F.matrix.rows then
    let exclude := if F.margFlag then ∅ else F.nuis
    let F₁ := if F.margFlag then F else { F with nuis := ∅ }
    match F.matrix.locSet en (relevant \ exclude) with
    | .error e => (F₁, .error e)
    | .ok m => ({ F₁ with matrix := m.sortIndex }, .ok ())
  else (F, .error .fisherError)

/-- `fixParameters` (`fisher_matrix.py` L210-217). -/
def FM.fix (F : FM N K) (params : Finset N) : Res N K Unit :=
  if params \ F.phys ≠ ∅ then (F, .error .exception)
  else
    let F₁ := { F with cosmo := F.cosmo \ params, nuis := F.nuis \ params }
    match F.matrix.dropSet params with
    | .error e => (F₁, .error e)
    | .ok m => ({ F₁ with matrix := m }, .ok ())

/-- `evaluateInverse` (`fisher_matrix.py` L219-220). -/
noncomputable def FM.evalInverse (F : FM N K) : Res N K Unit :=
  match invertDf F.matrix with
  | .error e => (F, .error e)
  | .ok m => ({ F with inverse := some m }, .ok ())

/-- `marginalizeParameters(params, ret_copy=True)` (`fisher_matrix.py` L241-259): the receiver afterwards and the
returned matrix. -/
noncomputable def FM.margCopy (en : Finset N → List N) (F : FM N K) (params : Finset N) :
    Res N K (FM N K) :=
  let all := F.matrix.rows.toFinset
  if params \ all ≠ ∅ then (F, .error .fisherError)
  else match invertDf F.matrix with
    | .error e => (F, .error e)
    | .ok inv =>
      let F₁ := { F with inverse := some inv }
      match inv.locSet en (all \ params) with
      | .error e => (F₁, .error e)
      | .ok sliced =>
        match invertDf sliced with
        | .error e => (F₁, .error e)
        | .ok m => (F₁, .ok { F₁.copy with
            cosmo := F₁.cosmo \ params, nuis := F₁.nuis \ params, inverse := some sliced,
            matrix := m.sortIndex })

/-- `marginalizeParameters(params, ret_copy=False)` (`fisher_matrix.py` L241-250, L260-267). -/
noncomputable def FM.margInPlace (en : Finset N → List N) (F : FM N K) (params : Finset N) :
    Res N K Unit :=
  let all := F.matrix.rows.toFinset
  if params \ all ≠ ∅ then (F, .error .fisherError)
  else match invertDf F.matrix with
    | .error e => (F, .error e)
    | .ok inv =>
      let F₁ := { F with inverse := some inv }
      match inv.locSet en (all \ params) with
      | .error e => (F₁, .error e)
      | .ok sliced =>
        let F₂ := { F₁ with cosmo := F.cosmo \ params, nuis := F.nuis \ params,
                            inverse := some sliced }
        match invertDf sliced with
        | .error e => (F₂, .error e)
        | .ok m => ({ F₂ with matrix := m.sortIndex }, .ok ())

/-- `marginalizeNuisance(ret_copy=True)` (`fisher_matrix.py` L269-277). -/
noncomputable def FM.margNuisCopy (en : Finset N → List N) (F : FM N K) : Res N K (FM N K) :=
  if F.margFlag then F.margCopy en F.nuis else (F, .ok F.copy)

/-- `marginalizeNuisance(ret_copy=False)` (`fisher_matrix.py` L269-277). -/
noncomputable def FM.margNuisInPlace (en : Finset N → List N) (F : FM N K) : Res N K Unit :=
  if F.margFlag then F.margInPlace en F.nuis else (F, .ok ())

/-- `df.loc[a, b]`. For `fisher_matrix.py` L279-283 (see `FM.sigma`). -/
def DF.at (d : DF N K) (a b : N) : Except Err K :=
  if a ∈ d.rows ∧ b ∈ d.cols then .ok (d.val a b) else .error .keyError

/-- `getParameterSigma` (`fisher_matrix.py` L279-283).  The square root is the parameter `sq`. -/
def FM.sigma (sq : K → K) (F : FM N K) (p : N) : Except Err K :=
  match F.inverse with
  | none => .error .valueError
  | some inv => (inv.at p p).map sq

/-- `getFigureOfMerit` (`fisher_matrix.py` L222-226); `inverse` must have been evaluated (`None.loc` is an
`AttributeError`, here `typeError`).  The determinant of the block of a set of one or two names does
not depend on their order and is written out. -/
def FM.fom (sq : K → K) (F : FM N K) (p q : N) : Except Err K :=
  match F.inverse with
  | none => .error .typeError
  | some inv =>
    if (p ∈ inv.rows ∧ p ∈ inv.cols) ∧ (q ∈ inv.rows ∧ q ∈ inv.cols) then
      .ok (1 / sq (if p = q then inv.val p p
        else inv.val p p * inv.val q q - inv.val p q * inv.val q p))
    else .error .keyError

/-- `errs.loc[self.cosmological_parameters]` (`fisher_matrix.py` L289-290): restriction of the error series. -/
def FM.onlyCosmo (en : Finset N → List N) (F : FM N K) (onlyCosmo : Bool) (errs : List (N × K)) :
    Except Err (List (N × K)) :=
  if onlyCosmo then
    if ∀ p ∈ F.cosmo, p ∈ F.matrix.rows then
      .ok ((en F.cosmo).filterMap (fun p => (errs.lookup p).map (fun v => (p, v))))
    else .error .keyError
  else .ok errs

/-- The entry `FoM` of the error series (`fisher_matrix.py` L291-292). -/
def FM.fomEntry (sq : K → K) (w0 wa : N) (fom : Bool) (F : FM N K) : Except Err (Option K) :=
  if fom ∧ w0 ∈ F.matrix.rows ∧ wa ∈ F.matrix.rows then (F.fom sq w0 wa).map some else .ok none

/-- `getMarginalizedErrors` after the inverse is there (`fisher_matrix.py` L288-296). -/
def FM.readErrors (en : Finset N → List N) (sq : K → K) (w0 wa : N) (fom onlyCosmo : Bool)
    (F : FM N K) : Except Err (List (N × K) × Option K) :=
  match F.matrix.rows.mapM (fun p => (F.sigma sq p).map (fun v => (p, v))) with
  | .error e => .error e
  | .ok errs =>
    match F.onlyCosmo en onlyCosmo errs with
    | .error e => .error e
    | .ok errs =>
      match F.fomEntry sq w0 wa fom with
      | .error e => .error e
      | .ok f => .ok (errs.mergeSort (fun x y => decide (x.1 ≤ y.1)), f)

/-- `getMarginalizedErrors` (`fisher_matrix.py` L285-296): the object afterwards, and the errors sorted by name with
the figure of merit of the names `w0`, `wa` if both are in the matrix. -/
noncomputable def FM.margErrors (en : Finset N → List N) (sq : K → K) (w0 wa : N)
    (fom onlyCosmo : Bool) (F : FM N K) : Res N K (List (N × K) × Option K) :=
  match F.inverse with
  | some _ => (F, F.readErrors en sq w0 wa fom onlyCosmo)
  | none =>
    match F.evalInverse with
    | (F₁, .error e) => (F₁, .error e)
    | (F₁, .ok ()) => (F₁, F₁.readErrors en sq w0 wa fom onlyCosmo)

/-- `getUnmarginalizedErrors` (`fisher_matrix.py` L298-303): the diagonal is read by position and labelled with the row
labels. -/
def FM.unmargErrors (en : Finset N → List N) (sq : K → K) (onlyCosmo : Bool) (F : FM N K) :
    Except Err (List (N × K)) :=
  if F.matrix.cols.length < F.matrix.rows.length then .error .valueError
  else F.onlyCosmo en onlyCosmo
    ((F.matrix.rows.zip F.matrix.cols).map (fun ab => (ab.1, 1 / sq (F.matrix.val ab.1 ab.2))))

/-- `evaluateCorrelationMatrix` (`fisher_matrix.py` L228-239).  The standard deviations are taken from the diagonal of
the inverse by position and labelled with the matrix's labels by position; the quotient is aligned
by label.  An inverse with other labels than the matrix gives NaN entries (outside the model). -/
def FM.evalCorrelation (en : Finset N → List N) (sq : K → K) (F : FM N K) : Res N K Unit :=
  match F.inverse with
  | none => (F, .error .typeError)
  | some inv =>
    let sigmas := (inv.rows.zip inv.cols).map (fun ab => sq (inv.val ab.1 ab.2))
    if sigmas.length ≠ F.matrix.rows.length ∨ sigmas.length ≠ F.matrix.cols.length then
      (F, .error .valueError)
    else
      let sigmaRow := fun (_ b : N) => (sigmas[F.matrix.cols.idxOf b]?).getD 0
      let sigmaCol := fun (a _ : N) => (sigmas[F.matrix.rows.idxOf a]?).getD 0
      let den : DF N K := ⟨F.matrix.rows, F.matrix.cols, fun a b => sigmaRow a b * sigmaCol a b⟩
      match DF.zip (· / ·) inv den with
      | .error e => (F, .error e)
      | .ok c =>
        match c.locSet en F.cosmo with
        | .error e => ({ F with correlation := some c }, .error e)
        | .ok c' => ({ F with correlation := some c'.sortIndex }, .ok ())

/-- Diagonal entry of the prior matrix (`fisher_matrix.py` L306-309). -/
def priorAt (fiducials : List (N × K)) (frac : K) (a : N) : K :=
  match fiducials.lookup a with
  | some v => 1 / (frac * v) ^ 2
  | none => 0

/-- `addPriorToParameters` (`fisher_matrix.py` L305-311): a name that is not a label would enlarge the frame with NaN
entries (outside the model). -/
def FM.addPrior (F : FM N K) (fiducials : List (N × K)) (frac : K) : Res N K Unit :=
  if ∃ nv ∈ fiducials, frac * nv.2 = 0 then (F, .error .zeroDivision)
  else if ∃ nv ∈ fiducials, nv.1 ∉ F.matrix.rows ∨ nv.1 ∉ F.matrix.cols then (F, .error .nan)
  else
    let v := fun a b => F.matrix.val a b + (if a = b then priorAt fiducials frac a else 0)
    ({ F with matrix := { F.matrix with val := v } }, .ok ())

end Seyfert.Fisher
