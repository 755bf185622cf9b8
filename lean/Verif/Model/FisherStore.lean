import Verif.Model.Fisher

/-!
Model of the code that handles several Fisher matrix objects by reference:
`seyfert/fisher/final_results_core.py`, `seyfert/fisher/fisher_analysis.py` and the operators of
`fisher_matrix.py` seen as operations on a heap.

The heap is a list of objects, a reference is a position in it; objects are only appended or replaced
at their position.  A `Dict[str, FisherMatrix]` is a dictionary of references.
-/

namespace Seyfert.Fisher

variable {N K : Type} [LinearOrder N] [Field K] [DecidableEq K]

/-- The objects `FisherMatrix` made so far (`fisher_matrix.py` L22-60); an object is known by its place. -/
abbrev Heap (N K : Type) := List (FM N K)
/-- A reference to an object: its place (`final_results_core.py` L106-138, where dictionaries hold references). -/
abbrev Ref := Nat

/-- `d[k] = v`: an existing key keeps its place. For `final_results_core.py` L106-115 (see `evalAll`). -/
def dictSet {β : Type} (d : Dict Str β) (k : Str) (v : β) : Dict Str β :=
  if d.any (fun x => x.1 == k) then d.map (fun x => if x.1 = k then (k, v) else x) else d ++ [(k, v)]

/-- `zeroPadMatrices(F1, F2)` (fisher_matrix.py L125-139): enlarges the two objects in place. -/
def zeroPadH (en : Finset N → List N) (h : Heap N K) (i j : Ref) : Heap N K :=
  match h[i]?, h[j]? with
  | some F, some G => (h.set i (zeroPad en F G).1).set j (zeroPad en F G).2
  | _, _ => h

/-- `__add__` and `__sub__` (fisher_matrix.py L141-161) on the heap: both operands are copied, the
copies are enlarged in place, the result is a new object.  The result is `.error` only where pandas
would fill in NaN (see `DF.zip`) or for dangling references. -/
def combineH (en : Finset N → List N) (op : K → K → K) (sep : Str) (h : Heap N K) (i j : Ref) :
    Except Err (Heap N K × Ref) :=
  match h[i]?, h[j]? with
  | some F, some G =>
    let h₁ := h ++ [F.copy, G.copy]
    let h₂ := zeroPadH en h₁ h.length (h.length + 1)
    match h₂[h.length]?, h₂[h.length + 1]? with
    | some F₁, some F₂ =>
      match DF.zip op F₁.matrix F₂.matrix with
      | .error e => .error e
      | .ok m =>
        let R : FM N K := { matrix := m, name := F₁.name ++ sep ++ F₂.name,
                            cosmo := F₁.cosmo ∪ F₂.cosmo, nuis := F₁.nuis ∪ F₂.nuis }
        .ok (h₂ ++ [R], h₂.length)
    | _, _ => .error .keyError
  | _, _ => .error .keyError

/-- `re.split(r" (\+|-) ", s)` (final_results_core.py L119): operands and operators alternate. -/
def splitOpsGo (cur : Str) : Str → List Str
  | [] => [cur.reverse]
  | ' ' :: '+' :: ' ' :: r => cur.reverse :: ['+'] :: splitOpsGo [] r
  | ' ' :: '-' :: ' ' :: r => cur.reverse :: ['-'] :: splitOpsGo [] r
  | c :: r => splitOpsGo (c :: cur) r

/-- `re.split` of the name of a combination (`final_results_core.py` L119). -/
def splitOps (s : Str) : List Str := splitOpsGo [] s

/-- Whether a piece is an operator (`final_results_core.py` L119-131). -/
def isOperator (s : Str) : Bool := s == ['+'] || s == ['-']

/-- The loop of `_compute_a_posteriori_fisher_comb_from_name` (`final_results_core.py` L131-138) over the operator
positions. -/
def combLoop (en : Finset N → List N) (Fs : Dict Str Ref) (opList : List Str) :
    List Nat → Heap N K → Ref → Except Err (Heap N K × Ref)
  | [], h, r => .ok (h, r)
  | idx :: rest, h, r =>
    match opList[idx]?, (opList[idx + 1]?).bind (fun o => Fs.lookup o) with
    | some o, some s =>
      match (if o = ['+'] then combineH en (· + ·) " + ".toList h r s
             else combineH en (· - ·) " - ".toList h r s) with
      | .error e => .error e
      | .ok (h', r') => combLoop en Fs opList rest h' r'
    | _, _ => .error .keyError

/-- `_compute_a_posteriori_fisher_comb_from_name` (`final_results_core.py` L118-138); `none` when an operand is missing. -/
def evalComb (en : Finset N → List N) (h : Heap N K) (Fs : Dict Str Ref) (name : Str) :
    Except Err (Heap N K × Option Ref) :=
  let opList := splitOps name
  let idxs := (List.range opList.length).filter (fun i => (opList[i]?.map isOperator).getD false)
  if opList.any (fun o => !isOperator o && (Fs.lookup o).isNone) then .ok (h, none)
  else
    match opList.head?.bind (fun o => Fs.lookup o) with
    | none => .error .keyError
    | some r =>
      match combLoop en Fs opList idxs h r with
      | .error e => .error e
      | .ok (h', r') => .ok (h', some r')

/-- `evaluate_a_posteriori_fisher_combinations` (`final_results_core.py` L106-115). -/
def evalAll (en : Finset N → List N) (h : Heap N K) (Fs : Dict Str Ref) :
    List Str → Except Err (Heap N K × Dict Str Ref)
  | [] => .ok (h, Fs)
  | n :: ns =>
    match evalComb en h Fs n with
    | .error e => .error e
    | .ok (h', some r) => evalAll en h' (dictSet Fs n r) ns
    | .ok (h', none) => evalAll en h' Fs ns

/-- A loop `for key in d: d[key].method()`: the method is applied to the objects in turn until one
call raises. For `fisher_analysis.py` L56-65 (see `analysisInit`). -/
def forRefs {α : Type} (f : FM N K → Res N K α) :
    Heap N K → List Ref → Heap N K × Except Err (List α)
  | h, [] => (h, .ok [])
  | h, r :: rs =>
    match h[r]? with
    | none => (h, .error .keyError)
    | some F =>
      match f F with
      | (F', .error e) => (h.set r F', .error e)
      | (F', .ok a) =>
        match forRefs f (h.set r F') rs with
        | (h', .error e) => (h', .error e)
        | (h', .ok as) => (h', .ok (a :: as))

/-- `copy.deepcopy(fisher_matrices)` (`final_results_core.py` L62): one new object per distinct object, `__deepcopy__` being
`copy`. -/
def deepcopyDict (h : Heap N K) (d : Dict Str Ref) : Heap N K × Dict Str Ref :=
  let rs := (d.map Prod.snd).dedup
  (h ++ (rs.filterMap (fun r => h[r]?)).map FM.copy,
   d.map (fun x => (x.1, h.length + rs.idxOf x.2)))

/-- What is done with nuisance parameters before combining (`final_results_core.py` L76-82). -/
inductive NuisMode where
  | fixed | margBefore | margAfter
deriving DecidableEq

/-- Lines 76-82. For `final_results_core.py` L58-88 (see `createResults`). -/
noncomputable def nuisStep (en : Finset N → List N) : NuisMode → FM N K → Res N K Unit
  | .fixed, F => F.fix F.nuis
  | .margBefore, F => F.margNuisInPlace en
  | .margAfter, F => (F, .ok ())

/-- `FisherAnalysis.__init__` for a dictionary of matrices (fisher_analysis.py L56-65): the flag of
every passed object is overwritten, then every object is sliced. -/
def analysisInit (en : Finset N → List N) (flag : Bool) (h : Heap N K) (d : Dict Str Ref) :
    Heap N K × Except Err (List Unit) :=
  match forRefs (fun F : FM N K => ({ F with margFlag := flag }, .ok ())) h (d.map Prod.snd) with
  | (h', .error e) => (h', .error e)
  | (h', .ok _) => forRefs (FM.select en) h' (d.map Prod.snd)

/-- `create_results_for_cosmology` (final_results_core.py L58-88) up to the computed errors; `fixed`
are the cosmological parameters that the cosmology does not leave free.  Writing the files is not
modelled here. -/
noncomputable def createResults (en : Finset N → List N) (sq : K → K) (w0 wa : N) (h : Heap N K)
    (d : Dict Str Ref) (fixed : Finset N) (mode : NuisMode) (names : List Str) :
    Heap N K × Except Err (Dict Str Ref × List (List (N × K) × Option K)) :=
  let c := deepcopyDict h d
  match forRefs (fun F : FM N K => F.fix fixed) c.1 (c.2.map Prod.snd) with
  | (h₂, .error e) => (h₂, .error e)
  | (h₂, .ok _) =>
    match forRefs (nuisStep en mode) h₂ (c.2.map Prod.snd) with
    | (h₃, .error e) => (h₃, .error e)
    | (h₃, .ok _) =>
      match evalAll en h₃ c.2 names with
      | .error e => (h₃, .error e)
      | .ok (h₄, Fs) =>
        match analysisInit en true h₄ Fs with
        | (h₅, .error e) => (h₅, .error e)
        | (h₅, .ok _) =>
          match forRefs (FM.margErrors en sq w0 wa true true) h₅ (Fs.map Prod.snd) with
          | (h₆, .error e) => (h₆, .error e)
          | (h₆, .ok errs) => (h₆, .ok (Fs, errs))

/-- `FisherAnalysis` (fisher_analysis.py L24-49): the two dictionaries. -/
structure Analysis where
  base : Option (Dict Str Ref) := none
  mats : Dict Str Ref := []

/-- `useBaseFishers` (`fisher_analysis.py` L204-208): the working dictionary refers to the base objects themselves. -/
def Analysis.useBase (a : Analysis) : Except Err Analysis :=
  match a.base with
  | none => .error .valueError
  | some b => .ok { a with mats := b }

/-- `marginalizeFishers` on one matrix (`fisher_analysis.py` L190-202); `none` is "all_nuisance". -/
noncomputable def margOne (en : Finset N → List N) (params : Option (Finset N)) (F : FM N K) :
    Res N K Unit :=
  F.margInPlace en ((params.getD F.nuis) ∩ F.phys)

/-- `invertFishers` on one matrix (`fisher_analysis.py` L185-188). -/
noncomputable def invertOne (en : Finset N → List N) (sq : K → K) (F : FM N K) : Res N K Unit :=
  match F.evalInverse with
  | (F', .error e) => (F', .error e)
  | (F', .ok _) => F'.evalCorrelation en sq

/-- `prepareFisherMatrices` on one matrix (`fisher_analysis.py` L144-148). -/
noncomputable def prepareOne (en : Finset N → List N) (sq : K → K) (F : FM N K) : Res N K Unit :=
  match F.select en with
  | (F', .error e) => (F', .error e)
  | (F', .ok _) => invertOne en sq F'

/-- Inner loop of `evaluateFishersFromAddendsList` (`fisher_analysis.py` L224-226): a copy of the first addend, then
`+=`. -/
def sumRefs (en : Finset N → List N) : Heap N K → Ref → List Ref → Except Err (Heap N K × Ref)
  | h, r, [] => .ok (h, r)
  | h, r, s :: ss =>
    match combineH en (· + ·) " + ".toList h r s with
    | .error e => .error e
    | .ok (h', r') => sumRefs en h' r' ss

/-- `evaluateFishersFromAddendsList` (`fisher_analysis.py` L210-226), starting from the emptied dictionary: the heap and
the dictionary afterwards, also when it raises half way. -/
def fromAddends (en : Finset N → List N) (base : Dict Str Ref) :
    Heap N K → Dict Str Ref → List (List Str) → Heap N K × Dict Str Ref × Except Err Unit
  | h, mats, [] => (h, mats, .ok ())
  | h, mats, adds :: rest =>
    match adds with
    | [] => (h, mats, .error .keyError)   -- `addend_list[0]` of an empty list raises IndexError
    | [name] =>
      match base.lookup name with
      | none => (h, mats, .error .exception)
      | some r => fromAddends en base h (dictSet mats name r) rest
    | first :: others =>
      match base.lookup first, others.mapM (fun o => base.lookup o) with
      | some r, some rs =>
        match h[r]? with
        | none => (h, mats, .error .keyError)
        | some F =>
          match sumRefs en (h ++ [F.copy]) h.length rs with
          | .error e => (h, mats, .error e)
          | .ok (h', r') => fromAddends en base h' (dictSet mats (joinStr "+".toList adds) r') rest
      | _, _ => (h, mats, .error .exception)

/-- Operations on an analysis after the base matrices are loaded. For `fisher_analysis.py` L204-208 (see `Analysis.useBase`). -/
inductive AOp (N : Type) where
  | useBase
  | addends (ls : List (List Str))
  | marg (params : Option (Finset N))
  | slice
  | invert
  | prepare
  | errors

/-- One operation: the heap and the analysis afterwards and whether it raised.
For `fisher_analysis.py` L210-226 (see `fromAddends`). -/
noncomputable def Analysis.step (en : Finset N → List N) (sq : K → K) (w0 wa : N) (h : Heap N K)
    (a : Analysis) : AOp N → Heap N K × Analysis × Except Err Unit
  | .useBase =>
    match a.useBase with
    | .error e => (h, a, .error e)
    | .ok a' => (h, a', .ok ())
  | .addends ls =>
    match a.base with
    | none => (h, { a with mats := [] }, .error .typeError)
    | some b =>
      let r := fromAddends en b h [] ls
      (r.1, { a with mats := r.2.1 }, r.2.2)
  | .marg ps =>
    let r := forRefs (margOne en ps) h (a.mats.map Prod.snd)
    (r.1, a, r.2.map fun _ => ())
  | .slice =>
    let r := forRefs (FM.select en) h (a.mats.map Prod.snd)
    (r.1, a, r.2.map fun _ => ())
  | .invert =>
    let r := forRefs (invertOne en sq) h (a.mats.map Prod.snd)
    (r.1, a, r.2.map fun _ => ())
  | .prepare =>
    let r := forRefs (prepareOne en sq) h (a.mats.map Prod.snd)
    (r.1, a, r.2.map fun _ => ())
  | .errors =>
    let r := forRefs (FM.margErrors en sq w0 wa true true) h (a.mats.map Prod.snd)
    (r.1, a, r.2.map fun _ => ())

/-- A history of operations; an operation that raises leaves what it has done so far.
For `fisher_analysis.py` L24-49 (see `Analysis`). -/
noncomputable def Analysis.run (en : Finset N → List N) (sq : K → K) (w0 wa : N) :
    Heap N K → Analysis → List (AOp N) → Heap N K × Analysis
  | h, a, [] => (h, a)
  | h, a, o :: os =>
    let s := a.step en sq w0 wa h o
    Analysis.run en sq w0 wa s.1 s.2.1 os

end Seyfert.Fisher
