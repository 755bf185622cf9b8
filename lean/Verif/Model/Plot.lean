import Mathlib.Algebra.Order.Field.Basic
import Mathlib.Data.List.Sort
import Verif.Model.PyStr
import Verif.Model.PyDict

/-!
Model of the plots of Fisher matrices (`fisher/fisher_plot.py` L20-513), of the part of
`fisher/fisher_results.py` that sets them up (L100-116) and of `notebook_helpers/contours.py` L76-99:
which parameters, matrices, colours and ranges are drawn where.  Drawing itself, fonts, ticks and the
translation of names are not modelled.

`z` stands for `sqrt(2) * erfinv(0.99)`.  Numbers are an ordered field.
-/

namespace Seyfert.Plot

variable {K : Type} [Field K] [LinearOrder K]

/-- The exceptions of the functions modelled here, by their kinds (`fisher_plot.py` L20-513). -/
inductive Err where
  | keyError | typeError | valueError | attributeError | indexError | notFound
  | nan   -- no exception in the code: the mean of nothing is not a number
deriving DecidableEq

/-- What the plotter reads of its analysis: the order of the matrices (L211-213), the fiducial values of
the cosmological parameters, and the table of marginalised errors by matrix and parameter. -/
structure An (K : Type) where
  order : List Str
  fid : List (Str × K)
  errs : List (Str × List (Str × K))

/-- Ranges by parameter. For L20-42 (see `Cfg`). -/
abbrev Ranges (K : Type) := List (Str × (K × K))

/-- `FisherPlotConfig` (L20-42) as far as it is modelled: the settings and the ranges. -/
structure Cfg (C K : Type) where
  settings : C
  ranges : Option (Ranges K) := none

/-- `FisherPlotter` (L192-205).  `colors` is `_colors_arr`. -/
structure Plotter (C K : Type) where
  analysis : Option (An K)
  pars : Option (List Str) := none
  config : Option (Cfg C K) := none
  colors : Option (List K) := none

/-- `np.linspace(0, 1, n, endpoint=True)`. For L275-280 (see `getColor`). -/
def linspace (n : Nat) : List K :=
  (List.range n).map (fun (i : Nat) => if n = 1 then 0 else (i : K) / ((n : K) - 1))

/-- Position of a matrix in the colour map, `getColorForFisher` (L275-280): the array of positions is
made at the first call and kept.  Returns the array kept and the result. -/
def getColor (order : List Str) (cache : Option (List K)) (name : Str) :
    Option (List K) × Except Err K :=
  if name ∈ order then
    let arr := cache.getD (linspace order.length)
    match arr[order.idxOf name]? with
    | none => (some arr, .error .indexError)
    | some x => (some arr, .ok x)
  else (cache, .error .valueError)

/-- Requests of colours one after the other, each with the order at that moment. For L275-280 (see `getColor`). -/
def getColors (cache : Option (List K)) : List (List Str × Str) → Option (List K) × List (Except Err K)
  | [] => (cache, [])
  | (o, n) :: l =>
    let r := getColor o cache n
    let rest := getColors r.1 l
    (rest.1, r.2 :: rest.2)

/-- What can be passed as `pars_to_plot`: a text or a list. For L232-242 (see `setParams`). -/
inductive ParsArg where
  | text (s : Str)
  | list (l : List Str)

/-- `setParamsToPlot` (L232-242): the text "all" means all parameters, any other text is taken as the
list of its letters. -/
def setParams {C : Type} (p : Plotter C K) (a : ParsArg) : Except Err (Plotter C K) :=
  match p.analysis with
  | none => .error .typeError
  | some an =>
    match a with
    | .text s =>
      if s = "all".toList then .ok { p with pars := some ((an.fid.map Prod.fst).insertionSort (· ≤ ·)) }
      else .ok { p with pars := some (s.map (fun c => [c])) }
    | .list l => .ok { p with pars := some l }

/-- The interval of one matrix, `computeParameterRangeForObsAtCL` (fisher_analysis.py L268-274). -/
def interval (z : K) (an : An K) (name obs : Str) : Except Err (K × K) :=
  match an.fid.lookup name, (an.errs.lookup obs).bind (fun row => row.lookup name) with
  | some m, some s => .ok (m - z * s, m + z * s)
  | _, _ => .error .keyError

/-- The intervals of several matrices. For L477-487 (see `plotRange`). -/
def intervals (z : K) (an : An K) (name : Str) : List Str → Except Err (List (K × K))
  | [] => .ok []
  | o :: l =>
    match interval z an name o with
    | .error e => .error e
    | .ok x =>
      match intervals z an name l with
      | .error e => .error e
      | .ok r => .ok (x :: r)

/-- `arr.mean()`. For L484-487 (see `meanLimits`). -/
def mean (l : List K) : K := l.sum / (l.length : K)

/-- The means of the lower and of the upper limits (L484-487). -/
def meanLimits (l : List (K × K)) : Except Err (K × K) :=
  if l = [] then .error .nan else .ok (mean (l.map Prod.fst), mean (l.map Prod.snd))

/-- `computePlotRangeForParameter` (L477-487). -/
def plotRange (z : K) (an : An K) (name : Str) : Except Err (K × K) :=
  match intervals z an name an.order with
  | .error e => .error e
  | .ok l => meanLimits l

/-- The loop of `setParametersPlotRanges` (L255-256). -/
def rangeLoop (z : K) (an : An K) : Ranges K → List Str → Except Err (Ranges K)
  | d, [] => .ok d
  | d, n :: l =>
    match plotRange z an n with
    | .error e => .error e
    | .ok r => rangeLoop z an (PyDict.set d n r) l

/-- A file of ranges passed to `setParametersPlotRanges`. For L247-256 (see `newRanges`). -/
inductive RangesFile (K : Type) where
  | missing
  | holds (r : Ranges K)

/-- The new ranges of `setParametersPlotRanges` (L247-256). -/
def newRanges {C : Type} (z : K) (p : Plotter C K) : Option (RangesFile K) → Except Err (Ranges K)
  | some .missing => .error .notFound
  | some (.holds r) => .ok r
  | none =>
    match p.pars with
    | none => .error .typeError
    | some names =>
      match p.analysis with
      | none => .error .attributeError
      | some an => rangeLoop z an [] names

/-- `setParametersPlotRanges` (L244-256): the plotter afterwards is described for calls that succeed. -/
def setRanges {C : Type} (z : K) (p : Plotter C K) (f : Option (RangesFile K)) :
    Except Err (Plotter C K) :=
  match p.config with
  | none => .error .attributeError
  | some c =>
    match newRanges z p f with
    | .error e => .error e
    | .ok r => .ok { p with config := some { c with ranges := some r } }

/-- `setPlotConfig` (L258-273): `dflt` are the settings of the file of the package, `file` those of the
file passed; the configuration object is a new one.  `config_dict` is merged after the colour map and
the transparencies are taken from the file; that is not modelled. -/
def setConfig {C : Type} (dflt : C) (p : Plotter C K) (useDefault : Bool) (file : Option C) :
    Except Err (Plotter C K) :=
  match if useDefault then some dflt else file with
  | none => .error .valueError
  | some s =>
    match p.pars with
    | none => .error .typeError
    | some _ => .ok { p with config := some { settings := s } }

/-- `setUpDefault` (L227-230). -/
def setUpDefault {C : Type} (dflt : C) (z : K) (p : Plotter C K) : Except Err (Plotter C K) :=
  match setParams p (.text "all".toList) with
  | .error e => .error e
  | .ok p1 =>
    match setConfig dflt p1 true none with
    | .error e => .error e
    | .ok p2 => setRanges z p2 none

/-- `build_plotter` (contours.py L76-99) without the formats of ticks: `configDict` tells whether a
dictionary of settings is passed. -/
def buildPlotter {C : Type} (dflt : C) (z : K) (an : An K) (pars : ParsArg) (file : C) (configDict : Bool) :
    Except Err (Plotter C K) :=
  match setParams { analysis := some an } pars with
  | .error e => .error e
  | .ok p1 =>
    match setConfig dflt p1 false (if configDict then none else some file) with
    | .error e => .error e
    | .ok p2 => setRanges z p2 none

/-- A panel of the triangle: nothing, the curves of a parameter, or the ellipses of two. For L305-321 (see `panel`). -/
inductive Panel where
  | off
  | gauss (name : Str)
  | ellipse (x y : Str)
deriving DecidableEq

/-- The panel in row `i` and column `j`, `drawContours` (L305-321). -/
def panel (pars : List Str) (i j : Nat) : Option Panel :=
  match pars[i]?, pars[j]? with
  | some ni, some nj =>
    some (if i < j then .off else if i = j then .gauss ni else .ellipse nj ni)
  | _, _ => none

/-- `makeTriangularPlot` (L282-303) up to the drawing: the matrices drawn in every panel and in the
legend, in this order.  With one parameter `plt.subplots` gives no array, with none it raises. -/
def drawn (order : List Str) (asked : Option (List Str)) (pars : List Str) : Except Err (List Str) :=
  if pars.length = 0 then .error .valueError
  else if pars.length = 1 then .error .attributeError
  else .ok (asked.getD order)

/-- The file of ranges after `writeParameterPlotRangesToFile` (L464-475). -/
def writeRanges (old : Option (Ranges K)) (r : Ranges K) (overwrite : Bool) : Ranges K :=
  match old with
  | none => r
  | some o => if overwrite then r else o

/-- `FisherPlotConfig(fishers=…, n_cosmo_pars=…)` (fisher_results.py L105-106): the constructor
(fisher_plot.py L26-28) has no parameter `fishers`. -/
def resultsConfig {C : Type} : Except Err (Cfg C K) := .error .typeError

/-- The loop of `setupFisherPlotters` (fisher_results.py L102-116): plotters made. -/
def setupPlotters {C : Type} (dflt : C) (z : K) : List (Str × An K) → Except Err (List (Str × Plotter C K))
  | [] => .ok []
  | (n, an) :: l =>
    match (resultsConfig : Except Err (Cfg C K)) with
    | .error e => .error e
    | .ok c =>
      match setUpDefault dflt z { analysis := some an, config := some c } with
      | .error e => .error e
      | .ok p =>
        match setupPlotters dflt z l with
        | .error e => .error e
        | .ok r => .ok ((n, p) :: r)

end Seyfert.Plot
