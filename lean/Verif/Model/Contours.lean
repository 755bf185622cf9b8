import Verif.Model.Collector
import Verif.Model.Batch
import Mathlib.Data.List.Lex
import Mathlib.Data.List.Sort

/-!
Model of the helpers which choose an analysis and plot its contours (`seyfert/notebook_helpers/contours.py`), of the choice of
matrices by names without spaces (`misc.py`) and of the data of the bar plots (`barplots.py`). What matplotlib draws is not
modelled, nor the files read by the plotter (`Model/Plot.lean`).
-/

namespace Seyfert.Contour
open Collector (Cell Analysis query subsetAnalysis)

/-- The exceptions of the functions modelled here, by their kinds (`contours.py` L30-160). -/
inductive Err where
  | select (e : Collector.Err)
  | notOne
  | keyError
  | attributeError
deriving DecidableEq

/-- A row of the table of analyses: options, analysis, and the metadata of the analysis.
For `results_collector.py` L121-128 (see `chooseAll`). -/
abbrev ARow (F E : Type) := Dict Str Cell × Analysis F E × Dict Str Cell

/-- The analysis returned: its name, matrices with errors, and metadata. For `contours.py` L41-60 (see `forFishers`). -/
structure Chosen (F E : Type) where
  name : Str
  an : Analysis F E
  info : Dict Str Cell

/-- A column of the table of analyses (`contours.py` L35). -/
def kRun : Str := "run_id".toList
/-- A column of the table of analyses (`contours.py` L48-52, L116-119). -/
def kScenario : Str := "scenario".toList
/-- A column of the table of analyses (`contours.py` L48-52, L116-119). -/
def kCase : Str := "case".toList
/-- A column of the table of analyses (`contours.py` L48-52, L116-119). -/
def kSub : Str := "subcase".toList
/-- A column of the table of analyses (`contours.py` L48-52, L116-119). -/
def kBins : Str := "n_bins".toList

/-- `getFisherAnalysesSubDf` (`results_collector.py` L121-128): after the query the matrices are chosen in every row left. -/
def chooseAll {F E : Type} (fishers : List Str) : List (ARow F E) → Except Err (List (ARow F E))
  | [] => .ok []
  | r :: rs => match subsetAnalysis r.2.1 fishers with
    | .error e => .error (.select e)
    | .ok a => match chooseAll fishers rs with
      | .error e => .error e
      | .ok l => .ok ((r.1, a, r.2.2) :: l)

/-- The metadata of the analysis returned (L50-54). -/
def newInfo (run : Str) (info sel add : Dict Str Cell) : Dict Str Cell :=
  PyDict.update (PyDict.update (PyDict.set (PyDict.set info kRun (.str run)) kScenario
    (.str ((splitChar '_' run).headD []))) sel) add

/-- `get_fisher_analysis_for_fishers` (`contours.py` L41-60). The evaluation of the errors again (L56-58) is not modelled. A
run id which is no text has no `split`. -/
def forFishers {F E : Type} (columns : List Str) (rows : List (ARow F E)) (sel : Dict Str Cell) (fishers : List Str)
    (add : Dict Str Cell) : Except Err (Chosen F E) :=
  match query columns rows sel with
  | .error e => .error (.select e)
  | .ok rs => match chooseAll fishers rs with
    | .error e => .error e
    | .ok [r] => match r.1.lookup kRun with
      | none => .error .keyError
      | some (.str run) => .ok ⟨run, r.2.1, newInfo run r.2.2 sel add⟩
      | some _ => .error .attributeError
    | .ok _ => .error .notOne

/-- `get_fisher_analysis_for_case_subcase` (L34-38); `defs` is the file `contour_plots_defs.json`. -/
def forCase {F E : Type} (defs : Dict Str (Dict Str (List Str))) (columns : List Str) (rows : List (ARow F E))
    (sel : Dict Str Cell) (case subcase : Str) : Except Err (Chosen F E) :=
  match (defs.lookup case).bind (·.lookup subcase) with
  | none => .error .keyError
  | some fishers => forFishers columns rows sel fishers [(kCase, .str case), (kSub, .str subcase)]

/-! ### The plot -/

/-- Values of options. For L102-106 (see `defaults`). -/
inductive Opt where
  | none
  | bool (b : Bool)
  | dict
  | other (n : Nat)
deriving DecidableEq

/-- Truth of an option in an `if`; other objects are taken for true. For L99-166 (see `triPlot`). -/
def Opt.truth : Opt → Bool
  | .none => false
  | .bool b => b
  | .dict => false
  | .other _ => true

/-- The options `do_tri_plot` knows (L102-106). -/
def defaults : Dict Str Opt :=
  [("save".toList, .bool true), ("closefig".toList, .bool false), ("usetex".toList, .bool false),
   ("write_ranges".toList, .bool true), ("ranges_file".toList, .none), ("cmap".toList, .none), ("legend_kwargs".toList, .dict),
   ("text_box_kwargs".toList, .dict)]

/-- L100-108: `key in kwds` of the dictionary with default values tells the keys set so far. -/
def options (given : Dict Str Opt) : Dict Str Opt :=
  PyDict.update defaults (given.filter fun p => p.1 ∈ defaults.map (·.1))

/-- The names that `tex_dict` has (L19-28). -/
def texNames : List Str :=
  ["phsp".toList, "wlsp".toList, "6x2pt".toList, "fullcl".toList, "2dx3d".toList, "cl".toList, "fullcl_vs_2dx3d".toList]

/-- A path by its components (`contours.py` L155-160). -/
abbrev Path := List Str

/-- The file of the ranges (L155), from the directory fixed in the module. -/
def rangesFile (root : Path) (scenario case sub bins : Str) : Path :=
  root ++ ["configs".toList, "ranges".toList, scenario, case ++ '_' :: sub ++ '_' :: bins ++ "_bins_ranges.json".toList]

/-- The file of the plot (L158-160). -/
def plotFile (dir : Path) (case sub bins : Str) (pars : List Str) : Path :=
  dir ++ [case, sub, "contour_".toList ++ joinStr ['_'] (pars.insertionSort (· ≤ ·)) ++ '_' :: bins ++ "_bins.pdf".toList]

/-- `do_tri_plot` (L99-166): the files written, in order. `fmt` writes a value into a name. The metadata are read first
(L115-119), `tex_dict` before the files are written (L140). The setting of the colours is `colours` below; the writing itself
and the existence of the directory of the ranges are not modelled. -/
def triPlot {F E : Type} (fmt : Cell → Str) (root dir : Path) (pars : List Str) (given : Dict Str Opt) (c : Chosen F E) :
    Except Err (List Path) :=
  match c.info.lookup kScenario, c.info.lookup kCase, c.info.lookup kSub, c.info.lookup kBins with
  | some scenario, some case, some sub, some bins =>
    if (∃ s ∈ texNames, Cell.str s = case) ∧ ∃ s ∈ texNames, Cell.str s = sub then
      .ok (rangesFile root (fmt scenario) (fmt case) (fmt sub) (fmt bins) ::
        if ((options given).lookup "save".toList).any Opt.truth then [plotFile dir (fmt case) (fmt sub) (fmt bins) pars] else [])
    else .error .keyError
  | _, _, _, _ => .error .keyError

/-- A colour map given as option: a list of colours, a smooth map, a name, or nothing. For L123-133 (see `colours`). -/
inductive CMap where
  | listed (n : Nat)
  | smooth
  | named (known : Bool) (n : Nat)
  | none
deriving DecidableEq

/-- The colour map used (L123-133) for `k` matrices; `some .smooth` stands for `rainbow`, `none` for the one of the
configuration. A smooth map has no attribute `colors`. -/
def colours (k : Nat) : CMap → Except Err (Option CMap)
  | .listed n => if n < k then .ok (some .smooth) else .ok (some (.listed n))
  | .smooth => .error .attributeError
  | .named true n => .ok (some (.named true n))
  | .named false _ => .ok none
  | .none => .ok none

/-! ### Choice by names without spaces (`misc.py` L11-26) -/

/-- `re.sub(r"\s", "", s)`. For L18-20 (see `subsetAll`). -/
def removeSpaces (s : Str) : Str := s.filter fun c => !Batch.isSpace c

/-- The dictionary comprehension of `get_subset_analyses_for_fishers` (L18-20). Preparing the matrices and evaluating the
errors (L22-24) is not modelled. -/
def subsetAll {F E : Type} (names : List Str) : Dict Nat (Analysis F E) → Except Err (Dict Nat (Analysis F E))
  | [] => .ok []
  | (n, a) :: l => match subsetAnalysis a (names.map removeSpaces) with
    | .error e => .error (.select e)
    | .ok b => match subsetAll names l with
      | .error e => .error e
      | .ok r => .ok ((n, b) :: r)

/-! ### Bar plots (`barplots.py`) -/

/-- The rows of `sliceResultsForFishersAndNbins` (L97-101): matrix, bins, figure of merit and errors. The order of the rows is
that of the table; pandas refuses an empty selection. -/
def slice {K E : Type} [LinearOrder K] [Div K] (t : List (Str × Nat × K × E)) (fishers : List Str) (bins : Nat) :
    Except Err (List (Str × K × E)) :=
  let l := t.filter fun r => r.1 ∈ fishers ∧ r.2.1 = bins
  match l with
  | [] => .error .keyError
  | r :: rs =>
    let m := (rs.map (·.2.2.1)).foldl max r.2.2.1
    .ok (l.map fun r => (r.1, r.2.2.1 / m, r.2.2.2))

/-- Whether each of the two panels of `doPairErrorBarPlot` has a legend (L145-147). -/
def pairLegends (n1 n2 : Nat) (legend : Bool) : List (Nat × Bool) :=
  [n1, n2].map fun n => (n, legend && decide (n = n1))

/-- The panels of `doGridErrorBarPlot` with their legends (L160-162). -/
def gridLegends : List (Nat × Bool) := [4, 12, 24, 40].map fun n => (n, decide (n = 12))

end Seyfert.Contour
