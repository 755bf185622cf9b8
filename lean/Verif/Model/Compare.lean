import Verif.Model.Names
import Verif.Model.Numeric
import Verif.Model.PyDict

/-!
Comparison of two runs: `seyfert/utils/run_loader.py`, `seyfert/file_io/retro_comp.py`,
`seyfert/utils/comparison_utils.py`, and reading of stored results in `seyfert/fisher/fisher_results.py`.
-/

namespace Seyfert.Compare

/-- The exceptions of the functions modelled here, by their kinds (`run_loader.py`, `retro_comp.py`,
`comparison_utils.py`). For `retro_comp.py` L119-129 (see `cosmoReader`). -/
inductive Err
  | attributeError
  | invalidVersion
  | notUnique
  | unknownPars
  | badName
  | differentLabels
  | keyError
  deriving DecidableEq, Repr

/-! ### Version of a run and readers of old formats -/

/-- The group of the regular expression `([0-9]\.[0-9]\.[0-9][a-z]?)(dev)?` (`run_loader.py` L83) at the start. -/
def matchVersion : Str → Option Str
  | a :: d1 :: b :: d2 :: c :: rest =>
    if isDigit a && d1 == '.' && isDigit b && d2 == '.' && isDigit c then
      some (a :: d1 :: b :: d2 :: c :: (match rest with
        | x :: _ => if isLower x then [x] else []
        | [] => []))
    else none
  | _ => none

/-- `vregex.search(name).groups()[0]` (L84); `none` is the `AttributeError` when there is no match. -/
def searchVersion : Str → Option Str
  | [] => none
  | c :: s => (matchVersion (c :: s)).or (searchVersion s)

/-- What a version of this form is, compared with another version with the same numbers and no letter: `packaging`
takes `a`, `b` and `c` for versions before it and `r` for a version after it, and refuses all other letters.
For `retro_comp.py` L111, L120 (see `parseVersion`). -/
inductive Suffix
  | pre
  | none
  | post
  deriving DecidableEq, Repr

/-- `Version(version)` for texts found by `searchVersion` (`retro_comp.py` L111, L120). -/
def parseVersion : Str → Option ((Nat × Nat × Nat) × Suffix)
  | [a, _, b, _, c] => some ((digitVal a, digitVal b, digitVal c), .none)
  | [a, _, b, _, c, x] =>
    if x = 'a' ∨ x = 'b' ∨ x = 'c' then some ((digitVal a, digitVal b, digitVal c), .pre)
    else if x = 'r' then some ((digitVal a, digitVal b, digitVal c), .post)
    else Option.none
  | _ => Option.none

/-- The three formats of files. For `retro_comp.py` L119-129 (see `cosmoReader`). -/
inductive Reader
  | v104
  | v110
  | current
  deriving DecidableEq, Repr

/-- `v < Version('1.1.0')`. For `retro_comp.py` L119-129 (see `cosmoReader`). -/
def isOlder (q : (Nat × Nat × Nat) × Suffix) : Bool :=
  if q.1.1 < 1 then true
  else if 1 < q.1.1 then false
  else if q.1.2.1 < 1 then true
  else if 1 < q.1.2.1 then false
  else if 0 < q.1.2.2 then false
  else decide (q.2 = .pre)

/-- `v == Version('1.1.0')`. For `retro_comp.py` L119-129 (see `cosmoReader`). -/
def isSame (q : (Nat × Nat × Nat) × Suffix) : Bool := decide (q = ((1, 1, 0), .none))

/-- `read_cosmo_file` (`retro_comp.py` L119-129): which reader is used. -/
def cosmoReader (version : Str) : Except Err Reader :=
  match parseVersion version with
  | none => .error .invalidVersion
  | some v => if isOlder v then .ok .v104 else if isSame v then .ok .v110 else .ok .current

/-- `read_cls_file` (`retro_comp.py` L110-116). -/
def clsReader (version : Str) : Except Err Reader :=
  match parseVersion version with
  | none => .error .invalidVersion
  | some v => if isOlder v then .ok .v104 else .ok .current

/-- The reader of the cosmologies of a run directory (`run_loader.py` L84, L124). -/
def runReader (dirname : Str) : Except Err Reader :=
  match searchVersion dirname with
  | none => .error .attributeError
  | some v => cosmoReader v

/-! ### Which spectra are loaded -/

/-- Whether a text contains another. For `workspace.py` L107-114 (see `variationParams`). -/
def contains (w : Str) : Str → Bool
  | [] => w.isEmpty
  | c :: s => w.isPrefixOf (c :: s) || contains w s

/-- `collectClVariationParams` (`workspace.py` L107-114): the parameters of the directories without `central` in their
names; `none` is the exception for a name that cannot be read. -/
def variationParams : List Str → Option (List Str)
  | [] => some []
  | d :: rest =>
    if contains Names.central d then variationParams rest
    else match Names.parseJobDir d with
      | none => none
      | some q => (variationParams rest).map (q.1 :: ·)

/-- The loop of `loadCosmologiesAndCls` (`run_loader.py` L117-132): the directory whose spectra are stored for each
parameter and step. The key of the code is the text `dvar_step`. -/
def loadLoop (pars : List Str) : List Str → List ((Str × Int) × Str) → Option (List ((Str × Int) × Str))
  | [], acc => some acc
  | d :: rest, acc =>
    match Names.parseJobDir d with
    | none => none
    | some q => if q.1 ∈ pars then loadLoop pars rest (PyDict.set acc q d) else loadLoop pars rest acc

/-- `loadCosmologiesAndCls` (L106-135) for the subdirectories of `Angular` in the order of the listing. -/
def loadSpectra (listing : List Str) (params : Option (List Str)) : Except Err (List ((Str × Int) × Str)) :=
  match variationParams listing with
  | none => .error .badName
  | some all =>
    match params with
    | some ps =>
      if ∀ p ∈ ps, p ∈ all then
        match loadLoop ps listing [] with
        | none => .error .badName
        | some r => .ok r
      else .error .unknownPars
    | none =>
      match loadLoop all listing [] with
      | none => .error .badName
      | some r => .ok r

/-! ### Stored results -/

/-- `glob` with the pattern `pre*suf`. For `filesystem_utils.py` L140-146 (see `uniqueFile`). -/
def globMatch (pre suf s : Str) : Bool :=
  match stripPrefix pre s with
  | none => false
  | some r => suf.isSuffixOf r

/-- `get_file_from_dir_with_pattern` (`filesystem_utils.py` L140-146). -/
def uniqueFile (files : List Str) (pre suf : Str) : Except Err Str :=
  match files.filter (globMatch pre suf) with
  | [f] => .ok f
  | _ => .error .notUnique

/-- The files written by `writeMarginalizedErrorsToFile` and `writeRelativeMarginalizedErrorsToFiles`
(`fisher_analysis.py` L305-319) for an analysis called `name`. -/
def errorFiles (name : Str) : List Str :=
  ["marginalized_errors_".toList ++ name ++ ".xlsx".toList, "marginalized_errors_".toList ++ name ++ ".csv".toList,
    "relative_marginalized_errors_".toList ++ name ++ ".xlsx".toList,
    "relative_marginalized_errors_".toList ++ name ++ ".csv".toList]

/-- The name of a file of correlations (`fisher_analysis.py` L323). -/
def corrFile (name fisher : Str) : Str := name ++ "_correlation_".toList ++ fisher ++ ".csv".toList

/-- `corr_file.stem.split('_')[-1]` (`fisher_results.py` L170) for a file with the ending `.csv`. -/
def corrName (file : Str) : Str := ((splitChar '_' (file.take (file.length - 4))).getLast?).getD []

/-- The part of `loadFromResultsDir` (`fisher_results.py` L164-171) that looks for the files of one cosmology: names of
the Fisher matrices in the directory, files of errors, files of correlations. -/
def loadCosmology (fishers errs corrs : List Str) : Except Err (Str × Str × List (Str × Str)) :=
  match uniqueFile errs "errors".toList ".csv".toList with
  | .error e => .error e
  | .ok f => match uniqueFile errs "relative_errors".toList ".csv".toList with
    | .error e => .error e
    | .ok g =>
      if ∀ c ∈ corrs, corrName c ∈ fishers then .ok (f, g, corrs.map fun c => (corrName c, c))
      else .error .keyError

/-! ### The comparison -/

section Report

variable {K : Type} [Field K] [LinearOrder K] {L : Type} [DecidableEq L]

/-- A table is a list of labels with their entries. For L333-344 (see `metrics`). -/
abbrev Table (L K : Type) := List (L × K)

/-- `getComparisonKeys` (`run_loader.py` L390-403): the keys and whether a warning is given. The order of the keys is
that of the first argument; the code leaves it open. -/
def comparisonKeys {κ : Type} [DecidableEq κ] (a b : List κ) : List κ × Bool :=
  (a.filter (· ∈ b), !(a.all (· ∈ b) && b.all (· ∈ a)))

/-- `evaluateFisherMetrics` and `evaluateMargErrsMetrics` (L333-344): the percentage differences of the tables that both runs
have. -/
def metrics (a b : Dict Str (Table L K)) : List Str → Except Err (Dict Str (Table L K))
  | [] => .ok []
  | k :: rest =>
    match a.lookup k, b.lookup k with
    | some x, some y => match Numeric.padTables x y with
      | none => .error .differentLabels
      | some t => match metrics a b rest with
        | .error e => .error e
        | .ok r => .ok ((k, t) :: r)
    | _, _ => .error .keyError

/-- `checkPadsDict` (L380-387): what is logged for each key. -/
def checkPads (m : Dict Str (Table L K)) (threshold : K) : Dict Str Bool :=
  m.map fun q => (q.1, Numeric.padsOk (q.2.map (·.2)) threshold)

/-- The comparison of one kind of table (L333-349): the warning about keys and the lines of the log. -/
def compareTables (a b : Dict Str (Table L K)) (threshold : K) : Except Err (Bool × Dict Str Bool) :=
  let ks := comparisonKeys (a.map (·.1)) (b.map (·.1))
  match metrics a b ks.1 with
  | .error e => .error e
  | .ok m => .ok (ks.2, checkPads m threshold)

end Report

/-- One cosmology in a directory of results: name, names of the Fisher matrices, files of errors, files of
correlations. For `fisher_results.py` L155-172 (see `loadResultsDir`). -/
structure CosmoDir where
  name : Str
  fishers : List Str
  errs : List Str
  corrs : List Str

/-- The loop of `loadFromResultsDir` (`fisher_results.py` L155-172): the files read for each cosmology. -/
def loadResultsDir : List CosmoDir → Except Err (List (Str × Str × Str))
  | [] => .ok []
  | d :: rest => match loadCosmology d.fishers d.errs d.corrs with
    | .error e => .error e
    | .ok r => match loadResultsDir rest with
      | .error e => .error e
      | .ok rs => .ok ((d.name, r.1, r.2.1) :: rs)

/-- The errors of a run as the comparison reads them: `loadResults` (`run_loader.py` L158-166) when the run is loaded,
`marg_errs` (L58-60) when the errors are compared; `none` means that the directory `results` does not exist, and then
`results` stays `None`. -/
def margErrs (results : Option (List CosmoDir)) : Except Err (List (Str × Str × Str)) :=
  match results with
  | none => .error .attributeError
  | some ds => loadResultsDir ds

/-! ### Differences of angular spectra -/

/-- `np.mean(pad(cl1, cl2), axis=0)` at a pair of bins (`comparison_utils.py` L45-50). -/
def meanPad (nl : Nat) (c1 c2 : Nat → Nat → Nat → ℚ) (i j : Nat) : ℚ :=
  ((List.range nl).map fun l => Numeric.padArr (c1 l i j) (c2 l i j)).sum / nl

/-- The rows of the comparison table (`comparison_utils.py` L53-82): pairs of bins and mean difference. With equal
numbers of bins only `i ≤ j` is kept. The other columns are not modelled. -/
def compTable (nl ni nj : Nat) (c1 c2 : Nat → Nat → Nat → ℚ) : List (Nat × Nat × ℚ) :=
  ((List.range ni).flatMap fun i => (List.range nj).map fun j => (i, j)).filterMap fun q =>
    if ni = nj ∧ ¬ q.1 ≤ q.2 then none else some (q.1, q.2, meanPad nl c1 c2 q.1 q.2)

/-- `odm_weighted_pad` (`general.py` L55-67) for one entry: `ref` is the mean or the largest value of `|x + y| / 2`. -/
def odmPad (ref x y : ℚ) : ℚ := Numeric.padArr x y * ((|x + y| / 2) / ref)

end Seyfert.Compare
