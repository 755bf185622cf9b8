import Verif.Model.AnalysisLife

/-!
Model of the collector of results (`fisher/fisher_results.py` L22-116): the cosmologies of the file of
settings, the check of their parameters and the analyses computed for them.  Writing and reading of
results is the subject of `Model/FisherIO.lean`, plots are that of `Model/Plot.lean`.

The objects live on the heap of `Model/FisherStore.lean`.
-/

namespace Seyfert.Results

open Fisher Life

variable {N K : Type} [LinearOrder N] [Field K] [DecidableEq K]

/-- `str_to_bool` (utils/formatters.py L5-8); `none` if it raises ValueError.  The letters that matter are
those of ASCII, so the conversion to small letters is that of ASCII. -/
def strToBool (s : Str) : Option Bool :=
  if s.map Char.toLower = "true".toList then some true
  else if s.map Char.toLower = "false".toList then some false
  else none

/-- An entry of `cosmologies` in the file of settings: the value of `present`, `none` if it is not a text,
and the parameters.  A missing key raises KeyError and is not modelled.
For `fisher/fisher_results.py` L61-67 (see `loadConfig`). -/
structure Entry (N : Type) where
  present : Option Str
  pars : Finset N

/-- The cosmologies of `loadFromConfigFile` (L61-67): those whose entry is present. -/
def loadConfig : List (Str × Entry N) → Except LErr (List (Str × Finset N))
  | [] => .ok []
  | (n, e) :: l =>
    match e.present with
    | none => .error .attributeError
    | some s =>
      match strToBool s with
      | none => .error (.fm .valueError)
      | some b =>
        match loadConfig l with
        | .error x => .error x
        | .ok r => .ok (if b then (n, e.pars) :: r else r)

/-- `checkCosmologies` (L69-75): whether it does not raise. -/
def check (free : Finset N) (cs : List (Str × Finset N)) : Bool := cs.all (fun c => decide (c.2 ⊆ free))

/-- The errors of the working matrices by name, `evaluateMarginalizedErrors` (fisher_analysis.py
L249-253): without any matrix there is nothing to put together. -/
noncomputable def errorTable (en : Finset N → List N) (sq : K → K) (w0 wa : N) (h : Heap N K)
    (mats : Dict Str Ref) : Heap N K × Except LErr (Dict Str (List (N × K) × Option K)) :=
  if mats = [] then (h, .error (.fm .valueError))
  else
    match forRefs (FM.margErrors en sq w0 wa true true) h (mats.map Prod.snd) with
    | (h', .error e) => (h', .error (.fm e))
    | (h', .ok errs) => (h', .ok ((mats.map Prod.fst).zip errs))

/-- The working matrices prepared and their errors (L95-97). -/
noncomputable def finish (en : Finset N → List N) (sq : K → K) (w0 wa : N) (h : Heap N K)
    (mats : Dict Str Ref) : Heap N K × Except LErr (Dict Str (List (N × K) × Option K)) :=
  match forRefs (prepareOne en sq) h (mats.map Prod.snd) with
  | (h', .error e) => (h', .error (.fm e))
  | (h', .ok _) => errorTable en sq w0 wa h' mats

/-- The choice of the working matrices (L91-94): sums of addends, or the base matrices if there are no
lists of addends. -/
noncomputable def choose (en : Finset N → List N) (sq : K → K) (w0 wa : N) (h : Heap N K)
    (an : Analysis) (ls : List (List Str)) : Heap N K × Analysis × Except Err Unit :=
  an.step en sq w0 wa h (if ls = [] then .useBase else .addends ls)

/-- One round of the loop of `setupFisherAnalyses` (L84-98): the dictionary of working matrices and the
errors by name. -/
noncomputable def setupOne (en : Finset N → List N) (sq : K → K) (w0 wa : N) (flag : Bool)
    (dir : Option (List (File N K))) (ls : List (List Str)) (h : Heap N K) (C : Finset N) :
    Heap N K × Except LErr (Dict Str Ref × Dict Str (List (N × K) × Option K)) :=
  match Life.load en h { fid := some C, flag := flag } dir with
  | (h1, _, .error e) => (h1, .error e)
  | (h1, a, .ok _) =>
    match a.sliceBase en h1 with
    | (h2, .error e) => (h2, .error e)
    | (h2, .ok _) =>
      match choose en sq w0 wa h2 a.an ls with
      | (h3, _, .error e) => (h3, .error (.fm e))
      | (h3, an, .ok _) =>
        match finish en sq w0 wa h3 an.mats with
        | (h4, .error e) => (h4, .error e)
        | (h4, .ok t) => (h4, .ok (an.mats, t))

/-- `setupFisherAnalyses` (L82-98): analyses by cosmology. -/
noncomputable def setupAll (en : Finset N → List N) (sq : K → K) (w0 wa : N) (flag : Bool)
    (dir : Option (List (File N K))) (ls : List (List Str)) :
    Heap N K → List (Str × Finset N) →
    Heap N K × Except LErr (List (Str × (Dict Str Ref × Dict Str (List (N × K) × Option K))))
  | h, [] => (h, .ok [])
  | h, c :: cs =>
    match setupOne en sq w0 wa flag dir ls h c.2 with
    | (h', .error e) => (h', .error e)
    | (h', .ok r) =>
      match setupAll en sq w0 wa flag dir ls h' cs with
      | (h'', .error e) => (h'', .error e)
      | (h'', .ok rs) => (h'', .ok ((c.1, r) :: rs))

/-- `setUp` (L77-80).  The plots fail for the first cosmology (`Plot.setupPlotters`). -/
noncomputable def setUp (en : Finset N → List N) (sq : K → K) (w0 wa : N) (flag doPlots : Bool)
    (free : Finset N) (dir : Option (List (File N K))) (ls : List (List Str)) (h : Heap N K)
    (cs : List (Str × Finset N)) :
    Heap N K × Except LErr (List (Str × (Dict Str Ref × Dict Str (List (N × K) × Option K)))) :=
  if check free cs then
    match setupAll en sq w0 wa flag dir ls h cs with
    | (h', .error e) => (h', .error e)
    | (h', .ok rs) =>
      if doPlots ∧ cs ≠ [] then (h', .error .typeError) else (h', .ok rs)
  else (h, .error .order)

end Seyfert.Results
