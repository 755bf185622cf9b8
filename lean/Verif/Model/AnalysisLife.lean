import Verif.Model.FisherStore

/-!
Model of the life of a `FisherAnalysis` object (`fisher/fisher_analysis.py` L24-250): construction,
loading from a directory, the order of the matrices, selection of matrices.

Matrices are objects on a heap as in `Model/FisherStore.lean`, whose operations on loaded matrices are
reused.  A file of a directory is what reading it gives (the format is the subject of
`Model/FisherIO.lean`).  The order in which `glob` lists the files is left open: a directory is the list
of its files `fisher*.hdf5` in that order.
-/

namespace Seyfert.Life

open Fisher

variable {N K : Type} [LinearOrder N] [Field K] [DecidableEq K]

/-- Exceptions: those of the matrices, those of the file system and of Python.
For `fisher/fisher_analysis.py` L118-126 (see `Life.setOrder`). -/
inductive LErr where
  | fm (e : Fisher.Err)
  | notFound        -- FileNotFoundError
  | unreadable      -- a file that cannot be read as a Fisher matrix
  | order           -- the bare Exception of the order of matrices
  | typeError
  | attributeError
deriving DecidableEq

/-- `FisherAnalysis` (L34-49): the two dictionaries, the order that was set, the names of the
cosmological parameters with fiducial values (`None` if there are none) and the flag. -/
structure Life (N : Type) where
  an : Analysis := {}
  order : Option (List Str) := none
  fid : Option (Finset N) := none
  flag : Bool := true

/-- Names of the working matrices, in the order of the dictionary.
For `fisher/fisher_analysis.py` L112-116 (see `Life.getOrder`). -/
def Life.names (a : Life N) : List Str := a.an.mats.map Prod.fst

/-- `fishers_order` (L112-116). -/
def Life.getOrder (a : Life N) : List Str :=
  match a.order with
  | some o => o
  | none => a.names

/-- What can be assigned to `fishers_order`. For `fisher/fisher_analysis.py` L118-126 (see `Life.setOrder`). -/
inductive OrderArg where
  | list (l : List Str)
  | other

/-- Assignment to `fishers_order` (L118-126). -/
def Life.setOrder (a : Life N) : OrderArg → Life N × Except LErr Unit
  | .list l =>
    if l.toFinset ≠ a.names.toFinset then (a, .error .order)
    else ({ a with order := some l }, .ok ())
  | .other => (a, .error .typeError)

/-- What can be passed as `fisher_matrices` to the constructor, for objects of the right type.
For `fisher/fisher_analysis.py` L51-58 (see `MatsArg.toDict`). -/
inductive MatsArg where
  | none
  | list (l : List Ref)
  | dict (d : Dict Str Ref)

/-- The dictionary made of the argument (L51-58): a list is checked and then dropped. -/
def MatsArg.toDict : MatsArg → Dict Str Ref
  | .none => []
  | .list _ => []
  | .dict d => d

/-- The last statement of the constructor (L66-67). -/
def Life.initOrder (a : Life N) : Option OrderArg → Except LErr (Life N)
  | none => .ok a
  | some o =>
    match a.setOrder o with
    | (_, .error e) => .error e
    | (a', .ok _) => .ok a'

/-- `__init__` (L34-67): the heap afterwards, and the object or the exception. -/
def construct (en : Finset N → List N) (h : Heap N K) (mats : MatsArg) (order : Option OrderArg)
    (fid : Option (Finset N)) (flag : Bool) : Heap N K × Except LErr (Life N) :=
  match analysisInit en flag h mats.toDict with
  | (h', .error e) => (h', .error (.fm e))
  | (h', .ok _) => (h', Life.initOrder { an := { mats := mats.toDict }, fid := fid, flag := flag } order)

/-- A file: the matrix that reading it gives, or nothing if reading raises.
For `fisher/fisher_analysis.py` L164-171 (see `loadLoop`). -/
abbrev File (N K : Type) := Option (FM N K)

/-- The matrix of a file before it is restricted (L165-168): the flag of the analysis, and its
cosmological parameters if it has any. -/
def prepared (flag : Bool) (fid : Option (Finset N)) (F : FM N K) : FM N K :=
  { F with margFlag := flag, cosmo := fid.getD F.cosmo }

/-- The loop of `loadBaseFishersFromDir` (L164-171). -/
def loadLoop (en : Finset N → List N) (flag : Bool) (fid : Option (Finset N)) :
    Heap N K → Dict Str Ref → List (File N K) → Heap N K × Dict Str Ref × Except LErr Unit
  | h, base, [] => (h, base, .ok ())
  | h, base, none :: _ => (h, base, .error .unreadable)
  | h, base, some F :: rest =>
    match (prepared flag fid F).select en with
    | (_, .error e) => (h, base, .error (.fm e))
    | (R, .ok _) => loadLoop en flag fid (h ++ [R]) (dictSet base R.name h.length) rest

/-- `loadBaseFishersFromDir` (L160-174); `none` is a directory that does not exist. -/
def Life.load (en : Finset N → List N) (h : Heap N K) (a : Life N) :
    Option (List (File N K)) → Heap N K × Life N × Except LErr Unit
  | none => (h, { a with an := { a.an with base := some [] } }, .error .notFound)
  | some fs =>
    let r := loadLoop en a.flag a.fid h [] fs
    (r.1, { a with an := { a.an with base := some r.2.1 } }, r.2.2)

/-- `sliceBaseFishers` (L176-178). -/
def Life.sliceBase (en : Finset N → List N) (h : Heap N K) (a : Life N) : Heap N K × Except LErr Unit :=
  match a.an.base with
  | none => (h, .error .typeError)
  | some b =>
    match forRefs (FM.select en) h (b.map Prod.snd) with
    | (h', .error e) => (h', .error (.fm e))
    | (h', .ok _) => (h', .ok ())

/-- `fromFishersDir` (L69-77) with the free cosmological parameters `fid`. -/
def fromDir (en : Finset N → List N) (h : Heap N K) (fid : Finset N) (dir : Option (List (File N K))) :
    Heap N K × Except LErr (Life N) :=
  match Life.load en h { fid := some fid } dir with
  | (h', _, .error e) => (h', .error e)
  | (h', a, .ok _) =>
    match a.an.useBase with
    | .error e => (h', .error (.fm e))
    | .ok an => (h', .ok { a with an := an })

/-- The free cosmological parameters of `fromRundir` (L84-88): for the cosmology "LCDM" the parameters
`w0` and `wa` are deleted from the collection, which has to have them. -/
def runFid (w0 wa : N) (lcdm : Bool) (all free : Finset N) : Except LErr (Finset N) :=
  if lcdm then
    if w0 ∈ all ∧ wa ∈ all then .ok (free \ {w0, wa}) else .error (.fm .keyError)
  else .ok free

/-- `fromRundir` (L79-97), without the name and the metadata: `all` are the parameters of the run and
`free` its free cosmological ones.  The directory depends on the cosmology (L83). -/
def fromRun (en : Finset N → List N) (w0 wa : N) (h : Heap N K) (lcdm : Bool) (all free : Finset N)
    (dir : Option (List (File N K))) : Heap N K × Except LErr (Life N) :=
  match runFid w0 wa lcdm all free with
  | .error e => (h, .error e)
  | .ok fid => fromDir en h fid dir

/-- `getSubsetAnalysis` (L233-237) up to the tables of errors, which are in `Model/Collector.lean`: the
objects of the selected matrices are those of the receiver. -/
def Life.subset (a : Life N) (names : List Str) : Except LErr (Life N) :=
  match a.an.base with
  | none => .error .attributeError
  | some b =>
    match Life.setOrder { a with an := { base := some (b.filter (fun x => decide (x.1 ∈ names))),
                                         mats := a.an.mats.filter (fun x => decide (x.1 ∈ names)) } }
        (.list names) with
    | (_, .error e) => .error e
    | (a', .ok _) => .ok a'

/-- Operations on an analysis. For `fisher/fisher_analysis.py` L176-178 (see `Life.sliceBase`). -/
inductive Op (N K : Type) where
  | work (o : AOp N)
  | sliceBase
  | setOrder (o : OrderArg)
  | load (dir : Option (List (File N K)))

/-- One operation: the heap and the object afterwards, and whether it raised.
For `fisher/fisher_analysis.py` L176-178 (see `Life.sliceBase`). -/
noncomputable def Life.step (en : Finset N → List N) (sq : K → K) (w0 wa : N) (h : Heap N K) (a : Life N) :
    Op N K → Heap N K × Life N × Except LErr Unit
  | .work o =>
    let r := a.an.step en sq w0 wa h o
    (r.1, { a with an := r.2.1 }, r.2.2.mapError .fm)
  | .sliceBase =>
    let r := a.sliceBase en h
    (r.1, a, r.2)
  | .setOrder o =>
    let r := a.setOrder o
    (h, r.1, r.2)
  | .load dir => a.load en h dir

/-- A history of operations; an operation that raises leaves what it has done so far.
For `fisher/fisher_analysis.py` L34-49 (see `Life`). -/
noncomputable def Life.run (en : Finset N → List N) (sq : K → K) (w0 wa : N) :
    Heap N K → Life N → List (Op N K) → Heap N K × Life N
  | h, a, [] => (h, a)
  | h, a, o :: os =>
    let s := a.step en sq w0 wa h o
    Life.run en sq w0 wa s.1 s.2.1 os

end Seyfert.Life
