import Verif.Model.PyStr
import Verif.Model.PyDict

/-!
Model of `do_forecast` (`seyfert/main/seyfert_core.py` L158-183) as a sequence of changes of the run directory, so that
the run can be interrupted between any two of them and started again. The values computed are parameters (`Comp`); what is
modelled is which of them are computed, written, read and found already there.

A file being written is unreadable until it is complete: loading it raises, while `is_file()` and `exists()` are true.
(What `h5py`, `pickle` and `pandas` do with a file cut off in the middle is not modelled further.) Directories made with
`exist_ok=True`, the copies of the input files, which every start writes again, and the log file are left out.
-/

namespace Seyfert.Resume

/-- A file which is there: cut off while it was written, or whole (`seyfert_core.py` L158-183 as interrupted). -/
inductive File (α : Type) where
  | unreadable
  | full (a : α)
  deriving DecidableEq

/-- The run directory. `autos` is `auto_fisher_of_ells.h5`, a table per probe; `fishers` are the files
`base_fishers/fisher_<name>.hdf5`, `gcsp` is `base_fishers/fisher_IST_gcsp_pk.hdf5`, `results` the files below
`final_results`. For `seyfert_core.py` L158-165 (see `Disk.empty`). -/
structure Disk (V : Type) where
  niz : Option (File (Dict Str V))
  cls : Option (File V)
  derDir : Bool
  ders : Option (File V)
  delta : Option (File V)
  autos : Option (File (Dict Str V))
  fishers : Dict Str (File V)
  gcsp : Option (File V)
  results : Dict Str (File V)

/-- A new run directory (`seyfert_core.py` L158-165). -/
def Disk.empty {V : Type} : Disk V := ⟨none, none, false, none, none, none, [], none, []⟩

/-- What is computed from what: the densities of the probes, fiducial spectra, derivatives, covariance, the Fisher matrix
and table of an auto-correlation, the Fisher matrix of any other data vector, the final results. `autos` are the names of
the auto-correlations with their probes, `selected` the selected data vectors.
For `seyfert/cosmology/redshift_density.py` L240-242 (see `writeNiz`). -/
structure Comp (V : Type) where
  probes : List Str
  niz : Str → V
  cls : (Str → Option V) → V
  ders : (Str → Option V) → V → V
  delta : (Str → Option V) → V → V
  autos : List (Str × Str)
  autoFisher : Str → V → V → V
  autoTable : Str → V → V → V
  selected : List Str
  fisher : Str → V → V → (Str → Option V) → V
  gcsp : V
  resNames : List Str
  result : Str → (Str → Option V) → V → V

variable {V : Type}

/-! ### Programs that change the directory -/

/-- What a program leaves: every state of the directory, the last one, and its result (`seyfert_core.py` L158-183). -/
structure Out (V α : Type) where
  /-- the directory after every change -/
  trace : List (Disk V)
  final : Disk V
  /-- `none`: an exception -/
  res : Option α

/-- A program which changes the run directory (`seyfert_core.py` L158-183). -/
abbrev Prog (V α : Type) := Disk V → Out V α

/-- A program which changes nothing.  A building block for `seyfert_core.py` L158-183, as are the next three. -/
def ret {α : Type} (a : α) : Prog V α := fun d => ⟨[], d, some a⟩
/-- An exception. For `seyfert_core.py` L66-79 (see `densities`). -/
def fail {α : Type} : Prog V α := fun d => ⟨[], d, none⟩
/-- One change of the directory. For `seyfert/cosmology/redshift_density.py` L240-242 (see `writeNiz`). -/
def put (f : Disk V → Disk V) : Prog V Unit := fun d => ⟨[f d], f d, some ()⟩

/-- One program after the other, unless the first raises.
For `seyfert/cosmology/redshift_density.py` L240-242 (see `writeNiz`). -/
def bind {α β : Type} (m : Prog V α) (k : α → Prog V β) : Prog V β := fun d =>
  match (m d).res with
  | none => ⟨(m d).trace, (m d).final, none⟩
  | some a => ⟨(m d).trace ++ (k a (m d).final).trace, (k a (m d).final).final, (k a (m d).final).res⟩

/-! ### The stages -/

/-- `save_densities_to_file` (`seyfert/cosmology/redshift_density.py` L240-242): one probe after the other, each opening and
closing the file. `done` are those in the file. -/
def writeNiz (C : Comp V) : Dict Str V → List Str → Prog V Unit
  | _, [] => ret ()
  | done, p :: ps => bind (put fun d => { d with niz := some .unreadable }) fun _ =>
      bind (put fun d => { d with niz := some (.full (done ++ [(p, C.niz p)])) }) fun _ => writeNiz C (done ++ [(p, C.niz p)]) ps

/-- `compute_densities` (`seyfert_core.py` L66-79); the loaded densities are those in the file. -/
def densities (C : Comp V) : Prog V (Dict Str V) := fun d =>
  match d.niz with
  | none => bind (writeNiz C [] C.probes) (fun _ => ret (C.probes.map fun p => (p, C.niz p))) d
  | some .unreadable => fail d
  | some (.full n) => ret n d

/-- `compute_fiducial_cls` (`seyfert_core.py` L82-94); `densities[probe]` raises for a probe that is missing
(`seyfert/cosmology/c_ells.py` L395). -/
def fiducial (C : Comp V) (n : Dict Str V) : Prog V V := fun d =>
  match d.cls with
  | none =>
    if C.probes.all (fun p => (n.lookup p).isSome) then
      bind (put fun d => { d with cls := some .unreadable }) (fun _ =>
        bind (put fun d => { d with cls := some (.full (C.cls fun p => n.lookup p)) }) fun _ =>
          ret (C.cls fun p => n.lookup p)) d
    else fail d
  | some .unreadable => fail d
  | some (.full c) => ret c d

/-- `compute_cl_derivatives` (`seyfert_core.py` L97-134): whether they are there is decided by the directory, which is made before they are
computed. -/
def derivatives (C : Comp V) (n : Dict Str V) (c : V) : Prog V V := fun d =>
  if d.derDir then
    match d.ders with
    | none => fail d
    | some .unreadable => fail d
    | some (.full x) => ret x d
  else
    bind (put fun d => { d with derDir := true }) (fun _ =>
      bind (put fun d => { d with ders := some .unreadable }) fun _ =>
        bind (put fun d => { d with ders := some (.full (C.ders (fun p => n.lookup p) c)) }) fun _ =>
          ret (C.ders (fun p => n.lookup p) c)) d

/-- The covariance (`seyfert_core.py` L173-177); `compute_delta_cls` reads the densities and fiducial spectra from their files. -/
def covariance (C : Comp V) : Prog V V := fun d =>
  match d.delta with
  | some .unreadable => fail d
  | some (.full x) => ret x d
  | none =>
    match d.niz, d.cls with
    | some (.full n), some (.full c) =>
      bind (put fun d => { d with delta := some .unreadable }) (fun _ =>
        bind (put fun d => { d with delta := some (.full (C.delta (fun p => n.lookup p) c)) }) fun _ =>
          ret (C.delta (fun p => n.lookup p) c)) d
    | _, _ => fail d

/-- The table of an auto-correlation is added to its file (`seyfert/main/fisher_core.py` L47-49): `to_hdf` replaces a table
that is there. -/
def addTable (k : Str) (v : V) : Prog V Unit := fun d =>
  match d.autos with
  | some .unreadable => fail d
  | none => bind (put fun d => { d with autos := some .unreadable }) (fun _ =>
      put fun d => { d with autos := some (.full [(k, v)]) }) d
  | some (.full t) => bind (put fun d => { d with autos := some .unreadable }) (fun _ =>
      put fun d => { d with autos := some (.full (PyDict.set t k v)) }) d

/-- `writeToFile` for a Fisher matrix, whose file is not there. For `fisher_core.py` L37-70 (see `oneFisher`). -/
def writeFisher (name : Str) (v : V) : Prog V Unit :=
  bind (put fun d => { d with fishers := PyDict.set d.fishers name .unreadable }) fun _ =>
    put fun d => { d with fishers := PyDict.set d.fishers name (.full v) }

/-- `compute_fisher_matrix` (`fisher_core.py` L37-70) and saving. -/
def oneFisher (C : Comp V) (delta ders : V) (name : Str) : Prog V Unit := fun d =>
  match C.autos.lookup name with
  | some k => bind (addTable k (C.autoTable k delta ders)) (fun _ => writeFisher name (C.autoFisher name delta ders)) d
  | none =>
    match d.autos with
    | some (.full t) =>
      if t.length < 3 then fail d else writeFisher name (C.fisher name delta ders fun k => t.lookup k) d
    | _ => fail d

/-- `compute_and_save_fishers` (`fisher_core.py` L73-98). -/
def saveFishers (C : Comp V) (delta ders : V) : List Str → Prog V Unit
  | [] => ret ()
  | name :: names => fun d =>
    match d.fishers.lookup name with
    | some _ => saveFishers C delta ders names d
    | none => bind (oneFisher C delta ders name) (fun _ => saveFishers C delta ders names) d

/-- The external Fisher matrix (`seyfert_core.py` L151-153): `writeToFile` without `overwrite` raises when the file is there. -/
def writeGcsp (C : Comp V) : Prog V Unit := fun d =>
  match d.gcsp with
  | some _ => fail d
  | none => bind (put fun d => { d with gcsp := some .unreadable }) (fun _ =>
      put fun d => { d with gcsp := some (.full C.gcsp) }) d

/-- The contents of the Fisher files, if all can be read.
For `seyfert/fisher/final_results_core.py` L27-56 (see `finalResults`). -/
def readAll : Dict Str (File V) → Option (Dict Str V)
  | [] => some []
  | (k, .full v) :: l => (readAll l).map ((k, v) :: ·)
  | (_, .unreadable) :: _ => none

/-- The results files one after the other; one that is there raises (`overwrite=False`).
For `seyfert/fisher/final_results_core.py` L27-56 (see `finalResults`). -/
def writeResults (C : Comp V) (f : Dict Str V) : List Str → Prog V Unit
  | [] => ret ()
  | r :: rs => fun d =>
    match d.results.lookup r with
    | some _ => fail d
    | none => bind (put fun d => { d with results := PyDict.set d.results r .unreadable }) (fun _ =>
        bind (put fun d => { d with results := PyDict.set d.results r (.full (C.result r (fun k => f.lookup k) C.gcsp)) }) fun _ =>
          writeResults C f rs) d

/-- `create_final_results` (`seyfert/fisher/final_results_core.py` L27-56): all Fisher files are read, the external one among
them. -/
def finalResults (C : Comp V) : Prog V Unit := fun d =>
  match readAll d.fishers, d.gcsp with
  | some f, some (.full _) => writeResults C f C.resNames d
  | _, _ => fail d

/-- `do_forecast` (`seyfert_core.py` L158-183). -/
def forecast (C : Comp V) : Prog V Unit :=
  bind (densities C) fun n => bind (fiducial C n) fun c => bind (derivatives C n c) fun x => bind (covariance C) fun v =>
    bind (saveFishers C v x (C.autos.map (·.1))) fun _ => bind (saveFishers C v x C.selected) fun _ =>
      bind (writeGcsp C) fun _ => finalResults C

/-- The states of the run directory after any number of interrupted starts, on an empty directory at first.
For `seyfert_core.py` L158-183 (see `forecast`). -/
inductive Reach (C : Comp V) : Disk V → Prop
  | start : Reach C Disk.empty
  | crash {d d' : Disk V} (h : Reach C d) (h' : d' ∈ (forecast C d).trace) : Reach C d'

end Seyfert.Resume
