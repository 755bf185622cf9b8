import Verif.Model.JobRuns
import Verif.Model.Compare

/-!
Model of the way in which the results of the jobs are found again: by a pattern of the file name in the directory of the
job (`seyfert/utils/workspace.py` L116-119, L166-182, `seyfert/utils/filesystem_utils.py` L140-146), for the computation of
the Fisher matrices (`seyfert/main/fisher_core.py` L23-25) and for the fiducial spectra of the covariance
(`seyfert/fisher/delta_cl.py` L173-175).

The listings of the directories are parameters: `entries p` are the names in the directory `p`, `dirs p` those of its
subdirectories, each in any order.
-/

namespace Seyfert.Job

open Orch (Pth)
open ClDer (Cls)

variable {K S C : Type} [Field K] [LinearOrder K]

/-- The exceptions of finding and reading a file (`filesystem_utils.py` L140-146). -/
inductive FindErr where
  /-- There is no file, or more than one, which matches the pattern. -/
  | notUnique
  /-- The file does not hold what is read from it. -/
  | content
  deriving DecidableEq

/-- `get_file_from_dir_with_pattern(dir, pre*suf)` (`filesystem_utils.py` L140-146). -/
def findFile (entries : Pth → List Str) (dir : Pth) (pre suf : Str) : Except FindErr Pth :=
  match Compare.uniqueFile (entries dir) pre suf with
  | .ok f => .ok (dir ++ [f])
  | .error _ => .error .notUnique

/-- `getClFile(dvar, step)` (`workspace.py` L166-169). -/
def getClFile (entries : Pth → List Str) (run : Pth) (v : Str × Int) : Except FindErr Pth :=
  findFile entries (run ++ [Prog.cls.dir, Names.jobDir v.1 v.2]) "cl".toList ".h5".toList

/-- `getClDerivativeFile(dvar)` (`workspace.py` L171-174); the directory has the name of the parameter
(`filesystem_utils.py` L117-122). -/
def getDerFile (entries : Pth → List Str) (run : Pth) (dvar : Str) : Except FindErr Pth :=
  findFile entries (run ++ [Prog.der.dir, dvar]) "cl_derivatives".toList ".h5".toList

/-- `AngularCoefficientsCollector.fromHDF5(ws.getClFile(dvar, step))` (`delta_cl.py` L174). -/
def readCls (entries : Pth → List Str) (d : Disk K S C) (run : Pth) (v : Str × Int) : Except FindErr (Cls K) :=
  match getClFile entries run v with
  | .error e => .error e
  | .ok p => match d p with
    | some (.cls c) => .ok c
    | _ => .error .content

/-- `ClDerivativeCollector.fromHDF5(ws.getClDerivativeFile(dvar))` (`fisher_core.py` L24). -/
def readDer (entries : Pth → List Str) (d : Disk K S C) (run : Pth) (dvar : Str) :
    Except FindErr (List ((Str × Str) × (List K × List K))) :=
  match getDerFile entries run dvar with
  | .error e => .error e
  | .ok p => match d p with
    | some (.ders l) => .ok l
    | _ => .error .content

/-- The dictionary of derivatives for some parameters. For `fisher_core.py` L23-25 (see `readDerivs`). -/
def readAll (entries : Pth → List Str) (d : Disk K S C) (run : Pth) :
    List Str → Except FindErr (List (Str × List ((Str × Str) × (List K × List K))))
  | [] => .ok []
  | x :: xs => match readDer entries d run x with
    | .error e => .error e
    | .ok l => match readAll entries d run xs with
      | .error e => .error e
      | .ok t => .ok ((x, l) :: t)

/-- `dcoll_dvar_dict` of `prepare_inputs` (`fisher_core.py` L23-25): a parameter for every subdirectory of `Derivative`
(`collectDerivativeParams`, `workspace.py` L116-119). -/
def readDerivs (entries dirs : Pth → List Str) (d : Disk K S C) (run : Pth) :
    Except FindErr (List (Str × List ((Str × Str) × (List K × List K)))) :=
  readAll entries d run (dirs (run ++ [Prog.der.dir]))

end Seyfert.Job
