import Verif.Model.Lookup
import Verif.Spec.JobRuns

/-!
Specification of the listings of directories.
-/

namespace Seyfert.Job

open Orch (Pth)
open Param (Coll central)

variable {K S C : Type}

/-- `entries` and `dirs` list the names and the subdirectories which are in each directory, in any order, each once. A
directory is there as long as there is a file in it or below it: empty directories are not represented. -/
structure Shows (entries dirs : Pth → List Str) (d : Disk K S C) : Prop where
  once : ∀ p, (entries p).Nodup
  onceDirs : ∀ p, (dirs p).Nodup
  names : ∀ p n, n ∈ entries p ↔ ∃ r, (d (p ++ n :: r)).isSome
  subdirs : ∀ p n, n ∈ dirs p ↔ ∃ x r, (d (p ++ n :: x :: r)).isSome

/-- The name is `cl_derivatives`, any characters, `.h5`. -/
def DerLike (x : Str) : Prop := ∃ m, x = "cl_derivatives".toList ++ m ++ ".h5".toList

/-- The name is `cl`, any characters, `.h5`. -/
def ClLike (x : Str) : Prop := ∃ m, x = "cl".toList ++ m ++ ".h5".toList

/-- In the directory of each job of the derivatives there is nothing that is named like a file of derivatives, and there are
no other directories. -/
def NoDerivs (d : Disk K S C) (run : Pth) (jobs : List Str) : Prop :=
  ∀ n x r, (d (run ++ "Derivative".toList :: n :: x :: r)).isSome → n ∈ jobs ∧ ¬ DerLike x

/-- The derivatives of the parameter, or the exception of its job. -/
def derOf [Field K] [LinearOrder K] (w : World K S C) (d : Disk K S C) (run : Pth) (c : Coll K) (dvar : Str) :
    Option (List ((Str × Str) × (List K × List K))) :=
  got (ClDer.fileDerivative w.ana (storeOf d run [(central, 0)]) (clsOf w d run) c w.combos dvar)

end Seyfert.Job
