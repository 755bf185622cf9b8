import Verif.Model.OrchInputs

/-! Specification notions for the inputs of the orchestrated runs. -/

namespace Seyfert.OrchIn

open Orch (Pth pname)

variable {C : Type}

/-- The files in a sub-directory, none when there is no such directory. -/
def filesIn (t : Tree C) (n : Str) : Dict Str C :=
  match t.lookup n with
  | some (.dir s) => s
  | _ => []

/-- A file with the content `c` is at `config/n/f`. -/
def Has (t : Tree C) (n f : Str) (c : C) : Prop := ∃ s, t.lookup n = some (.dir s) ∧ s.lookup f = some c

/-- Names are distinct, in the directory and in its sub-directories. -/
structure Tree.WF (t : Tree C) : Prop where
  keys : (t.map (·.1)).Nodup
  files : ∀ n s, t.lookup n = some (.dir s) → (s.map (·.1)).Nodup

/-- The six sub-directories. -/
def subdirs : List Str :=
  ["fcfg".toList, "pmm_cfg".toList, "cl_cfg".toList, "der_cfg".toList, "fish_cfg".toList, "res_cfg".toList]

/-- Sub-directories of which all files named `*.json` are configurations; of the others one file is. -/
def IsList (n : Str) : Prop := n = "fcfg".toList ∨ n = "fish_cfg".toList ∨ n = "cl_cfg".toList

instance (n : Str) : Decidable (IsList n) := by unfold IsList; infer_instance

/-- The given files lie outside the configuration directory and can be read. -/
def Readable (outside : Pth → Option C) (base : Pth) (g : Given) : Prop :=
  ∀ n p, (n, some p) ∈ wanted g → ¬ base <+: p ∧ (outside p).isSome

/-- A text ends with another. -/
def Ends (suffix s : Str) : Prop := ∃ r, s = r ++ suffix

/-- The same entries with the same contents, in whatever order the system lists them, but for the sub-directory of
forecast configurations, which may hold any files. -/
structure Same (t t' : Tree C) : Prop where
  file : ∀ n c, t'.lookup n = some (.file c) ↔ t.lookup n = some (.file c)
  dir : ∀ n, (∃ s, t'.lookup n = some (.dir s)) ↔ ∃ s, t.lookup n = some (.dir s)
  has : ∀ n f c, n ≠ "fcfg".toList → (Has t' n f c ↔ Has t n f c)

/-- The forecast configurations in a tree: the files of that sub-directory named `*.json`. -/
def IsForecast (base : Pth) (t : Tree C) (p : Pth) : Prop :=
  ∃ f c, Has t "fcfg".toList f c ∧ Ends ".json".toList f ∧ p = base ++ ["fcfg".toList, f]

/-- The five entries of the list of input files of a run directory. -/
def Complete (inputs : Dict Str Pth) : Prop :=
  ∀ k ∈ ["forecast".toList, "PowerSpectrum".toList, "Angular".toList, "Derivative".toList, "Fisher".toList],
    (inputs.lookup k).isSome

end Seyfert.OrchIn
