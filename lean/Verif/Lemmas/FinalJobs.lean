import Verif.Model.FinalJobs
import Verif.Lemmas.Cli
import Verif.Lemmas.JobRuns
import Verif.Props.RunSeyfert

/-!
Lemmas on the command lines of `evaluate_final_results`.
-/

namespace Seyfert.Eval

open Orch (Pth pname)
open OrchIn (toPath)
open RunS (Val group isValue pathText shell safeChar Plain)

/-- The words of a command made of pairs. -/
theorem shell_pairs {name : Str} (hname : name ≠ []) (hsn : ∀ c ∈ name, safeChar c = true) (l : List (Str × Str))
    (hl : ∀ p ∈ l, (p.1 ≠ [] ∧ ∀ c ∈ p.1, safeChar c = true) ∧ Plain p.2) :
    shell (name ++ " ".toList ++ joinStr " ".toList (l.map fun p => p.1 ++ " ".toList ++ p.2)) =
      some (name :: l.flatMap fun p => [p.1, p.2]) := by
  have sp : " ".toList = [' '] := by decide
  rw [sp]
  rw [Job.shell_safe]
  · rw [List.append_assoc, List.cons_append, List.nil_append, Orch.words_app, Orch.words_join,
      Orch.words_one _ (fun h => RunS.safe_not_space (hsn _ h) rfl) hname, List.cons_append, List.nil_append]
    congr 2
    induction l with
    | nil => rfl
    | cons p l ih =>
      rw [List.map_cons, List.flatMap_cons, List.flatMap_cons, ih fun q hq => hl q (List.mem_cons_of_mem _ hq)]
      congr 1
      have hp := hl p (by simp)
      rw [List.append_assoc, List.cons_append, List.nil_append, Orch.words_app,
        Orch.words_one _ (fun h => RunS.safe_not_space (hp.1.2 _ h) rfl) hp.1.1,
        Orch.words_one _ hp.2.no_space hp.2.1]
      rfl
  · intro c hc
    rcases List.mem_append.mp hc with hc | hc
    · rcases List.mem_append.mp hc with hc | hc
      · exact Or.inr (hsn c hc)
      · exact Or.inl (List.mem_singleton.mp hc)
    · rcases mem_joinStr _ _ _ hc with hc | ⟨s, hs, hc⟩
      · exact Or.inl (List.mem_singleton.mp hc)
      · obtain ⟨p, hp, rfl⟩ := List.mem_map.mp hs
        have hp := hl p hp
        simp only [List.mem_append, List.mem_singleton] at hc
        rcases hc with (h | h) | h
        · exact Or.inr (hp.1.2 c h)
        · exact Or.inl h
        · exact Or.inr (hp.2.2.2 c h)

theorem name_split : "evaluate_final_results ".toList = "evaluate_final_results".toList ++ " ".toList := by decide +kernel

theorem name_safe : ∀ c ∈ "evaluate_final_results".toList, safeChar c = true := by decide +kernel

theorem name_ne : "evaluate_final_results".toList ≠ [] := by decide

theorem dests_nodup : (opts.map (·.dest)).Nodup := by decide +kernel

theorem find_dest : ∀ x ∈ opts, Cli.find opts ("--".toList ++ x.dest) = some x := by decide +kernel

theorem dest_safe : ∀ x ∈ opts, ∀ c ∈ x.dest, safeChar c = true := by decide +kernel

theorem paths_option : ∀ x ∈ opts, x.kind = .paths → x.dest = "input_rundirs".toList := by decide +kernel

theorem rundirs_kind : ∀ x ∈ opts, x.dest = "input_rundirs".toList → x.kind = .paths := by decide +kernel

theorem execution_kind : ∀ x ∈ opts, x.dest = "execution".toList → x.kind = .text := by decide +kernel

/-- Defaults are of the kind of their option, except where the option has to be given. -/
theorem default_kind : ∀ x ∈ opts, x.dest = "execution".toList ∨ x.dest = "input_rundirs".toList ∨
    Cli.HasKind x.kind x.default := by
  intro x hx
  unfold opts at hx
  simp only [List.mem_cons, List.not_mem_nil, or_false] at hx
  rcases hx with rfl | rfl | rfl | rfl | rfl | rfl | rfl | rfl | rfl | rfl | rfl
  · exact Or.inr (Or.inr ⟨_, rfl⟩)
  · exact Or.inr (Or.inr ⟨_, rfl⟩)
  · exact Or.inr (Or.inr ⟨_, rfl⟩)
  · exact Or.inl rfl
  · exact Or.inr (Or.inr ⟨[], rfl, [], Or.inl rfl, nofun⟩)
  · exact Or.inr (Or.inl rfl)
  · exact Or.inr (Or.inr ⟨_, rfl⟩)
  · exact Or.inr (Or.inr ⟨_, rfl⟩)
  · exact Or.inr (Or.inr ⟨_, rfl⟩)
  · exact Or.inr (Or.inr ⟨_, rfl⟩)
  · exact Or.inr (Or.inr ⟨_, rfl⟩)

theorem bool_plain (b : Bool) : Plain (Val.bool b).str := by
  cases b
  · exact ⟨by decide, by decide, by decide⟩
  · exact ⟨by decide, by decide, by decide⟩

end Seyfert.Eval
