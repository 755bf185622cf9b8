import Verif.Spec.FinalJobs
import Verif.Lemmas.FinalJobs

/-!
C128: final results computed by batch jobs, and those asked for by a forecast.
-/

namespace Seyfert.Eval

open Orch (Pth pname)
open OrchIn (toPath pathsOf suffix)
open RunS (Val group isValue pathText shell safeChar Plain resolve)

theorem readLists_norm (text : Pth → Option Str) : ∀ (ps : List Pth) {rs : List Pth},
    OrchIn.readLists text ps = .ok rs → ∀ r ∈ rs, RunS.Norm r
  | [], rs, h => by cases h; nofun
  | p :: ps, rs, h => by
    unfold OrchIn.readLists at h
    split at h
    · cases h
    · split at h
      · cases h
      · rename_i l hl
        cases h
        intro r hr
        rcases List.mem_append.mp hr with hr | hr
        · unfold OrchIn.listed at hr
          obtain ⟨t, -, rfl⟩ := List.mem_map.mp hr
          exact RunS.norm_toPath _
        · exact readLists_norm text ps hl r hr

theorem pathsOf_norm {text : Pth → Option Str} {ps rs : List Pth} (h : pathsOf text ps = .ok rs)
    (hp : ∀ p ∈ ps, RunS.Norm p) : ∀ r ∈ rs, RunS.Norm r := by
  unfold pathsOf at h
  split at h
  · exact readLists_norm text ps h
  · cases h; exact hp

/-- What `main` finds in its arguments, when it raises nothing. -/
theorem main_some {text : Pth → Option Str} {args : Dict Str Val} {o : Outcome} (h : main text args = some o) :
    ∃ ps ex out ow test nowait rs, args.lookup "input_rundirs".toList = some (.paths ps) ∧
      args.lookup "execution".toList = some (.text ex) ∧ args.lookup "outdir_name".toList = some (.text out) ∧
      args.lookup "overwrite".toList = some (.bool ow) ∧ args.lookup "test".toList = some (.bool test) ∧
      args.lookup "dont_wait_for_batch".toList = some (.bool nowait) ∧ pathsOf text ps = .ok rs ∧
      (if ex = "interactive".toList then some (.created (rs.map fun r => ⟨r, out, ow⟩))
      else if ex = "batch".toList then
        if rs = [] ∧ nowait = false then none
        else if test then some (.shown (jobs args out rs)) else some (.submitted (jobs args out rs))
      else if ex = "no".toList then some .nothing
      else none) = some o := by
  unfold main at h
  split at h
  · next ps ex out ow test nowait h1 h2 h3 h4 h5 h6 =>
    split at h
    · cases h
    · rename_i rs hrs
      exact ⟨ps, ex, out, ow, test, nowait, rs, h1, h2, h3, h4, h5, h6, hrs, h⟩
  · cases h

theorem main_eq {text : Pth → Option Str} {args : Dict Str Val} {ps rs : List Pth} {out : Str} {ow test nowait : Bool}
    (h1 : args.lookup "input_rundirs".toList = some (.paths ps))
    (h2 : args.lookup "execution".toList = some (.text "interactive".toList))
    (h3 : args.lookup "outdir_name".toList = some (.text out)) (h4 : args.lookup "overwrite".toList = some (.bool ow))
    (h5 : args.lookup "test".toList = some (.bool test))
    (h6 : args.lookup "dont_wait_for_batch".toList = some (.bool nowait)) (h : pathsOf text ps = .ok rs) :
    main text args = some (.created (rs.map fun r => ⟨r, out, ow⟩)) := by
  unfold main
  rw [h1, h2, h3, h4, h5, h6]
  dsimp only
  rw [h]
  dsimp only
  rw [if_pos rfl]

theorem pathsOf_one {text : Pth → Option Str} {r : Pth} (h : suffix (pname r) ≠ ".txt".toList) :
    pathsOf text [r] = .ok [r] := by
  unfold pathsOf
  rw [if_neg]
  rw [List.all_cons, List.all_nil, Bool.and_true, decide_eq_true_eq]
  exact h

/-- A job of a run directory makes the final results of this directory. -/
theorem job_runs {argv : List Str} {args : Dict Str Val} (h : Cli.parse opts argv = some args) (hp : PlainArgs args)
    {out : Str} {ow : Bool} (h3 : args.lookup "outdir_name".toList = some (.text out))
    (h4 : args.lookup "overwrite".toList = some (.bool ow)) {r : Pth} (hn : RunS.Norm r) (hr : PlainRun r)
    (text : Pth → Option Str) : run text (command args r) = some (.created [⟨r, out, ow⟩]) := by
  obtain ⟨hk, hv⟩ := Cli.parse_shape dests_nodup h
  have kex : "execution".toList ∈ args.map (·.1) := by rw [hk]; decide +kernel
  have kin : "input_rundirs".toList ∈ args.map (·.1) := by rw [hk]; decide +kernel
  have nei : "execution".toList ≠ "input_rundirs".toList := by decide
  have hkeys : (jobArgs args r).map (·.1) = opts.map (·.dest) := by
    unfold jobArgs
    rw [PyDict.keys_set, PyDict.keys_set, if_pos kex, if_pos kin, hk]
  have hlook : ∀ k, (jobArgs args r).lookup k = if k = "input_rundirs".toList then some (.text (pathText r))
      else if k = "execution".toList then some (.text "interactive".toList) else args.lookup k := by
    intro k
    unfold jobArgs
    rw [PyDict.lookup_set, PyDict.lookup_set]
  have hint : Plain "interactive".toList := ⟨by decide, by decide, by decide +kernel⟩
  -- the values of the job
  have hvals : ∀ x ∈ opts, ∀ v, (jobArgs args r).lookup x.dest = some v → Plain v.str ∧
      Cli.convert x.kind [v.str] = some (if x.dest = "input_rundirs".toList then .paths [r] else v) := by
    intro x hx v hxv
    rw [hlook] at hxv
    by_cases e1 : x.dest = "input_rundirs".toList
    · rw [if_pos e1] at hxv
      cases hxv
      rw [if_pos e1, rundirs_kind x hx e1]
      refine ⟨hr.1, ?_⟩
      show some (Val.paths ([pathText r].map toPath)) = _
      rw [List.map_cons, List.map_nil, RunS.toPath_pathText r hn]
    · rw [if_neg e1] at hxv
      rw [if_neg e1]
      by_cases e2 : x.dest = "execution".toList
      · rw [if_pos e2] at hxv
        cases hxv
        rw [execution_kind x hx e2]
        exact ⟨hint, rfl⟩
      · rw [if_neg e2] at hxv
        obtain ⟨v', hv', hkind⟩ := hv x hx
        rw [hxv] at hv'
        cases hv'
        have hkv : Cli.HasKind x.kind v := by
          rcases hkind with rfl | hkind
          · rcases default_kind x hx with e | e | e
            · exact absurd e e2
            · exact absurd e e1
            · exact e
          · exact hkind
        have hne : x.kind ≠ .paths := fun e => e1 (paths_option x hx e)
        refine ⟨?_, Cli.convert_str hkv hne⟩
        generalize x.kind = kk at hkv hne
        cases kk with
        | text => obtain ⟨s, rfl⟩ := hkv; exact hp.1 _ _ hxv
        | path => obtain ⟨p, rfl, -⟩ := hkv; exact hp.2 _ _ hxv
        | int => obtain ⟨n, rfl⟩ := hkv; exact RunS.whole_numbers_pass n
        | bool => obtain ⟨b, rfl⟩ := hkv; exact bool_plain b
        | paths => exact absurd rfl hne
  -- its command
  have hnl : ((jobArgs args r).map (·.1)).Nodup := by rw [hkeys]; exact dests_nodup
  have hsh : shell (command args r) =
      some ("evaluate_final_results".toList :: (Cli.written (jobArgs args r)).flatMap fun g => g.1 :: g.2) := by
    have hs := shell_pairs name_ne name_safe ((jobArgs args r).map fun p => ("--".toList ++ p.1, p.2.str)) (by
      intro q hq
      obtain ⟨p, hpl, rfl⟩ := List.mem_map.mp hq
      have hm : p.1 ∈ opts.map (·.dest) := by rw [← hkeys]; exact List.mem_map_of_mem hpl
      obtain ⟨x, hx, e⟩ := List.mem_map.mp hm
      have hl := PyDict.lookup_of_mem _ hnl hpl
      rw [← e] at hl
      have hd : ∀ c ∈ "--".toList, safeChar c = true := by decide
      refine ⟨⟨by simp, ?_⟩, (hvals x hx _ hl).1⟩
      intro c hc
      rcases List.mem_append.mp hc with hc | hc
      · exact hd c hc
      · rw [← e] at hc; exact dest_safe x hx c hc)
    rw [List.map_map] at hs
    unfold command
    rw [name_split]
    refine Eq.trans hs ?_
    unfold Cli.written
    rw [List.flatMap_map, List.flatMap_map]
  obtain ⟨d', h1, h2⟩ := Cli.parse_written dests_nodup find_dest
    (fun k v => if k = "input_rundirs".toList then .paths [r] else v) hkeys
    (fun x hx v hxv => ⟨(hvals x hx v hxv).1.2.1, (hvals x hx v hxv).2⟩)
  unfold run
  rw [hsh]
  dsimp only
  rw [if_pos rfl]
  unfold program
  rw [h1, Option.bind_some]
  -- what the job reads
  have look : ∀ k, k ∈ opts.map (·.dest) → d'.lookup k =
      (if k = "input_rundirs".toList then some (.text (pathText r))
      else if k = "execution".toList then some (.text "interactive".toList) else args.lookup k).map
        (fun v => if k = "input_rundirs".toList then .paths [r] else v) := by
    intro k hk
    obtain ⟨x, hx, rfl⟩ := List.mem_map.mp hk
    rw [h2 x hx, hlook]
  have same : ∀ k, k ∈ opts.map (·.dest) → k ≠ "input_rundirs".toList → k ≠ "execution".toList →
      d'.lookup k = args.lookup k := by
    intro k hk e1 e2
    rw [look k hk, if_neg e1, if_neg e2]
    cases args.lookup k with
    | none => rfl
    | some v => rw [Option.map_some, if_neg e1]
  have hb : ∀ x ∈ opts, x.kind = .bool → ∃ b, args.lookup x.dest = some (.bool b) := by
    intro x hx e
    obtain ⟨v, hxv, hkind⟩ := hv x hx
    have : Cli.HasKind x.kind v := by
      rcases hkind with rfl | hkind
      · rcases default_kind x hx with e' | e' | e'
        · rw [execution_kind x hx e'] at e; cases e
        · rw [rundirs_kind x hx e'] at e; cases e
        · exact e'
      · exact hkind
    rw [e] at this
    obtain ⟨b, rfl⟩ := this
    exact ⟨b, hxv⟩
  obtain ⟨t, ht⟩ : ∃ b, args.lookup "test".toList = some (.bool b) :=
    hb ⟨["--test".toList, "-t".toList], "test".toList, .bool, .bool false, false⟩ (by decide +kernel) rfl
  obtain ⟨w, hw⟩ : ∃ b, args.lookup "dont_wait_for_batch".toList = some (.bool b) :=
    hb ⟨["--dont_wait_for_batch".toList, "-nowait".toList], "dont_wait_for_batch".toList, .bool, .bool false, false⟩
      (by decide +kernel) rfl
  rw [main_eq (rs := [r]) (ps := [r]) (out := out) (ow := ow) (test := t) (nowait := w)]
  · rfl
  · rw [look _ (by decide +kernel), if_pos rfl, Option.map_some, if_pos rfl]
  · rw [look _ (by decide +kernel), if_neg nei, if_pos rfl, Option.map_some, if_neg nei]
  · rw [same _ (by decide +kernel) (by decide) (by decide), h3]
  · rw [same _ (by decide +kernel) (by decide) (by decide), h4]
  · rw [same _ (by decide +kernel) (by decide) (by decide), ht]
  · rw [same _ (by decide +kernel) (by decide) (by decide), hw]
  · exact pathsOf_one hr.2

/-- C128. The jobs which `evaluate_final_results` submits (or shows, in test mode) make, one for one and in the same
order, the calls which the same program makes itself in interactive mode: the same run directories, output directory and
leave to overwrite. The logs of a job are in the output directory of its run. This holds for any contents of the files at the time of the jobs. Missing is the case of paths,
queues and output directories which are not plain words, and of run directories with the suffix `.txt`, where it is
false (`space_stops_results`, `dash_stops_results`, `txt_directory_is_list`). -/
theorem batch_like_interactive_partial {text : Pth → Option Str} {argv : List Str} {args : Dict Str Val}
    (h : Cli.parse opts argv = some args) {js : List Job}
    (hm : main text args = some (.submitted js) ∨ main text args = some (.shown js)) (hp : PlainArgs args) :
    ∃ cs, main text (interactively args) = some (.created cs) ∧
      js.map (·.logs) = (cs.map fun c => resolve c.rundir (toPath c.outdir) ++ ["logs".toList]) ∧
      ((∀ c ∈ cs, PlainRun c.rundir) →
        ∀ later : Pth → Option Str, js.map (fun j => run later j.command) = cs.map fun c => some (.created [c])) := by
  obtain ⟨ps, ex, out, ow, test, nowait, rs, h1, h2, h3, h4, h5, h6, hrs, hjs⟩ : ∃ ps ex out ow test nowait rs,
      args.lookup "input_rundirs".toList = some (.paths ps) ∧
      args.lookup "execution".toList = some (.text ex) ∧ args.lookup "outdir_name".toList = some (.text out) ∧
      args.lookup "overwrite".toList = some (.bool ow) ∧ args.lookup "test".toList = some (.bool test) ∧
      args.lookup "dont_wait_for_batch".toList = some (.bool nowait) ∧ pathsOf text ps = .ok rs ∧
      js = jobs args out rs := by
    rcases hm with hm | hm
    · obtain ⟨ps, ex, out, ow, test, nowait, rs, h1, h2, h3, h4, h5, h6, hrs, he⟩ := main_some hm
      refine ⟨ps, ex, out, ow, test, nowait, rs, h1, h2, h3, h4, h5, h6, hrs, ?_⟩
      split at he
      · cases he
      · split at he
        · split at he
          · cases he
          · split at he
            · cases he
            · cases he; rfl
        · split at he <;> cases he
    · obtain ⟨ps, ex, out, ow, test, nowait, rs, h1, h2, h3, h4, h5, h6, hrs, he⟩ := main_some hm
      refine ⟨ps, ex, out, ow, test, nowait, rs, h1, h2, h3, h4, h5, h6, hrs, ?_⟩
      split at he
      · cases he
      · split at he
        · split at he
          · cases he
          · split at he
            · cases he; rfl
            · cases he
        · split at he <;> cases he
  have look : ∀ k, k ≠ "execution".toList → (interactively args).lookup k = args.lookup k := by
    intro k hk
    unfold interactively
    rw [PyDict.lookup_set, if_neg hk]
  refine ⟨rs.map fun r => ⟨r, out, ow⟩, ?_, by rw [hjs]; unfold jobs; rw [List.map_map, List.map_map]; rfl, ?_⟩
  · refine main_eq (ps := ps) (test := test) (nowait := nowait) ?_ ?_ ?_ ?_ ?_ ?_ hrs
    · rw [look _ (by decide), h1]
    · unfold interactively; rw [PyDict.lookup_set, if_pos rfl]
    · rw [look _ (by decide), h3]
    · rw [look _ (by decide), h4]
    · rw [look _ (by decide), h5]
    · rw [look _ (by decide), h6]
  · intro hr later
    have hnorm : ∀ r ∈ rs, RunS.Norm r := by
      refine pathsOf_norm hrs ?_
      obtain ⟨-, hv⟩ := Cli.parse_shape dests_nodup h
      obtain ⟨v, hv1, hv2⟩ := hv ⟨["--input_rundirs".toList, "-i".toList], "input_rundirs".toList, .paths, .none, true⟩
        (by decide +kernel)
      dsimp only at hv1 hv2
      rw [h1] at hv1
      cases hv1
      rcases hv2 with e | ⟨l, e, hl⟩
      · cases e
      · cases e; exact hl
    rw [hjs]
    unfold jobs
    rw [List.map_map, List.map_map]
    refine List.map_congr_left fun r hrm => ?_
    show run later (command args r) = some (.created [⟨r, out, ow⟩])
    exact job_runs h hp h3 h4 (hnorm r hrm) (hr _ (List.mem_map_of_mem hrm)) later

/-! ### Call by a forecast -/

theorem find_short :
    Cli.find opts "-ex".toList = some ⟨["--execution".toList, "-ex".toList], "execution".toList, .text, .none, true⟩ ∧
    Cli.find opts "-i".toList =
      some ⟨["--input_rundirs".toList, "-i".toList], "input_rundirs".toList, .paths, .none, true⟩ ∧
    Cli.find opts "-q".toList =
      some ⟨["--queue".toList, "-q".toList], "queue".toList, .text, .text "long".toList, false⟩ ∧
    Cli.find opts "-ncj".toList =
      some ⟨["--n_cores_per_job".toList, "-ncj".toList], "n_cores_per_job".toList, .int, .int 1, false⟩ ∧
    Cli.find opts "-mem".toList = some ⟨["--memory".toList, "-mem".toList], "memory".toList, .int, .int 2048, false⟩ ∧
    Cli.find opts "-ow".toList =
      some ⟨["--overwrite".toList, "-ow".toList], "overwrite".toList, .bool, .bool false, false⟩ ∧
    Cli.find opts "-wd".toList = some ⟨["--workdir".toList, "-wd".toList], "workdir".toList, .path, .path [], false⟩ := by
  decide +kernel

/-- The options on the command line of a forecast. -/
def forecastPairs (execution : Str) (rundir : Pth) (overwrite : Val) : List (Str × Str) :=
  [("-ex".toList, execution), ("-i".toList, pathText rundir), ("-q".toList, "long".toList), ("-ncj".toList, "1".toList),
   ("-mem".toList, "3000".toList), ("-ow".toList, overwrite.str), ("-wd".toList, pathText rundir)]

theorem shell_forecast {execution : Str} {rundir : Pth} {overwrite : Val} (hx : Plain execution)
    (hr : Plain (pathText rundir)) (ho : Plain overwrite.str) :
    shell (forecastCommand execution rundir overwrite) = some ("evaluate_final_results".toList ::
      ((forecastPairs execution rundir overwrite).map fun p => (p.1, [p.2])).flatMap fun g => g.1 :: g.2) := by
  have k1 : "-ex".toList ≠ [] ∧ ∀ c ∈ "-ex".toList, safeChar c = true := by decide
  have k2 : "-i".toList ≠ [] ∧ ∀ c ∈ "-i".toList, safeChar c = true := by decide
  have k3 : "-q".toList ≠ [] ∧ ∀ c ∈ "-q".toList, safeChar c = true := by decide
  have k4 : "-ncj".toList ≠ [] ∧ ∀ c ∈ "-ncj".toList, safeChar c = true := by decide
  have k5 : "-mem".toList ≠ [] ∧ ∀ c ∈ "-mem".toList, safeChar c = true := by decide
  have k6 : "-ow".toList ≠ [] ∧ ∀ c ∈ "-ow".toList, safeChar c = true := by decide
  have k7 : "-wd".toList ≠ [] ∧ ∀ c ∈ "-wd".toList, safeChar c = true := by decide
  have v3 : Plain "long".toList := ⟨by decide, by decide, by decide⟩
  have v4 : Plain "1".toList := ⟨by decide, by decide, by decide⟩
  have v5 : Plain "3000".toList := ⟨by decide, by decide, by decide⟩
  have hs := shell_pairs name_ne name_safe (forecastPairs execution rundir overwrite) (by
    intro q hq
    unfold forecastPairs at hq
    rcases List.mem_cons.mp hq with rfl | hq
    · exact ⟨k1, hx⟩
    rcases List.mem_cons.mp hq with rfl | hq
    · exact ⟨k2, hr⟩
    rcases List.mem_cons.mp hq with rfl | hq
    · exact ⟨k3, v3⟩
    rcases List.mem_cons.mp hq with rfl | hq
    · exact ⟨k4, v4⟩
    rcases List.mem_cons.mp hq with rfl | hq
    · exact ⟨k5, v5⟩
    rcases List.mem_cons.mp hq with rfl | hq
    · exact ⟨k6, ho⟩
    · rw [List.mem_singleton.mp hq]; exact ⟨k7, hr⟩)
  unfold forecastCommand
  rw [name_split]
  refine Eq.trans hs ?_
  rw [List.flatMap_map]

theorem group_forecast {execution : Str} {rundir : Pth} {overwrite : Val} (hx : Plain execution)
    (hr : Plain (pathText rundir)) (ho : Plain overwrite.str) :
    group (((forecastPairs execution rundir overwrite).map fun p => (p.1, [p.2])).flatMap fun g => g.1 :: g.2) =
      ([], (forecastPairs execution rundir overwrite).map fun p => (p.1, [p.2])) := by
  have o1 : isValue "-ex".toList = false := by decide
  have o2 : isValue "-i".toList = false := by decide
  have o3 : isValue "-q".toList = false := by decide
  have o4 : isValue "-ncj".toList = false := by decide
  have o5 : isValue "-mem".toList = false := by decide
  have o6 : isValue "-ow".toList = false := by decide
  have o7 : isValue "-wd".toList = false := by decide
  have v3 : isValue "long".toList = true := by decide
  have v4 : isValue "1".toList = true := by decide
  have v5 : isValue "3000".toList = true := by decide
  apply RunS.group_words
  intro g hg
  obtain ⟨q, hq, rfl⟩ := List.mem_map.mp hg
  have : isValue q.1 = false ∧ isValue q.2 = true := by
    unfold forecastPairs at hq
    rcases List.mem_cons.mp hq with rfl | hq
    · exact ⟨o1, hx.2.1⟩
    rcases List.mem_cons.mp hq with rfl | hq
    · exact ⟨o2, hr.2.1⟩
    rcases List.mem_cons.mp hq with rfl | hq
    · exact ⟨o3, v3⟩
    rcases List.mem_cons.mp hq with rfl | hq
    · exact ⟨o4, v4⟩
    rcases List.mem_cons.mp hq with rfl | hq
    · exact ⟨o5, v5⟩
    rcases List.mem_cons.mp hq with rfl | hq
    · exact ⟨o6, ho.2.1⟩
    · rw [List.mem_singleton.mp hq]; exact ⟨o7, hr.2.1⟩
  exact ⟨this.1, fun t ht => by rw [List.mem_singleton.mp ht]; exact this.2⟩

/-- The arguments read from the command line of a forecast. -/
theorem parse_forecast {execution : Str} {rundir : Pth} {overwrite : Val} (hx : Plain execution)
    (hr : Plain (pathText rundir)) (ho : Plain overwrite.str) :
    Cli.parse opts (((forecastPairs execution rundir overwrite).map fun p => (p.1, [p.2])).flatMap fun g => g.1 :: g.2) =
      (Cli.strToBool overwrite.str).map fun b =>
        PyDict.set (PyDict.set (PyDict.set (PyDict.set (PyDict.set (PyDict.set (PyDict.set
          (opts.map fun x => (x.dest, x.default))
          "execution".toList (.text execution)) "input_rundirs".toList (.paths [toPath (pathText rundir)]))
          "queue".toList (.text "long".toList)) "n_cores_per_job".toList (.int 1)) "memory".toList (.int 3000))
          "overwrite".toList (.bool b)) "workdir".toList (.path (toPath (pathText rundir))) := by
  obtain ⟨f1, f2, f3, f4, f5, f6, f7⟩ := find_short
  have n4 : RunS.parseInt "1".toList = some 1 := by decide
  have n5 : RunS.parseInt "3000".toList = some 3000 := by decide
  unfold Cli.parse
  dsimp only
  rw [group_forecast hx hr ho]
  dsimp only
  rw [if_neg (by simp)]
  generalize hd0 : (opts.map fun x => (x.dest, x.default)) = d0
  have ha : Cli.assign opts d0 ((forecastPairs execution rundir overwrite).map fun p => (p.1, [p.2])) =
      (Cli.strToBool overwrite.str).map fun b =>
        PyDict.set (PyDict.set (PyDict.set (PyDict.set (PyDict.set (PyDict.set (PyDict.set d0
          "execution".toList (.text execution)) "input_rundirs".toList (.paths [toPath (pathText rundir)]))
          "queue".toList (.text "long".toList)) "n_cores_per_job".toList (.int 1)) "memory".toList (.int 3000))
          "overwrite".toList (.bool b)) "workdir".toList (.path (toPath (pathText rundir))) := by
    unfold forecastPairs
    simp only [List.map_cons, List.map_nil, Cli.assign, f1, f2, f3, f4, f5, f6, f7, Cli.convert, n4, n5, Option.map_some]
    cases Cli.strToBool overwrite.str with
    | none => rfl
    | some b => rfl
  rw [ha]
  cases Cli.strToBool overwrite.str with
  | none => rfl
  | some b =>
    rw [Option.map_some]
    dsimp only
    rw [if_pos]
    rw [List.all_eq_true]
    intro x hx
    have hreq : ∀ x ∈ opts, x.required = true → "-ex".toList ∈ x.names ∨ "-i".toList ∈ x.names := by decide +kernel
    cases hxr : x.required with
    | false => rfl
    | true =>
      rw [Bool.not_true, Bool.false_or, List.any_eq_true]
      rcases hreq x hx hxr with h | h
      · exact ⟨("-ex".toList, [execution]), by unfold forecastPairs; simp only [List.map_cons]; exact List.mem_cons_self,
          by simpa using h⟩
      · exact ⟨("-i".toList, [pathText rundir]),
          by unfold forecastPairs; simp only [List.map_cons]; exact List.mem_cons_of_mem _ List.mem_cons_self,
          by simpa using h⟩

theorem forecast_args {execution : Str} {rundir : Pth} {b : Bool} {d : Dict Str Val}
    (hd : d = PyDict.set (PyDict.set (PyDict.set (PyDict.set (PyDict.set (PyDict.set (PyDict.set
          (opts.map fun x => (x.dest, x.default))
          "execution".toList (.text execution)) "input_rundirs".toList (.paths [rundir]))
          "queue".toList (.text "long".toList)) "n_cores_per_job".toList (.int 1)) "memory".toList (.int 3000))
          "overwrite".toList (.bool b)) "workdir".toList (.path rundir)) (k : Str) :
    d.lookup k = if k = "workdir".toList then some (.path rundir) else if k = "overwrite".toList then some (.bool b)
      else if k = "memory".toList then some (.int 3000) else if k = "n_cores_per_job".toList then some (.int 1)
      else if k = "queue".toList then some (.text "long".toList)
      else if k = "input_rundirs".toList then some (.paths [rundir])
      else if k = "execution".toList then some (.text execution)
      else (opts.map fun x => (x.dest, x.default)).lookup k := by
  rw [hd]
  simp only [PyDict.lookup_set]

theorem default_values : (opts.map fun x => (x.dest, x.default)) =
    [("n_cores_per_job".toList, .int 1), ("memory".toList, .int 2048), ("queue".toList, .text "long".toList),
     ("execution".toList, .none), ("workdir".toList, .path []), ("input_rundirs".toList, .none),
     ("outdir_name".toList, .text "final_results".toList), ("silent".toList, .bool false), ("test".toList, .bool false),
     ("overwrite".toList, .bool false), ("dont_wait_for_batch".toList, .bool false)] := by decide +kernel

theorem default_out : (opts.map fun x => (x.dest, x.default)).lookup "outdir_name".toList =
    some (Val.text "final_results".toList) := by decide +kernel

theorem default_test : (opts.map fun x => (x.dest, x.default)).lookup "test".toList = some (Val.bool false) := by
  decide +kernel

theorem default_wait : (opts.map fun x => (x.dest, x.default)).lookup "dont_wait_for_batch".toList =
    some (Val.bool false) := by decide +kernel

/-- Texts among the defaults are plain words. -/
theorem default_texts : ∀ p ∈ (opts.map fun x => (x.dest, x.default)), ∀ s, p.2 = Val.text s → Plain s := by
  have h1 : Plain "long".toList := ⟨by decide, by decide, by decide⟩
  have h2 : Plain "final_results".toList := ⟨by decide, by decide, by decide⟩
  intro p hp s hs
  rw [default_values] at hp
  simp only [List.mem_cons, List.not_mem_nil, or_false] at hp
  rcases hp with rfl | rfl | rfl | rfl | rfl | rfl | rfl | rfl | rfl | rfl | rfl <;> cases hs
  · exact h1
  · exact h2

/-- C128. A forecast whose run directory has a plain path without the suffix `.txt` has the final results of this directory
made, in `final_results`, and overwritten exactly if the forecast was asked to; in batch mode by one job. Old results are
removed before exactly if they are to be overwritten. Missing are other values of the option, for which it is false
(`odd_overwrite_no_results`, `text_false_removes`). -/
theorem forecast_results_partial {run₀ : Pth} (hr : Job.AbsPlain run₀) (hs : suffix (pname run₀) ≠ ".txt".toList) (b : Bool)
    (text : Pth → Option Str) :
    evaluateFinal text "interactive".toList run₀ (.bool b) =
      ⟨b, some (.created [⟨run₀, "final_results".toList, b⟩])⟩ ∧
    ∃ j, evaluateFinal text "batch".toList run₀ (.bool b) = ⟨b, some (.submitted [j])⟩ ∧
      j.logs = run₀ ++ ["final_results".toList, "logs".toList] ∧
      ∀ later, run later j.command = some (.created [⟨run₀, "final_results".toList, b⟩]) := by
  have pi : Plain "interactive".toList := ⟨by decide, by decide, by decide⟩
  have pb : Plain "batch".toList := ⟨by decide, by decide, by decide⟩
  have ne : "batch".toList ≠ "interactive".toList := by decide
  have hi := parse_forecast (overwrite := .bool b) pi hr.text (bool_plain b)
  have hb := parse_forecast (overwrite := .bool b) pb hr.text (bool_plain b)
  rw [Cli.strToBool_str, Option.map_some, hr.back] at hi hb
  have out : ∀ ex, ∀ d : Dict Str Val, (∀ k, d.lookup k = if k = "workdir".toList then some (.path run₀) else
      if k = "overwrite".toList then some (.bool b)
      else if k = "memory".toList then some (.int 3000) else if k = "n_cores_per_job".toList then some (.int 1)
      else if k = "queue".toList then some (.text "long".toList)
      else if k = "input_rundirs".toList then some (.paths [run₀])
      else if k = "execution".toList then some (.text ex)
      else (opts.map fun x => (x.dest, x.default)).lookup k) →
      d.lookup "input_rundirs".toList = some (.paths [run₀]) ∧ d.lookup "execution".toList = some (.text ex) ∧
      d.lookup "outdir_name".toList = some (.text "final_results".toList) ∧ d.lookup "overwrite".toList = some (.bool b) ∧
      d.lookup "test".toList = some (.bool false) ∧ d.lookup "dont_wait_for_batch".toList = some (.bool false) := by
    intro ex d hd
    refine ⟨?_, ?_, ?_, ?_, ?_, ?_⟩
    · rw [hd, if_neg (by decide), if_neg (by decide), if_neg (by decide), if_neg (by decide), if_neg (by decide),
        if_pos rfl]
    · rw [hd, if_neg (by decide), if_neg (by decide), if_neg (by decide), if_neg (by decide), if_neg (by decide),
        if_neg (by decide), if_pos rfl]
    · rw [hd, if_neg (by decide), if_neg (by decide), if_neg (by decide), if_neg (by decide), if_neg (by decide),
        if_neg (by decide), if_neg (by decide), default_out]
    · rw [hd, if_neg (by decide), if_pos rfl]
    · rw [hd, if_neg (by decide), if_neg (by decide), if_neg (by decide), if_neg (by decide), if_neg (by decide),
        if_neg (by decide), if_neg (by decide), default_test]
    · rw [hd, if_neg (by decide), if_neg (by decide), if_neg (by decide), if_neg (by decide), if_neg (by decide),
        if_neg (by decide), if_neg (by decide), default_wait]
  constructor
  · unfold evaluateFinal run
    rw [shell_forecast pi hr.text (bool_plain b)]
    dsimp only
    rw [if_pos rfl]
    unfold program
    rw [hi, Option.bind_some]
    obtain ⟨h1, h2, h3, h4, h5, h6⟩ := out _ _ (forecast_args rfl)
    rw [main_eq h1 h2 h3 h4 h5 h6 (pathsOf_one hs)]
    rfl
  · obtain ⟨h1, h2, h3, h4, h5, h6⟩ := out _ _ (forecast_args rfl)
    generalize hD : (PyDict.set (PyDict.set (PyDict.set (PyDict.set (PyDict.set (PyDict.set (PyDict.set
          (opts.map fun x => (x.dest, x.default))
          "execution".toList (.text "batch".toList)) "input_rundirs".toList (.paths [run₀]))
          "queue".toList (.text "long".toList)) "n_cores_per_job".toList (.int 1)) "memory".toList (.int 3000))
          "overwrite".toList (.bool b)) "workdir".toList (.path run₀)) = D at hb h1 h2 h3 h4 h5 h6
    refine ⟨⟨command D run₀, run₀ ++ ["final_results".toList, "logs".toList]⟩, ?_, rfl, fun later => ?_⟩
    · unfold evaluateFinal run
      rw [shell_forecast pb hr.text (bool_plain b)]
      dsimp only
      rw [if_pos rfl]
      unfold program
      rw [hb, Option.bind_some]
      unfold main
      rw [h1, h2, h3, h4, h5, h6]
      dsimp only
      rw [pathsOf_one hs]
      dsimp only
      rw [if_neg ne, if_pos rfl, if_neg (by simp), if_neg (by simp)]
      have hres : resolve run₀ (toPath "final_results".toList) = run₀ ++ ["final_results".toList] := by
        have : toPath "final_results".toList = ["final_results".toList] := by decide +kernel
        rw [this]
        have c : "final_results".toList = 'f' :: "inal_results".toList := by decide +kernel
        rw [c]; rfl
      unfold jobs
      rw [List.map_cons, List.map_nil, hres, List.append_assoc]
      rfl
    · refine job_runs hb ⟨?_, ?_⟩ h3 h4 hr.norm ⟨hr.text, hs⟩ later
      · intro k s hk
        rw [forecast_args hD.symm] at hk
        split at hk
        · cases hk
        split at hk
        · cases hk
        split at hk
        · cases hk
        split at hk
        · cases hk
        split at hk
        · cases hk; exact ⟨by decide, by decide, by decide⟩
        split at hk
        · cases hk
        split at hk
        · cases hk; exact pb
        · exact default_texts _ (PyDict.mem_of_lookup hk) s rfl
      · intro k p hk
        rw [forecast_args hD.symm] at hk
        split at hk
        · cases hk; exact hr.text
        split at hk
        · cases hk
        split at hk
        · cases hk
        split at hk
        · cases hk
        split at hk
        · cases hk
        split at hk
        · cases hk
        split at hk
        · cases hk
        · rename_i hne _ _ _ _ _ _
          have hm := PyDict.mem_of_lookup hk
          have : ∀ q ∈ (opts.map fun x => (x.dest, x.default)), ∀ p, q.2 = Val.path p → q.1 = "workdir".toList := by
            rw [default_values]
            intro q hq p hqp
            simp only [List.mem_cons, List.not_mem_nil, or_false] at hq
            rcases hq with rfl | rfl | rfl | rfl | rfl | rfl | rfl | rfl | rfl | rfl | rfl <;> first | rfl | cases hqp
          exact absurd (this _ hm p rfl) hne

/-- C128. With any other plain value of the option a forecast gets no results at all, and does not notice; if the value
counts as true, the old results are gone. -/
theorem odd_overwrite_no_results {execution : Str} (hx : Plain execution) {run₀ : Pth} (hr : Plain (pathText run₀))
    {v : Val} (hv : Plain v.str) (h : Cli.strToBool v.str = none) (text : Pth → Option Str) :
    evaluateFinal text execution run₀ v = ⟨v.truthy, none⟩ := by
  unfold evaluateFinal run
  rw [shell_forecast hx hr hv]
  dsimp only
  rw [if_pos rfl]
  unfold program
  rw [parse_forecast hx hr hv, h]
  rfl

theorem lower_digit {s : Str} (h : ∃ c ∈ s, isDigit c = true ∨ c = '-') : Cli.strToBool s = none := by
  obtain ⟨c, hc, h⟩ := h
  have hl : c.toLower ∈ Cli.lower s := List.mem_map_of_mem hc
  have hlow : c.toLower = c := by
    unfold Char.toLower
    rw [dif_neg]
    rcases h with h | rfl
    · unfold isDigit at h
      simp only [Bool.and_eq_true, decide_eq_true_eq] at h
      intro hu
      have h2 := h.2
      have : ('9' : Char).toNat = 57 := rfl
      have h3 := UInt32.le_iff_toNat_le.mp hu.1
      have h4 : c.val.toNat ≤ 57 := h2
      have h5 : (65 : UInt32).toNat = 65 := rfl
      have h6 : 65 ≤ c.val.toNat := h3
      omega
    · decide
  have hnot : ∀ x ∈ "true".toList, ¬ (isDigit x = true ∨ x = '-') := by decide
  have hnot' : ∀ x ∈ "false".toList, ¬ (isDigit x = true ∨ x = '-') := by decide
  rw [hlow] at hl
  unfold Cli.strToBool
  rw [if_neg, if_neg]
  · intro e; rw [e] at hl; exact hnot' c hl h
  · intro e; rw [e] at hl; exact hnot c hl h

/-- C128. Asking for `--overwrite_results 1` (any whole number but zero) removes the old results and makes no new ones. -/
theorem number_removes_results {execution : Str} (hx : Plain execution) {run₀ : Pth} (hr : Plain (pathText run₀)) (n : Int)
    (text : Pth → Option Str) :
    evaluateFinal text execution run₀ (.int n) = ⟨decide (n ≠ 0), none⟩ := by
  refine odd_overwrite_no_results hx hr (RunS.whole_numbers_pass n) (lower_digit ?_) text
  show ∃ c ∈ RunS.intText n, _
  cases n with
  | ofNat n =>
    obtain ⟨c, r, e⟩ := List.exists_cons_of_ne_nil (decStr_ne_nil n)
    refine ⟨c, ?_, Or.inl (decStr_digits n c (by rw [e]; simp))⟩
    show c ∈ decStr n
    rw [e]; simp
  | negSucc n => exact ⟨'-', by show '-' ∈ '-' :: decStr (n + 1); simp, Or.inr rfl⟩

/-- C128. A forecast for which the option was never set (as when it is started without `job_submitter`) gets no final
results. -/
theorem unset_overwrite_no_results {execution : Str} (hx : Plain execution) {run₀ : Pth} (hr : Plain (pathText run₀))
    (text : Pth → Option Str) : evaluateFinal text execution run₀ .none = ⟨false, none⟩ :=
  odd_overwrite_no_results hx hr ⟨by decide, by decide, by decide⟩ (by decide) text

/-! ### Cases -/

def noFiles : Pth → Option Str := fun _ => none

def exRun : Pth := [[], "d".toList, "r1".toList]

theorem exRun_plain : Job.AbsPlain exRun := by
  refine ⟨["d".toList, "r1".toList], by decide, rfl, fun c hc => ?_⟩
  simp only [List.mem_cons, List.not_mem_nil, or_false] at hc
  rcases hc with rfl | rfl
  · exact ⟨by decide, by decide, by decide, by decide⟩
  · exact ⟨by decide, by decide, by decide, by decide⟩

/-- C128. The text `False`, as the ini file of `job_submitter` gives it, removes the old results, although it then asks not
to overwrite them. -/
theorem text_false_removes : evaluateFinal noFiles "interactive".toList exRun (.text "False".toList) =
    ⟨true, some (.created [⟨exRun, "final_results".toList, false⟩])⟩ := by decide +kernel

/-- A call in batch mode with two directories. -/
def exArgv : List Str :=
  ["-ex".toList, "batch".toList, "-i".toList, "/d/r1".toList, "/d/r2".toList, "-o".toList, "res".toList, "-ow".toList]

def exArgs : Dict Str Val :=
  [("n_cores_per_job".toList, .int 1), ("memory".toList, .int 2048), ("queue".toList, .text "long".toList),
   ("execution".toList, .text "batch".toList), ("workdir".toList, .path []),
   ("input_rundirs".toList, .paths [[[], "d".toList, "r1".toList], [[], "d".toList, "r2".toList]]),
   ("outdir_name".toList, .text "res".toList), ("silent".toList, .bool false), ("test".toList, .bool false),
   ("overwrite".toList, .bool true), ("dont_wait_for_batch".toList, .bool false)]

example : Cli.parse opts exArgv = some exArgs := by decide +kernel

example : main noFiles exArgs = some (.submitted
    [⟨"evaluate_final_results --n_cores_per_job 1 --memory 2048 --queue long --execution interactive --workdir . --input_rundirs /d/r1 --outdir_name res --silent False --test False --overwrite True --dont_wait_for_batch False".toList,
      [[], "d".toList, "r1".toList, "res".toList, "logs".toList]⟩,
     ⟨"evaluate_final_results --n_cores_per_job 1 --memory 2048 --queue long --execution interactive --workdir . --input_rundirs /d/r2 --outdir_name res --silent False --test False --overwrite True --dont_wait_for_batch False".toList,
      [[], "d".toList, "r2".toList, "res".toList, "logs".toList]⟩]) := by decide +kernel

example : PlainArgs exArgs := by
  have h : ∀ q ∈ exArgs, (∀ s, q.2 = .text s → Plain s) ∧ ∀ p, q.2 = .path p → Plain (pathText p) := by
    intro q hq
    unfold exArgs at hq
    simp only [List.mem_cons, List.not_mem_nil, or_false] at hq
    rcases hq with rfl | rfl | rfl | rfl | rfl | rfl | rfl | rfl | rfl | rfl | rfl <;> constructor <;> intro s hs <;>
      cases hs <;> exact ⟨by decide, by decide, by decide⟩
  exact ⟨fun k s hk => (h _ (PyDict.mem_of_lookup hk)).1 s rfl, fun k p hk => (h _ (PyDict.mem_of_lookup hk)).2 p rfl⟩

example : PlainRun exRun := ⟨exRun_plain.text, by decide +kernel⟩

/-- The same call with one directory of the given path. -/
def oneArgs (mode : Str) (r : Pth) : Dict Str Val :=
  [("n_cores_per_job".toList, .int 1), ("memory".toList, .int 2048), ("queue".toList, .text "long".toList),
   ("execution".toList, .text mode), ("workdir".toList, .path []),
   ("input_rundirs".toList, .paths [r, exRun]), ("outdir_name".toList, .text "res".toList), ("silent".toList, .bool false),
   ("test".toList, .bool false), ("overwrite".toList, .bool false), ("dont_wait_for_batch".toList, .bool false)]

/-- What the jobs of a call come to. -/
def jobsDo (text : Pth → Option Str) (args : Dict Str Val) : Option (List (Option Outcome)) :=
  match main text args with
  | some (.submitted js) => some (js.map fun j => run text j.command)
  | _ => none

/-- C128. Run directories with a space in their path: in batch mode the words of the path are taken for two directories,
neither of which is meant, in interactive mode the right directory is used. -/
theorem space_stops_results :
    main noFiles (oneArgs "interactive".toList [[], "d".toList, "my run".toList]) =
      some (.created [⟨[[], "d".toList, "my run".toList], "res".toList, false⟩, ⟨exRun, "res".toList, false⟩]) ∧
    jobsDo noFiles (oneArgs "batch".toList [[], "d".toList, "my run".toList]) =
      some [some (.created [⟨[[], "d".toList, "my".toList], "res".toList, false⟩, ⟨["run".toList], "res".toList, false⟩]),
        some (.created [⟨exRun, "res".toList, false⟩])] := by decide +kernel

/-- C128. A relative run directory whose name begins with a dash is taken for an option by its job. -/
theorem dash_stops_results :
    main noFiles (oneArgs "interactive".toList (toPath "./-r".toList)) =
      some (.created [⟨["-r".toList], "res".toList, false⟩, ⟨exRun, "res".toList, false⟩]) ∧
    jobsDo noFiles (oneArgs "batch".toList (toPath "./-r".toList)) =
      some [none, some (.created [⟨exRun, "res".toList, false⟩])] := by decide +kernel

/-- C128. A run directory whose name ends in `.txt`, beside another one: in interactive mode it is a run directory, its job
takes it for a list of directories and fails. -/
theorem txt_directory_is_list :
    main noFiles (oneArgs "interactive".toList [[], "d".toList, "r.txt".toList]) =
      some (.created [⟨[[], "d".toList, "r.txt".toList], "res".toList, false⟩, ⟨exRun, "res".toList, false⟩]) ∧
    jobsDo noFiles (oneArgs "batch".toList [[], "d".toList, "r.txt".toList]) =
      some [none, some (.created [⟨exRun, "res".toList, false⟩])] := by decide +kernel

/-- C128. A json list of directories, which the help of the option announces, is taken for a run directory. -/
theorem json_list_is_directory :
    program noFiles ["-ex".toList, "interactive".toList, "-i".toList, "runs.json".toList] =
      some (.created [⟨["runs.json".toList], "final_results".toList, false⟩]) := by decide +kernel

/-- C128. A blank line in a list stands for the current directory. -/
theorem blank_line_is_here :
    program (fun p => if p = ["l.txt".toList] then some "/d/r1\n\n/d/r2\n".toList else none)
      ["-ex".toList, "interactive".toList, "-i".toList, "l.txt".toList] =
      some (.created [⟨exRun, "final_results".toList, false⟩, ⟨[], "final_results".toList, false⟩,
        ⟨[[], "d".toList, "r2".toList], "final_results".toList, false⟩]) := by decide +kernel

/-- C128. An empty list is no error in interactive mode, and one in batch mode. -/
theorem empty_list_modes :
    program (fun _ => some []) ["-ex".toList, "interactive".toList, "-i".toList, "l.txt".toList] = some (.created []) ∧
    program (fun _ => some []) ["-ex".toList, "batch".toList, "-i".toList, "l.txt".toList] = none := by decide +kernel

end Seyfert.Eval
