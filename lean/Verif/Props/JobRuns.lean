import Verif.Lemmas.JobSteps
import Verif.Props.ClDerivative

/-!
C127: the jobs of a task do not disturb each other when they run at the same time, and each computes what its directory
is named after.
-/

set_option linter.unusedSectionVars false

namespace Seyfert.Job

open Orch (Pth pname)
open Param (Coll Par central stepNumbers)
open ClDer (Cosmo Cls Store)

variable {K S C : Type} [Field K] [LinearOrder K]

/-! ### Scripts -/

/-- C127. The script of a job calls the program of its task, and the program works in the directory of the job, with the
configuration there and the run directory. (For paths of letters, digits and a few other characters.) -/
theorem script_runs_partial (venv : Option Pth) (home : Pth) (p : Prog) {run : Pth} {cfgName n : Str} (hr : AbsPlain run)
    (hc : PlainName cfgName) (hn : PlainPart n) :
    jobOf venv home p run cfgName n =
      some (p, ⟨run ++ [p.dir, n], n, run, run ++ [p.dir, n, cfgName]⟩) := by
  have hd : PlainPart p.dir := by
    refine ⟨?_, ?_, ?_, ?_⟩ <;> cases p <;> decide +kernel
  have hj : AbsPlain (jobPath p run n) := by
    refine hr.append ?_
    intro c h
    rcases List.mem_cons.mp h with rfl | h
    · exact hd
    · rw [List.mem_singleton.mp h]; exact hn
  unfold jobOf
  rw [bash_script venv home hj hr hc]
  simp only
  rw [args_script hj hr hc]
  have e : pname (jobPath p run n) = n := by
    unfold jobPath
    unfold pname
    rw [show run ++ [p.dir, n] = (run ++ [p.dir]) ++ [n] by simp, List.getLast?_concat]
    rfl
  have e2 : jobPath p run n ++ [cfgName] = run ++ [p.dir, n, cfgName] := by
    unfold jobPath; rw [List.append_assoc]; rfl
  rw [Option.map_some, e, e2]
  rfl

/-- C127. With a space in the path of the run directory the program refuses its arguments: the job does nothing. -/
theorem space_stops_job : jobOf none [[], "home".toList] .pmm [[], "my runs".toList, "r".toList] "cfg.json".toList
    "dvar_central_step_0".toList = none := by decide +kernel

theorem scripts_of (venv : Option Pth) (home : Pth) (p : Prog) {run : Pth} {cfgName : Str} {jobs : List Str}
    (hr : AbsPlain run) (hc : PlainName cfgName) (hn : ∀ n ∈ jobs, PlainPart n) :
    Scripts venv home p run cfgName jobs := by
  intro n h
  rw [script_runs_partial venv home p hr hc (hn n h)]
  unfold argsFor jobPath
  rw [List.append_assoc]
  rfl

/-! ### Schedules -/

/-- C127. At any time, that is also if everything is stopped then: whatever the order in which the jobs have made their
steps, the directory of each job holds what it would hold had the job made its steps alone, and nothing else has
changed. -/
theorem at_any_time_partial (w : World K S C) (venv : Option Pth) (home : Pth) (p : Prog) {run : Pth} {cfgName : Str}
    {jobs sched : List Str} (hr : AbsPlain run) (hc : PlainName cfgName) (hn : ∀ n ∈ jobs, PlainPart n)
    {d : Disk K S C} {c : Coll K} (hp : HasParams d run c) (hs : ∀ n ∈ sched, n ∈ jobs) :
    (∀ n ∈ jobs, ∀ f, runTask w venv home p run cfgName sched d (run ++ [p.dir, n] ++ f) =
      runTask w venv home p run cfgName (List.replicate (sched.count n) n) d (run ++ [p.dir, n] ++ f)) ∧
    ∀ q, (∀ n ∈ sched, ¬ (run ++ [p.dir, n]) <+: q) → runTask w venv home p run cfgName sched d q = d q := by
  have hj := scripts_of venv home p hr hc hn
  refine ⟨fun n h f => ?_, (runTask_own w hj hp hs).2⟩
  have ho : Own p run n (run ++ [p.dir, n] ++ f) := own_append p run n f
  rw [(runTask_own w hj hp hs).1 n h _ ho,
    (runTask_own w hj hp (fun m hm => by rw [List.eq_of_mem_replicate hm]; exact h)).1 n h _ ho,
    List.count_replicate_self]

/-- C127. When all jobs have come to their end, the files are the same whatever the order of the steps was; so a task
gives the same in batch and when one job is run after the other. -/
theorem same_results_partial (w : World K S C) (venv : Option Pth) (home : Pth) (p : Prog) {run : Pth} {cfgName : Str}
    {jobs s₁ s₂ : List Str} (hr : AbsPlain run) (hc : PlainName cfgName) (hn : ∀ n ∈ jobs, PlainPart n)
    {d : Disk K S C} {c : Coll K} (hp : HasParams d run c) (h₁ : Complete jobs s₁) (h₂ : Complete jobs s₂) :
    runTask w venv home p run cfgName s₁ d = runTask w venv home p run cfgName s₂ d := by
  have hj := scripts_of venv home p hr hc hn
  funext q
  by_cases h : ∃ n ∈ jobs, Own p run n q
  · obtain ⟨n, hn, ho⟩ := h
    rw [runTask_after w hj hp h₁ hn ho, runTask_after w hj hp h₂ hn ho]
  · rw [(runTask_own w hj hp h₁.1).2 q fun n hn ho => h ⟨n, h₁.1 n hn, ho⟩,
      (runTask_own w hj hp h₂.1).2 q fun n hn ho => h ⟨n, h₂.1 n hn, ho⟩]

theorem inTurn_complete (jobs : List Str) : Complete jobs (inTurn jobs) := by
  refine ⟨fun n hn => ?_, fun n hn => ?_⟩
  · obtain ⟨m, hm, h⟩ := List.mem_flatMap.mp hn
    rw [List.eq_of_mem_replicate h]; exact hm
  · unfold inTurn
    induction jobs with
    | nil => exact absurd hn List.not_mem_nil
    | cons m l ih =>
      rw [List.flatMap_cons, List.count_append]
      rcases List.mem_cons.mp hn with rfl | h
      · rw [List.count_replicate_self]; omega
      · have := ih h; omega

/-- C127. A task that was stopped at any point, in the middle of any of its jobs, and is then run again as a whole leaves
the same files as if it had not been stopped. (If the configuration does not have the name of one of the results.) -/
theorem stopped_and_rerun_partial (w : World K S C) (venv : Option Pth) (home : Pth) (p : Prog) {run : Pth} {cfgName : Str}
    {jobs s₀ s : List Str} (hr : AbsPlain run) (hc : PlainName cfgName) (hn : ∀ n ∈ jobs, PlainPart n)
    {d : Disk K S C} {c : Coll K} (hp : HasParams d run c) (h₀ : ∀ n ∈ s₀, n ∈ jobs) (h : Complete jobs s)
    (ho : ∀ n ∈ jobs, cfgName ∉ outNames w n p) :
    runTask w venv home p run cfgName s (runTask w venv home p run cfgName s₀ d) =
      runTask w venv home p run cfgName s d := by
  have hj := scripts_of venv home p hr hc hn
  have hsh : ∀ q, Shared p run q → runTask w venv home p run cfgName s₀ d q = d q := fun q hq =>
    runTask_shared w hj hp h₀ hq
  have hp' := hp.mono hsh
  funext q
  by_cases hq : ∃ n ∈ jobs, Own p run n q
  · obtain ⟨n, hn, hown⟩ := hq
    rw [runTask_after w hj hp' h hn hown, runTask_after w hj hp h hn hown, ← after_alone w p run cfgName n hp (ho n hn) (s₀.count n)]
    have hi := indep w p run cfgName hj hp
    have hst : stepOf w (jobOf venv home p run cfgName) n = next w p (argsFor p run cfgName n) := by
      funext l d
      unfold stepOf
      rw [hj n hn]
    have hk : ∀ k, ∀ l, Good p run n l → ∀ d' : Disk K S C, (∀ q, Shared p run q → d' q = d q) →
        ∀ q, Shared p run q → (alone (next w p (argsFor p run cfgName n)) k l d').2 q = d q := by
      intro k
      induction k with
      | zero => intro l _ d' hd; exact hd
      | succ k ih =>
        intro l hl d' hd q hq
        rw [alone]
        refine ih _ (next_good w p run cfgName n l d') _ (fun r hr => ?_) q hq
        rw [next_frame w p run cfgName n d' hl (fun ho => own_not_shared ho hr)]
        exact hd r hr
    have := hi.aloneCongr (i := n) hn 3 .start (runTask w venv home p run cfgName s₀ d)
      (alone (next w p (argsFor p run cfgName n)) (s₀.count n) .start d).2 trivial hsh
      (hk _ .start trivial d (fun _ _ => rfl)) (fun r hr => (runTask_own w hj hp h₀).1 n hn r hr)
    rw [hst] at this
    rw [← (alone_after w p (argsFor p run cfgName n) (le_refl 3) _).2, ← (alone_after w p (argsFor p run cfgName n) (le_refl 3) _).2]
    exact this.2 q hown
  · rw [(runTask_own w hj hp' h.1).2 q fun n hn ho => hq ⟨n, h.1 n hn, ho⟩,
      (runTask_own w hj hp h.1).2 q fun n hn ho => hq ⟨n, h.1 n hn, ho⟩,
      (runTask_own w hj hp h₀).2 q fun n hn ho => hq ⟨n, h₀ n hn, ho⟩]

/-! ### Results -/

theorem good_plain {x : Str} (h : ∀ c ∈ x, Names.isAlnum c = true) : '/' ∉ x ∧ ∀ c ∈ x, RunS.safeChar c = true := by
  refine ⟨fun hc => absurd (h _ hc) (by decide), fun c hc => ?_⟩
  have := h c hc
  unfold Names.isAlnum at this
  unfold RunS.safeChar
  rw [this, Bool.true_or]

theorem param_plain {x : Str} (h : Names.GoodName x) : PlainPart x := by
  obtain ⟨h1, h2⟩ := good_plain h.2
  refine ⟨h.1, ?_, h1, h2⟩
  rintro rfl
  exact absurd (h.2 '.' (by simp)) (by decide)

theorem jobDir_plain {x : Str} (h : Names.GoodName x) (s : Int) : PlainPart (Names.jobDir x s) := by
  obtain ⟨h1, h2⟩ := good_plain h.2
  have d1 : "dvar_".toList = 'd' :: "var_".toList := by decide
  have dig : ∀ c ∈ decStr s.natAbs, c ≠ '/' ∧ RunS.safeChar c = true := by
    intro c hc
    have := decStr_digits _ c hc
    refine ⟨fun e => by rw [e] at this; exact absurd this (by decide), ?_⟩
    unfold RunS.safeChar
    rw [this]; simp
  have lit : ∀ l : Str, (l.all fun c => decide (c ≠ '/') && RunS.safeChar c) = true →
      ∀ c ∈ l, c ≠ '/' ∧ RunS.safeChar c = true := by
    intro l hl c hc
    have := List.all_eq_true.mp hl c hc
    simpa using this
  have hst : ∀ c ∈ Names.stepStr s, c ≠ '/' ∧ RunS.safeChar c = true := by
    unfold Names.stepStr
    split
    · exact lit _ (by decide +kernel)
    · split
      · intro c hc
        rcases List.mem_append.mp hc with hc | hc
        · exact lit _ (by decide +kernel) c hc
        · exact dig c hc
      · intro c hc
        rcases List.mem_append.mp hc with hc | hc
        · exact lit _ (by decide +kernel) c hc
        · exact dig c hc
  have all : ∀ c ∈ Names.jobDir x s, c ≠ '/' ∧ RunS.safeChar c = true := by
    intro c hc
    unfold Names.jobDir at hc
    rcases List.mem_append.mp hc with hc | hc
    · rcases List.mem_append.mp hc with hc | hc
      · rcases List.mem_append.mp hc with hc | hc
        · exact lit _ (by decide +kernel) c hc
        · exact ⟨fun e => h1 (e ▸ hc), h2 c hc⟩
      · exact lit _ (by decide +kernel) c hc
    · exact hst c hc
  have hd : ∃ r, Names.jobDir x s = 'd' :: r := by
    unfold Names.jobDir
    rw [d1]
    exact ⟨_, rfl⟩
  obtain ⟨r, hd⟩ := hd
  refine ⟨by rw [hd]; simp, ?_, fun hc => (all _ hc).1 rfl, fun c hc => (all c hc).2⟩
  rw [hd]
  intro e
  exact absurd (List.cons.inj e).1 (by decide)

/-- C127. Whatever the order of the steps of the jobs, the power spectrum file of a parameter and a step holds the
cosmology computed with the configuration of the job and the cosmological parameters displaced by that step; if that cannot
be computed there is no file. -/
theorem power_results_partial (w : World K S C) (venv : Option Pth) (home : Pth) {run : Pth} {cfgName : Str}
    {jobs sched : List Str} (hr : AbsPlain run) (hc : PlainName cfgName) (hn : ∀ n ∈ jobs, PlainPart n)
    {d : Disk K S C} {c : Coll K} (hp : HasParams d run c) (hs : Complete jobs sched) {cfg : C}
    (hcfg : HasConfig d .pmm run cfgName cfg jobs) {v : Str × Int} (hv : Names.jobDir v.1 v.2 ∈ jobs)
    (hg : Names.GoodName v.1) (h9 : v.2.natAbs ≤ 9) (hnone : d (pmmFile run v) = none) :
    runTask w venv home .pmm run cfgName sched d (pmmFile run v) = (powerOf w cfg c v).map .cosmo := by
  have hj := scripts_of venv home .pmm hr hc hn
  have hpath : pmmFile run v = jobPath .pmm run (Names.jobDir v.1 v.2) ++ ["p_mm.h5".toList] := by
    unfold pmmFile jobPath; rw [List.append_assoc]; rfl
  rw [runTask_after w hj hp hs hv (hpath ▸ own_append _ _ _ _)]
  show saved (pmmStart _ _ _) d _ = _
  have e1 : (argsFor Prog.pmm run cfgName (Names.jobDir v.1 v.2)).run = run := rfl
  have e2 : d (argsFor Prog.pmm run cfgName (Names.jobDir v.1 v.2)).cfg = some (.config cfg) := by
    have := hcfg _ hv
    rw [← this]
    show d (jobPath _ _ _ ++ [cfgName]) = _
    unfold jobPath; rw [List.append_assoc]; rfl
  have e3 : (argsFor Prog.pmm run cfgName (Names.jobDir v.1 v.2)).name = Names.jobDir v.1 v.2 := rfl
  have e4 : (argsFor Prog.pmm run cfgName (Names.jobDir v.1 v.2)).work ++ ["p_mm.h5".toList] = pmmFile run v := hpath.symm
  unfold pmmStart powerOf
  rw [e1, e2, e3, e4, paramsOf_has hp, Names.jobDir_roundtrip_partial v.1 hg v.2 (by omega)]
  simp only
  rcases hu : Param.update c v.1 v.2 with ⟨c', err⟩
  cases err with
  | some e => simp only; exact hnone
  | none =>
    simp only
    cases w.boltz cfg (c'.pars.filter fun q => decide (q.2.kind = .cosmo)) with
    | none => exact hnone
    | some x =>
      unfold saved
      simp only
      rw [hnone, Option.isSome_none, if_neg (by simp), write_same]
      rfl

theorem lookup_storeOf (d : Disk K S C) (run : Pth) (vs : List (Str × Int)) (v : Str × Int) (hv : v ∈ vs) :
    (storeOf d run vs).lookup v = cosmoIn (d (pmmFile run v)) := by
  have e : storeOf d run vs = vs.filterMap fun v => (cosmoIn (d (pmmFile run v))).map fun x => (v, x) := by
    unfold storeOf
    apply List.filterMap_congr
    intro u _
    cases d (pmmFile run u) with
    | none => rfl
    | some f => cases f <;> rfl
  rw [e]
  have key : ∀ (g : Str × Int → Option (Cosmo K S)) (vs : List (Str × Int)), v ∈ vs →
      (vs.filterMap fun v => (g v).map fun x => (v, x)).lookup v = g v := by
    intro g vs
    induction vs with
    | nil => intro h; exact absurd h List.not_mem_nil
    | cons u l ih =>
      intro h
      rw [List.filterMap_cons]
      by_cases e : v = u
      · subst e
        cases hx : g v with
        | some x => simp
        | none =>
          simp only [Option.map_none]
          rw [List.lookup_eq_none_iff]
          intro p hp
          obtain ⟨u, _, hu⟩ := List.mem_filterMap.mp hp
          obtain ⟨y, hy, rfl⟩ := Option.map_eq_some_iff.mp hu
          simp only [bne_iff_ne, ne_eq]
          rintro rfl
          rw [hx] at hy
          cases hy
      · have hl := (List.mem_cons.mp h).resolve_left e
        cases g u with
        | none => simp only [Option.map_none]; exact ih hl
        | some x =>
          simp only [Option.map_some]
          rw [List.lookup_cons]
          have : (v == u) = false := by simpa using e
          rw [this]
          exact ih hl
  exact key (fun v => cosmoIn (d (pmmFile run v))) vs hv

theorem load_congr {st st' : Store K S} (pars : List (Str × Par K)) (v : Str) (s : Int) (h1 : st.lookup (v, s) = st'.lookup (v, s))
    (h0 : st.lookup (central, 0) = st'.lookup (central, 0)) :
    ClDer.loadCosmology st pars v s = ClDer.loadCosmology st' pars v s := by
  unfold ClDer.loadCosmology
  have : ∀ i, ClDer.cosmoId pars v s = .ok i → st.lookup i = st'.lookup i := by
    intro i hi
    unfold ClDer.cosmoId at hi
    split at hi
    · cases hi; exact h0
    · split at hi
      · cases hi
      · split at hi
        · cases hi; exact h1
        · cases hi; exact h0
  cases hc : ClDer.cosmoId pars v s with
  | error e => rfl
  | ok i => simp only; rw [this i hc]

/-- C127. Whatever the order of the steps of the jobs, the file of spectra of a parameter and a step holds what the job named
after them computes from the power spectra files of the run (see C115), and no file if it raises; the displaced parameters
are written beside it. -/
theorem spectra_results_partial (w : World K S C) (venv : Option Pth) (home : Pth) {run : Pth} {cfgName : Str}
    {jobs sched : List Str} (hr : AbsPlain run) (hc : PlainName cfgName) (hn : ∀ n ∈ jobs, PlainPart n)
    {d : Disk K S C} {c : Coll K} (hp : HasParams d run c) (hs : Complete jobs sched) {cfg : C}
    (hcfg : HasConfig d .cls run cfgName cfg jobs) {v : Str × Int} (hv : Names.jobDir v.1 v.2 ∈ jobs)
    (hg : Names.GoodName v.1) (h9 : v.2.natAbs ≤ 9) (hnone : d (clFile w run v) = none) {dens : File K S C}
    (hd : d (run ++ ["norm_densities.hdf5".toList]) = some dens) {store : Store K S}
    (hst : Holds d run store [v, (central, 0)]) :
    runTask w venv home .cls run cfgName sched d (clFile w run v) =
      (got (ClDer.clJob (w.th cfg dens) store c (Names.jobDir v.1 v.2))).map .cls ∧
    ∀ c', Param.update c v.1 v.2 = (c', none) →
      runTask w venv home .cls run cfgName sched d
        (run ++ ["Angular".toList, Names.jobDir v.1 v.2, "params.json".toList]) = some (.params c') := by
  have hj := scripts_of venv home .cls hr hc hn
  have hdir : Prog.cls.dir = "Angular".toList := rfl
  have hpath : clFile w run v = jobPath .cls run (Names.jobDir v.1 v.2) ++ [clName w.probes] := by
    unfold clFile jobPath; rw [List.append_assoc]; rfl
  have hpath2 : run ++ ["Angular".toList, Names.jobDir v.1 v.2, "params.json".toList] =
      jobPath .cls run (Names.jobDir v.1 v.2) ++ ["params.json".toList] := by
    unfold jobPath; rw [List.append_assoc]; rfl
  rw [runTask_after w hj hp hs hv (hpath ▸ own_append _ _ _ _), runTask_after w hj hp hs hv (hpath2 ▸ own_append _ _ _ _)]
  generalize ha : argsFor Prog.cls run cfgName (Names.jobDir v.1 v.2) = a
  have e1 : a.run = run := by rw [← ha]; rfl
  have e2 : d a.cfg = some (.config cfg) := by
    rw [← hcfg _ hv, ← ha]
    show d (jobPath _ _ _ ++ [cfgName]) = _
    unfold jobPath; rw [List.append_assoc]; rfl
  have e3 : a.name = Names.jobDir v.1 v.2 := by rw [← ha]; rfl
  have e4 : a.work ++ [clName w.probes] = clFile w run v := by rw [← ha]; exact hpath.symm
  have e5 : a.work ++ ["params.json".toList] = run ++ ["Angular".toList, Names.jobDir v.1 v.2, "params.json".toList] := by
    rw [← ha]; exact hpath2.symm
  have hparse : Names.parseJobDir (Names.jobDir v.1 v.2) = some (v.1, v.2) :=
    Names.jobDir_roundtrip_partial v.1 hg v.2 (by omega)
  have hne : clFile w run v ≠ run ++ ["Angular".toList, Names.jobDir v.1 v.2, "params.json".toList] := by
    rw [hpath, hpath2]; exact work_ne (clName_not_params _)
  have hown : Own .cls run (Names.jobDir v.1 v.2) (run ++ ["Angular".toList, Names.jobDir v.1 v.2, "params.json".toList]) :=
    hpath2 ▸ own_append _ _ _ _
  generalize run ++ ["Angular".toList, Names.jobDir v.1 v.2, "params.json".toList] = pj at *
  have hafter : ∀ e c', Param.update c v.1 v.2 = (c', e) → after w .cls a d = (match e with
      | some _ => d
      | none => saved (clsGo w a c' v.1 v.2 cfg (write d pj (.params c'))) (write d pj (.params c'))) := by
    intro e c' hu
    unfold after clsStart
    rw [e1, e2, e3, e5, paramsOf_has hp, hparse]
    simp only [hu]
    cases e <;> rfl
  rcases hu : Param.update c v.1 v.2 with ⟨c', err⟩
  have hjob : ClDer.clJob (w.th cfg dens) store c (Names.jobDir v.1 v.2) = (match err with
      | some e => .error (.par e)
      | none => match ClDer.loadCosmology store c'.pars v.1 v.2 with
        | .error e => .error e
        | .ok cosmo => match ClDer.loadCosmology store c'.pars central 0 with
          | .error e => .error e
          | .ok fid => w.th cfg dens cosmo fid c'.pars) := by
    unfold ClDer.clJob
    rw [hparse]
    simp only [hu]
    cases err <;> rfl
  rw [hjob, hafter err c' hu]
  cases err with
  | some e => exact ⟨hnone, fun c2 h2 => by cases (Prod.mk.inj h2).2⟩
  | none =>
    simp only
    have hd1 : ∀ q, Shared .cls run q → write d pj (.params c') q = d q := fun q hq =>
      write_other _ _ fun e => own_not_shared (e ▸ hown) hq
    have hD : write d pj (.params c') (clFile w run v) = none := by rw [write_other _ _ hne]; exact hnone
    have hlk : ∀ u ∈ [v, (central, 0)], (storeOf (write d pj (.params c')) run [v, (central, 0)]).lookup u = store.lookup u := by
      intro u hu
      have hsh : Shared .cls run (pmmFile run u) := shared_of_first dirs_differ.1
      rw [lookup_storeOf _ _ _ _ hu, hst u hu, hd1 _ hsh]
    have l1 := load_congr c'.pars v.1 v.2 (hlk v (by simp)) (hlk (central, 0) (by simp))
    have l2 := load_congr c'.pars central 0 (hlk (central, 0) (by simp)) (hlk (central, 0) (by simp))
    have hgo : clsGo w a c' v.1 v.2 cfg (write d pj (.params c')) =
        (match ClDer.loadCosmology store c'.pars v.1 v.2, ClDer.loadCosmology store c'.pars central 0 with
          | .ok cosmo, .ok fid => match w.th cfg dens cosmo fid c'.pars with
            | .ok cls => .save true (clFile w run v) (.cls cls)
            | .error _ => .failed
          | _, _ => .failed) := by
      unfold clsGo
      dsimp only
      rw [e1, e4, l1, l2, hd1 _ (shared_of_first (input_not_dir _).2.2), hd]
      cases ClDer.loadCosmology store c'.pars v.1 v.2 with
      | error e => rfl
      | ok x =>
        cases ClDer.loadCosmology store c'.pars central 0 with
        | error e => rfl
        | ok y => rfl
    have hkeep : ∀ c2, (c', (none : Option Param.Err)) = (c2, none) →
        saved (clsGo w a c' v.1 v.2 cfg (write d pj (.params c'))) (write d pj (.params c')) pj = some (.params c2) := by
      intro c2 h2
      rw [← (Prod.mk.inj h2).1, saved_other, write_same]
      intro b q f he
      rw [(clsGo_save he).2, e4]
      exact hne.symm
    refine ⟨?_, hkeep⟩
    rw [hgo]
    cases ClDer.loadCosmology store c'.pars v.1 v.2 with
    | error e => exact hD
    | ok x =>
      cases ClDer.loadCosmology store c'.pars central 0 with
      | error e => exact hD
      | ok y =>
        simp only
        cases w.th cfg dens x y c'.pars with
        | error e => exact hD
        | ok cls =>
          simp only
          unfold saved
          simp only
          rw [hD, Option.isSome_none, if_neg (by simp), write_same]
          rfl

/-- C127. Whatever the order of the steps of the jobs, the file of derivatives of a parameter holds the derivatives computed
from the spectra in the run; if that raises it is what it was before. -/
theorem derivative_results_partial (w : World K S C) (venv : Option Pth) (home : Pth) {run : Pth} {cfgName : Str}
    {jobs sched : List Str} (hr : AbsPlain run) (hc : PlainName cfgName) (hn : ∀ n ∈ jobs, PlainPart n)
    {d : Disk K S C} {c : Coll K} (hp : HasParams d run c) (hs : Complete jobs sched) {dvar : Str} (hv : dvar ∈ jobs) :
    runTask w venv home .der run cfgName sched d (derFile w run dvar) =
      match got (ClDer.fileDerivative w.ana (storeOf d run [(central, 0)]) (clsOf w d run) c w.combos dvar) with
      | some l => some (.ders l)
      | none => d (derFile w run dvar) := by
  have hj := scripts_of venv home .der hr hc hn
  have hpath : derFile w run dvar = jobPath .der run dvar ++ [derName dvar w.probes] := by
    unfold derFile jobPath; rw [List.append_assoc]; rfl
  rw [runTask_after w hj hp hs hv (hpath ▸ own_append _ _ _ _)]
  show saved (derStart _ _ _) d _ = _
  have e1 : (argsFor Prog.der run cfgName dvar).run = run := rfl
  have e3 : (argsFor Prog.der run cfgName dvar).name = dvar := rfl
  have e4 : (argsFor Prog.der run cfgName dvar).work ++ [derName dvar w.probes] = derFile w run dvar := hpath.symm
  unfold derStart
  rw [e1, e3, e4, paramsOf_has hp]
  simp only
  cases ClDer.fileDerivative w.ana (storeOf d run [(central, 0)]) (clsOf w d run) c w.combos dvar with
  | error e => rfl
  | ok l => exact write_same _ _ _

/-- C127. A file of a power spectrum or of spectra that is there when a task is run stays as it is, whatever the
configuration is by then: after a change of the configuration the results are the old ones. -/
theorem old_results_kept (w : World K S C) (venv : Option Pth) (home : Pth) {run : Pth} {cfgName : Str}
    {jobs sched : List Str} (hr : AbsPlain run) (hc : PlainName cfgName) (hn : ∀ n ∈ jobs, PlainPart n)
    {d : Disk K S C} {c : Coll K} (hp : HasParams d run c) (hs : Complete jobs sched) {v : Str × Int}
    (hv : Names.jobDir v.1 v.2 ∈ jobs) {f : File K S C} :
    (d (pmmFile run v) = some f → runTask w venv home .pmm run cfgName sched d (pmmFile run v) = some f) ∧
    (d (clFile w run v) = some f → runTask w venv home .cls run cfgName sched d (clFile w run v) = some f) := by
  have kept : ∀ (l : Phase K S C) (d : Disk K S C) (q : Pth), (∀ b r g, l = .save b r g → b = true) → d q = some f →
      saved l d q = some f := by
    intro l d q hl hq
    cases l with
    | start => exact hq
    | spectra _ _ _ _ => exact hq
    | done => exact hq
    | failed => exact hq
    | save b r g =>
      have hb : b = true := hl b r g rfl
      subst hb
      unfold saved
      simp only
      by_cases e : (d r).isSome
      · rw [if_pos e]; exact hq
      · rw [if_neg e, write_other, hq]
        rintro rfl
        rw [hq] at e
        exact e rfl
  constructor
  · intro h
    have hpath : pmmFile run v = jobPath .pmm run (Names.jobDir v.1 v.2) ++ ["p_mm.h5".toList] := by
      unfold pmmFile jobPath; rw [List.append_assoc]; rfl
    rw [runTask_after w (scripts_of venv home .pmm hr hc hn) hp hs hv (hpath ▸ own_append _ _ _ _)]
    exact kept _ _ _ (fun b r g e => (pmmStart_save e).1) h
  · intro h
    have hpath : clFile w run v = jobPath .cls run (Names.jobDir v.1 v.2) ++ [clName w.probes] := by
      unfold clFile jobPath; rw [List.append_assoc]; rfl
    rw [runTask_after w (scripts_of venv home .cls hr hc hn) hp hs hv (hpath ▸ own_append _ _ _ _)]
    generalize ha : argsFor Prog.cls run cfgName (Names.jobDir v.1 v.2) = a
    have hne : clFile w run v ≠ a.work ++ ["params.json".toList] := by
      rw [hpath, ← ha]; exact work_ne (clName_not_params _)
    obtain ⟨l, d1, hl⟩ : ∃ l d1, clsStart a d = (l, d1) := ⟨_, _, rfl⟩
    unfold after
    simp only [hl]
    rcases clsStart_eq a hl with ⟨rfl, rfl⟩ | ⟨c', u, s, g, rfl, rfl⟩
    · exact h
    · exact kept _ _ _ (fun b r g e => (clsGo_save e).1) (by rw [write_other _ _ hne]; exact h)

/-! ### A run -/

theorem fill_at (p : Prog) (run : Pth) (cfgName : Str) (cfg : C) (ns : List Str) :
    ∀ d : Disk K S C, ∀ n, (n ∈ ns ∨ d (jobPath p run n ++ [cfgName]) = some (.config cfg)) →
      fill p run cfgName cfg d ns (jobPath p run n ++ [cfgName]) = some (.config cfg) := by
  induction ns with
  | nil => intro d n h; exact h.resolve_left List.not_mem_nil
  | cons m l ih =>
    intro d n h
    unfold fill
    apply ih
    by_cases e : n = m
    · subst e; right; exact write_same _ _ _
    · rcases h with h | h
      · left; exact (List.mem_cons.mp h).resolve_left e
      · right
        unfold write
        split
        · rfl
        · exact h

theorem fill_other (p : Prog) (run : Pth) (cfgName : Str) (cfg : C) (ns : List Str) {q : Pth}
    (hq : ∀ n, q ≠ jobPath p run n ++ [cfgName]) : ∀ d : Disk K S C, fill p run cfgName cfg d ns q = d q := by
  induction ns with
  | nil => intro d; rfl
  | cons m l ih => intro d; unfold fill; rw [ih, write_other _ _ (hq m)]

theorem shared_not_fill {p : Prog} {run : Pth} {q : Pth} (h : Shared p run q) (cfgName : Str) :
    ∀ n, q ≠ jobPath p run n ++ [cfgName] := by
  rintro n rfl
  exact own_not_shared (own_append p run n [cfgName]) h

theorem evaluateKeys_ok (ana : Cosmo K S → Par K → Str × Str → ClDer.Spec K → Except ClDer.Err (List K)) (store : Store K S)
    (dirs : List (Str × Cls K)) (c : Coll K) (p : Par K) (f : Str × Str → List K × List K) (combos : List (Str × Str))
    (h : ∀ key ∈ combos, ClDer.evaluate ana store dirs c p key = .ok (f key)) :
    ClDer.evaluateKeys ana store dirs c p combos = .ok (combos.map fun key => (key, f key)) := by
  induction combos with
  | nil => rfl
  | cons key l ih =>
    unfold ClDer.evaluateKeys
    rw [h key (by simp)]
    simp only
    rw [ih fun k hk => h k (List.mem_cons_of_mem _ hk)]
    rfl

theorem lookup_map_pair {A B : Type} [BEq A] [LawfulBEq A] [DecidableEq A] (l : List A) (f : A → B) {a : A} (h : a ∈ l) :
    (l.map fun x => (x, f x)).lookup a = some (f a) := by
  induction l with
  | nil => exact absurd h List.not_mem_nil
  | cons x l ih =>
    rw [List.map_cons, List.lookup_cons]
    by_cases e : a = x
    · subst e; simp
    · have : (a == x) = false := by simpa using e
      rw [this]
      exact ih ((List.mem_cons.mp h).resolve_left e)

theorem dir_cases (p q : Prog) (h : p ≠ q) : p.dir ≠ q.dir := by
  cases p <;> cases q <;> first | exact absurd rfl h | decide +kernel

variable [IsStrictOrderedRing K]

/-- C127. A whole run, up to the derivatives: the directories are made, and then the jobs of each task run in any order, and
mixed with each other in any way. If no computation fails, the file of derivatives of a parameter holds, for every
combination of probes, the slopes of the fits through the spectra that were computed for the displaced values of that
parameter from the power spectra for these values. (For at most nine steps, names of letters and digits, and a run directory
without old results.) -/
theorem pipeline_partial (w : World K S C) (venv : Option Pth) (home : Pth) {run : Pth} (hr : AbsPlain run) (cfgs : Cfg C)
    (hc : ∀ p, PlainName (cfgs p).1) (hc1 : (cfgs .pmm).1 ≠ "p_mm.h5".toList) (hc2 : (cfgs .cls).1 ≠ clName w.probes)
    {c₀ : Coll K} {base : List K} {dvar : Str} {par : Par K} (hset : ClDer.Setting c₀ base dvar par) (h0 : 0 < base.length)
    (h9 : base.length ≤ 9) (hm : par.method = Names.stem) {d : Disk K S C}
    (hp : HasParams d run (Param.loadStem c₀ base)) {dens : File K S C}
    (hdens : d (run ++ ["norm_densities.hdf5".toList]) = some dens) (hold : ∀ q, run ++ [Prog.pmm.dir] <+: q ∨ run ++ [Prog.cls.dir] <+: q → d q = none)
    {pw : Str × Int → Cosmo K S} {sp : Str → Int → Cls K} (hok : Computes w cfgs dens (Param.loadStem c₀ base) pw sp)
    (hdirs : w.dirs.Perm (jobNames (Param.loadStem c₀ base) .cls)) {m : Str × Str → Nat}
    (hm1 : ∀ key ∈ w.combos, 0 < m key ∧ ClDer.Entries sp dvar base.length key (m key)) {sched : Prog → List Str}
    (hs : ∀ p, Complete (jobNames (Param.loadStem c₀ base) p) (sched p)) :
    forecast w venv home run cfgs (jobNames (Param.loadStem c₀ base)) sched d (derFile w run dvar) =
      some (.ders (w.combos.map fun key => (key, slopes base par sp dvar (m key) key))) := by
  obtain ⟨_, g2, _, g4, _⟩ := Param.loaded c₀ hset.pos
  generalize hcc : Param.loadStem c₀ base = c at *
  have cgood : Names.GoodName central := ⟨by decide, by decide⟩
  -- the jobs
  have hA : (Names.angularJobs c).getD [] = (central, 0) :: Names.variations (Param.freePars c) (stepNumbers base.length) := by
    unfold Names.angularJobs; rw [g2]; rfl
  have hP : (Names.powerJobs c).getD [] = (central, 0) :: Names.variations (Param.freeCosmo c) (stepNumbers base.length) := by
    unfold Names.powerJobs; rw [g2]; rfl
  have steps9 : ∀ s ∈ stepNumbers base.length, s.natAbs ≤ 9 := by
    intro s hs
    have := ((Param.mem_stepNumbers _ _).mp hs).2
    omega
  have goodA : ∀ v ∈ (Names.angularJobs c).getD [], Names.GoodName v.1 ∧ v.2.natAbs ≤ 9 := by
    intro v hv
    rw [hA] at hv
    rcases List.mem_cons.mp hv with rfl | hv
    · exact ⟨cgood, by simp⟩
    · obtain ⟨h1, q, h2, _⟩ := (Names.mem_variations _ _ v.1 v.2).mp hv
      refine ⟨hset.good (v.1, q) ?_, steps9 _ h1⟩
      unfold Param.freePars at h2
      rw [← g4]
      exact (List.mem_filter.mp h2).1
  have goodP : ∀ v ∈ (Names.powerJobs c).getD [], Names.GoodName v.1 ∧ v.2.natAbs ≤ 9 := by
    intro v hv
    rw [hP] at hv
    rcases List.mem_cons.mp hv with rfl | hv
    · exact ⟨cgood, by simp⟩
    · obtain ⟨h1, q, h2, _⟩ := (Names.mem_variations _ _ v.1 v.2).mp hv
      refine ⟨hset.good (v.1, q) ?_, steps9 _ h1⟩
      unfold Param.freeCosmo at h2
      rw [← g4]
      exact (List.mem_filter.mp (List.mem_filter.mp h2).1).1
  have plain : ∀ p, ∀ n ∈ jobNames c p, PlainPart n := by
    intro p n hn
    cases p with
    | pmm =>
      obtain ⟨v, hv, rfl⟩ := List.mem_map.mp hn
      exact jobDir_plain (goodP v hv).1 _
    | cls =>
      obtain ⟨v, hv, rfl⟩ := List.mem_map.mp hn
      exact jobDir_plain (goodA v hv).1 _
    | der =>
      obtain ⟨q, hq, rfl⟩ := List.mem_map.mp hn
      refine param_plain (hset.good q ?_)
      unfold Param.freePars at hq
      rw [← g4]
      exact (List.mem_filter.mp hq).1
  have scripts : ∀ p, Scripts venv home p run (cfgs p).1 (jobNames c p) := fun p =>
    scripts_of venv home p hr (hc p) (plain p)
  -- after making the directories
  obtain ⟨d0, hd0⟩ : ∃ d0, d0 = prepare run cfgs (jobNames c) d := ⟨_, rfl⟩
  have far : ∀ {p q : Prog} {x : Pth}, p ≠ q → Shared p run (run ++ q.dir :: x) := fun h =>
    shared_of_first (dir_cases _ _ h.symm)
  have jobP : ∀ (p : Prog) (n : Str) (x : Pth), jobPath p run n ++ x = run ++ p.dir :: (n :: x) := by
    intro p n x; unfold jobPath; rw [List.append_assoc]; rfl
  have keep0 : ∀ x l, (∀ p : Prog, x ≠ p.dir) → d0 (run ++ x :: l) = d (run ++ x :: l) := by
    intro x l hx
    rw [hd0]
    unfold prepare
    rw [fill_other _ _ _ _ _ (shared_not_fill (shared_of_first (hx .der)) _),
      fill_other _ _ _ _ _ (shared_not_fill (shared_of_first (hx .cls)) _),
      fill_other _ _ _ _ _ (shared_not_fill (shared_of_first (hx .pmm)) _)]
  have hp0 : HasParams d0 run c := by
    obtain ⟨l, a1, a2, a3⟩ := hp
    exact ⟨l, by rw [keep0 _ _ fun p => (input_not_dir p).1]; exact a1, a2,
      by rw [keep0 _ _ fun p => (input_not_dir p).2.1]; exact a3⟩
  have dens0 : d0 (run ++ ["norm_densities.hdf5".toList]) = some dens := by
    rw [keep0 _ _ fun p => (input_not_dir p).2.2]; exact hdens
  have cfg1 : HasConfig d0 .pmm run (cfgs .pmm).1 (cfgs .pmm).2 (jobNames c .pmm) := by
    intro n hn
    have e : run ++ [Prog.pmm.dir, n, (cfgs .pmm).1] = jobPath .pmm run n ++ [(cfgs .pmm).1] := (jobP _ _ _).symm
    rw [hd0]
    unfold prepare
    rw [fill_other _ _ _ _ _ (shared_not_fill (far (by decide)) _), fill_other _ _ _ _ _ (shared_not_fill (far (by decide)) _), e]
    exact fill_at _ _ _ _ _ _ _ (Or.inl hn)
  have cfg2 : HasConfig d0 .cls run (cfgs .cls).1 (cfgs .cls).2 (jobNames c .cls) := by
    intro n hn
    have e : run ++ [Prog.cls.dir, n, (cfgs .cls).1] = jobPath .cls run n ++ [(cfgs .cls).1] := (jobP _ _ _).symm
    rw [hd0]
    unfold prepare
    rw [fill_other _ _ _ _ _ (shared_not_fill (far (by decide)) _), e]
    exact fill_at _ _ _ _ _ _ _ (Or.inl hn)
  have tail_ne : ∀ {p : Prog} {n n' x y : Str}, x ≠ y → run ++ [p.dir, n, x] ≠ jobPath p run n' ++ [y] := by
    intro p n n' x y hxy e
    rw [jobP] at e
    have := List.append_cancel_left e
    simp only [List.cons.injEq, and_true, true_and] at this
    exact hxy this.2
  have none1 : ∀ v, d0 (pmmFile run v) = none := by
    intro v
    rw [hd0]
    unfold prepare pmmFile
    rw [fill_other _ _ _ _ _ (shared_not_fill (far (by decide)) _), fill_other _ _ _ _ _ (shared_not_fill (far (by decide)) _),
      fill_other _ _ _ _ _ (fun n => tail_ne hc1.symm)]
    exact hold _ (Or.inl ⟨_, by rw [List.append_assoc]; rfl⟩)
  have none2 : ∀ v, d0 (clFile w run v) = none := by
    intro v
    have e : clFile w run v = run ++ [Prog.cls.dir, Names.jobDir v.1 v.2, clName w.probes] := rfl
    rw [hd0, e]
    unfold prepare
    rw [fill_other _ _ _ _ _ (shared_not_fill (far (by decide)) _), fill_other _ _ _ _ _ (fun n => tail_ne hc2.symm),
      fill_other _ _ _ _ _ (shared_not_fill (far (by decide)) _)]
    exact hold _ (Or.inr ⟨_, by rw [List.append_assoc]; rfl⟩)
  -- after the power spectra
  obtain ⟨d1, hd1⟩ : ∃ d1, d1 = runTask w venv home .pmm run (cfgs .pmm).1 (sched .pmm) d0 := ⟨_, rfl⟩
  have sh1 : ∀ q, Shared .pmm run q → d1 q = d0 q := fun q hq => by
    rw [hd1]; exact runTask_shared w (scripts .pmm) hp0 (hs .pmm).1 hq
  have hp1 := hp0.mono sh1
  have pow1 : ∀ v ∈ (Names.powerJobs c).getD [], d1 (pmmFile run v) = some (.cosmo (pw v)) := by
    intro v hv
    rw [hd1, power_results_partial w venv home hr (hc .pmm) (plain .pmm) hp0 (hs .pmm) cfg1
      (List.mem_map.mpr ⟨v, hv, rfl⟩) (goodP v hv).1 (goodP v hv).2 (none1 v), hok.power v hv]
    rfl
  have cfg21 : HasConfig d1 .cls run (cfgs .cls).1 (cfgs .cls).2 (jobNames c .cls) := fun n hn => by
    rw [sh1 _ (far (by decide))]; exact cfg2 n hn
  have none21 : ∀ v, d1 (clFile w run v) = none := fun v => by
    have e : Shared .pmm run (clFile w run v) := far (q := .cls) (by decide)
    rw [sh1 _ e]; exact none2 v
  have dens1 : d1 (run ++ ["norm_densities.hdf5".toList]) = some dens := by
    rw [sh1 _ (shared_of_first (input_not_dir _).2.2)]; exact dens0
  -- after the spectra
  obtain ⟨d2, hd2⟩ : ∃ d2, d2 = runTask w venv home .cls run (cfgs .cls).1 (sched .cls) d1 := ⟨_, rfl⟩
  have sh2 : ∀ q, Shared .cls run q → d2 q = d1 q := fun q hq => by
    rw [hd2]; exact runTask_shared w (scripts .cls) hp1 (hs .cls).1 hq
  have hp2 := hp1.mono sh2
  obtain ⟨store, hstore⟩ : ∃ st : Store K S, st = ((Names.powerJobs c).getD []).map fun v => (v, pw v) := ⟨_, rfl⟩
  have absent : ∀ v, v ∉ (Names.powerJobs c).getD [] → Names.jobDir v.1 v.2 ∉ jobNames c .pmm := by
    intro v hv hmem
    obtain ⟨u, hu, e⟩ := List.mem_map.mp hmem
    obtain ⟨e1, e2⟩ := Names.jobDir_injective e
    exact hv (by rw [show v = u from Prod.ext e1.symm e2.symm]; exact hu)
  have holds : ∀ vs, Holds d1 run store vs := by
    intro vs v _
    by_cases hv : v ∈ (Names.powerJobs c).getD []
    · rw [hstore, pow1 v hv]
      exact (lookup_map_pair _ pw hv).trans rfl
    · have e1 : d1 (pmmFile run v) = none := by
        rw [hd1, (runTask_own w (scripts .pmm) hp0 (hs .pmm).1).2]
        · exact none1 v
        · intro n hn ho
          have ho2 : Own .pmm run (Names.jobDir v.1 v.2) (pmmFile run v) := by
            have : pmmFile run v = jobPath .pmm run (Names.jobDir v.1 v.2) ++ ["p_mm.h5".toList] := (jobP _ _ _).symm
            rw [this]; exact own_append _ _ _ _
          have := own_disj ho ho2
          exact absent v hv (this ▸ (hs .pmm).1 n hn)
      rw [e1, hstore, List.lookup_eq_none_iff.mpr]
      · rfl
      · intro q hq
        obtain ⟨u, hu, rfl⟩ := List.mem_map.mp hq
        simp only [bne_iff_ne, ne_eq]
        rintro rfl
        exact hv hu
  have cls2 : ∀ v ∈ (Names.angularJobs c).getD [], d2 (clFile w run v) = some (.cls (sp v.1 v.2)) := by
    intro v hv
    rw [hd2, (spectra_results_partial w venv home hr (hc .cls) (plain .cls) hp1 (hs .cls) cfg21
      (List.mem_map.mpr ⟨v, hv, rfl⟩) (goodA v hv).1 (goodA v hv).2 (none21 v) dens1 (holds _)).1]
    rw [hstore, hok.angular v hv]
    rfl
  -- the derivatives
  have hfree : (dvar, par) ∈ Param.freePars c := by
    unfold Param.freePars
    rw [g4]
    exact List.mem_filter.mpr ⟨PyDict.mem_of_lookup hset.mem, by simpa using hset.free⟩
  have hjob : dvar ∈ jobNames c .der := List.mem_map.mpr ⟨_, hfree, rfl⟩
  have hres := derivative_results_partial w venv home hr (hc .der) (plain .der) hp2 (hs .der) hjob
  have hlook : c.pars.lookup dvar = some par := by rw [g4]; exact hset.mem
  have hfin : ClDer.Finished (w.th (cfgs .cls).2 dens) store c base.length sp (clsOf w d2 run) := by
    refine ⟨?_, ?_, ?_⟩
    · rw [hstore]; exact hok.angular (central, 0) (by rw [hA]; exact List.mem_cons_self)
    · intro q hq hf hmeth s hs'
      rw [hstore]
      refine hok.angular (q.1, s) ?_
      rw [hA]
      refine List.mem_cons_of_mem _ ((Names.mem_variations _ _ _ _).mpr ⟨hs', q.2, ?_, hmeth⟩)
      exact List.mem_filter.mpr ⟨hq, by simpa using hf⟩
    · refine ⟨(Names.angularJobs c).getD [], ?_, ?_⟩
      · unfold Names.angularJobs; rw [g2]; rfl
      · have : (clsOf w d2 run).Perm ((jobNames c .cls).filterMap fun n =>
            match d2 (run ++ [Prog.cls.dir, n, clName w.probes]) with
            | some (.cls c) => some (n, c)
            | _ => none) := hdirs.filterMap _
        refine this.trans (List.Perm.of_eq ?_)
        unfold jobNames
        rw [List.filterMap_map, ← List.filterMap_eq_map]
        apply List.filterMap_congr
        intro v hv
        have := cls2 v hv
        have e : clFile w run v = run ++ [Prog.cls.dir, Names.jobDir v.1 v.2, clName w.probes] := rfl
        rw [e] at this
        simp only [Function.comp, this]
  have hev : ∀ key ∈ w.combos, ClDer.evaluate w.ana (storeOf d2 run [(central, 0)]) (clsOf w d2 run) c par key =
      .ok (slopes base par sp dvar (m key) key) := by
    intro key hkey
    obtain ⟨hpos, hent⟩ := hm1 key hkey
    have hst : ClDer.evaluate w.ana (storeOf d2 run [(central, 0)]) (clsOf w d2 run) c par key =
        ClDer.evaluate w.ana store (clsOf w d2 run) c par key := by
      unfold ClDer.evaluate
      rw [if_pos hm, if_pos hm]
    rw [hst, ← hcc]
    rw [← hcc] at hfin
    unfold slopes
    by_cases hrel : ClDer.Relevant par key
    · obtain ⟨fid, hfid, he⟩ := ClDer.file_derivative_partial (w.th (cfgs .cls).2 dens) w.ana store hset h0 h9 hm hfin hrel hpos hent
      rw [he, hfid]
      simp only [hrel, if_true, Option.map_some, Option.getD_some]
    · obtain ⟨fid, hfid, he⟩ := ClDer.file_derivative_unrelated_partial (w.th (cfgs .cls).2 dens) w.ana store hset h0 h9 hm hfin hrel hent
      rw [he, hfid]
      simp only [hrel, if_false, Option.map_some, Option.getD_some]
      congr 2
      simp [List.map_const']
  have hfd : ClDer.fileDerivative w.ana (storeOf d2 run [(central, 0)]) (clsOf w d2 run) c w.combos dvar =
      .ok (w.combos.map fun key => (key, slopes base par sp dvar (m key) key)) := by
    unfold ClDer.fileDerivative
    rw [hlook]
    exact evaluateKeys_ok w.ana _ _ c par (fun key => slopes base par sp dvar (m key) key) w.combos hev
  rw [hfd] at hres
  unfold forecast
  rw [← hd0, ← hd1, ← hd2]
  exact hres

/-! ### A run with one parameter -/

def exRun : Pth := [[], "runs".toList, "run_1".toList]

def exColl : Coll ℚ := Param.loadStem ClDer.hColl ClDer.hBase

def exDisk : Disk ℚ Unit Nat := fun q =>
  if q = exRun ++ ["input_files_dict.json".toList] then
    some (.inputs [("params".toList, ["input_files_dir".toList, "params.json".toList])])
  else if q = exRun ++ ["input_files_dir".toList, "params.json".toList] then some (.params exColl)
  else if q = exRun ++ ["norm_densities.hdf5".toList] then some (.other "densities".toList)
  else none

def exWorld : World ℚ Unit Nat where
  boltz := fun _ _ => some ⟨[], ()⟩
  th := fun _ _ => ClDer.hTheory
  ana := fun _ _ _ _ => .error .notImplemented
  probes := ["a".toList]
  combos := [ClDer.hKey]
  dirs := (jobNames exColl .cls).reverse

def exCfg : Cfg Nat := fun p => ("config.json".toList, match p with | .pmm => 1 | .cls => 2 | .der => 3)

theorem exRun_plain : AbsPlain exRun :=
  ⟨["runs".toList, "run_1".toList], by simp, rfl, by
    intro c hc
    rcases List.mem_cons.mp hc with rfl | hc
    · exact ⟨by decide, by decide, by decide, by decide +kernel⟩
    · rw [List.mem_singleton.mp hc]; exact ⟨by decide, by decide, by decide, by decide +kernel⟩⟩

theorem exCfg_plain (p : Prog) : PlainName (exCfg p).1 := by
  show PlainName "config.json".toList
  exact ⟨⟨by decide, by decide, by decide, by decide +kernel⟩, by decide +kernel⟩

theorem exParams : HasParams exDisk exRun exColl := by
  refine ⟨[("params".toList, ["input_files_dir".toList, "params.json".toList])], ?_, by decide +kernel, ?_⟩
  · unfold exDisk; rw [if_pos rfl]
  · unfold exDisk
    rw [if_neg (by decide +kernel), if_pos rfl]

def exPw (v : Str × Int) : Cosmo ℚ Unit := (powerOf exWorld 1 exColl v).getD ⟨[], ()⟩

def exStore : Store ℚ Unit := ((Names.powerJobs exColl).getD []).map fun v => (v, exPw v)

def exSp (x : Str) (s : Int) : Cls ℚ := (got (ClDer.clJob ClDer.hTheory exStore exColl (Names.jobDir x s))).getD []

theorem exComputes : Computes exWorld exCfg (.other "densities".toList) exColl exPw exSp := by
  constructor
  · have hall : ((Names.powerJobs exColl).getD []).all (fun v => (powerOf exWorld 1 exColl v).isSome) = true := by
      decide +kernel
    intro v hv
    have := List.all_eq_true.mp hall v hv
    obtain ⟨x, hx⟩ := Option.isSome_iff_exists.mp this
    unfold exPw
    rw [show (exCfg .pmm).2 = 1 from rfl, hx]
    rfl
  · have hall : ((Names.angularJobs exColl).getD []).all (fun v =>
        (got (ClDer.clJob ClDer.hTheory exStore exColl (Names.jobDir v.1 v.2))).isSome) = true := by
      decide +kernel
    intro v hv
    have h := List.all_eq_true.mp hall v hv
    show ClDer.clJob ClDer.hTheory exStore exColl (Names.jobDir v.1 v.2) = _
    unfold exSp
    cases hx : ClDer.clJob ClDer.hTheory exStore exColl (Names.jobDir v.1 v.2) with
    | error e => rw [hx] at h; cases h
    | ok cls => rfl

def exHasOne (s : Int) : Bool :=
  match (ClDer.spectraAt exSp "h".toList s).lookup ClDer.hKey with
  | some t => decide (t.vals.length = 1)
  | none => false

theorem exEntries : ClDer.Entries exSp "h".toList ClDer.hBase.length ClDer.hKey 1 := by
  have hall : (ClDer.allSteps 7).all exHasOne = true := by decide +kernel
  intro s hs
  have := List.all_eq_true.mp hall s hs
  unfold exHasOne at this
  cases hx : (ClDer.spectraAt exSp "h".toList s).lookup ClDer.hKey with
  | none => rw [hx] at this; cases this
  | some t => rw [hx] at this; exact ⟨t, rfl, of_decide_eq_true this⟩

theorem exOld (q : Pth) (h : exRun ++ [Prog.pmm.dir] <+: q ∨ exRun ++ [Prog.cls.dir] <+: q) : exDisk q = none := by
  have hn : ∀ p : Prog, ∀ x l, x ≠ p.dir → ¬ (exRun ++ [p.dir] <+: exRun ++ x :: l) := fun p x l hx =>
    shared_of_first hx
  unfold exDisk
  rcases h with h | h
  · rw [if_neg, if_neg, if_neg]
    · rintro rfl; exact hn .pmm _ _ (input_not_dir .pmm).2.2 h
    · rintro rfl; exact hn .pmm _ _ (input_not_dir .pmm).2.1 h
    · rintro rfl; exact hn .pmm _ _ (input_not_dir .pmm).1 h
  · rw [if_neg, if_neg, if_neg]
    · rintro rfl; exact hn .cls _ _ (input_not_dir .cls).2.2 h
    · rintro rfl; exact hn .cls _ _ (input_not_dir .cls).2.1 h
    · rintro rfl; exact hn .cls _ _ (input_not_dir .cls).1 h

/-- All jobs of this run mixed with each other in rounds: the derivative of the square of `h` is twice its value. -/
example : forecast exWorld none [[], "home".toList] exRun exCfg (jobNames exColl)
    (fun p => jobNames exColl p ++ (jobNames exColl p).reverse ++ jobNames exColl p) exDisk
    (derFile exWorld exRun "h".toList) =
      some (.ders [(ClDer.hKey, slopes ClDer.hBase ClDer.hPar exSp "h".toList 1 ClDer.hKey)]) := by
  refine pipeline_partial exWorld none _ exRun_plain exCfg exCfg_plain (by decide +kernel) (by decide +kernel)
    ClDer.hSetting (by decide) (by decide) rfl exParams (dens := .other "densities".toList) ?_ exOld exComputes
    (List.reverse_perm _) (m := fun _ => 1) ?_ ?_
  · unfold exDisk
    rw [if_neg (by decide +kernel), if_neg (by decide +kernel), if_pos rfl]
  · intro key hk
    have : key ∈ [ClDer.hKey] := hk
    rw [List.mem_singleton.mp this]
    exact ⟨by decide, exEntries⟩
  · intro p
    show Complete (jobNames exColl p) _
    refine ⟨fun n hn => ?_, fun n hn => ?_⟩
    · simpa using hn
    · rw [List.count_append, List.count_append, List.count_reverse]
      have := List.count_pos_iff.mpr hn
      omega

example : slopes ClDer.hBase ClDer.hPar exSp "h".toList 1 ClDer.hKey = ([1], [2 * (67 / 100)]) := by decide +kernel

/-- Two jobs whose steps are mixed, and one which was stopped. -/
example : runTask exWorld none [] .cls exRun "config.json".toList
      ((["dvar_h_step_p_1".toList, "dvar_central_step_0".toList, "dvar_h_step_p_1".toList]))
      (prepare exRun exCfg (jobNames exColl) exDisk) (exRun ++ ["Angular".toList, "dvar_h_step_p_1".toList] ++ ["params.json".toList]) =
    runTask exWorld none [] .cls exRun "config.json".toList
      (List.replicate 2 "dvar_h_step_p_1".toList)
      (prepare exRun exCfg (jobNames exColl) exDisk) (exRun ++ ["Angular".toList, "dvar_h_step_p_1".toList] ++ ["params.json".toList]) := by
  have hp : HasParams (prepare exRun exCfg (jobNames exColl) exDisk) exRun exColl := by
    obtain ⟨l, a1, a2, a3⟩ := exParams
    have keep : ∀ x l, (∀ p : Prog, x ≠ p.dir) → prepare exRun exCfg (jobNames exColl) exDisk (exRun ++ x :: l) =
        exDisk (exRun ++ x :: l) := by
      intro x l hx
      unfold prepare
      rw [fill_other _ _ _ _ _ (shared_not_fill (shared_of_first (hx .der)) _),
        fill_other _ _ _ _ _ (shared_not_fill (shared_of_first (hx .cls)) _),
        fill_other _ _ _ _ _ (shared_not_fill (shared_of_first (hx .pmm)) _)]
    exact ⟨l, by rw [keep _ _ fun p => (input_not_dir p).1]; exact a1, a2,
      by rw [keep _ _ fun p => (input_not_dir p).2.1]; exact a3⟩
  exact (at_any_time_partial exWorld none [] .cls exRun_plain (exCfg_plain .cls)
    (jobs := ["dvar_h_step_p_1".toList, "dvar_central_step_0".toList])
    (by
      intro n hn
      rcases List.mem_cons.mp hn with rfl | hn
      · exact ⟨by decide, by decide, by decide +kernel, by decide +kernel⟩
      · rw [List.mem_singleton.mp hn]; exact ⟨by decide, by decide, by decide +kernel, by decide +kernel⟩)
    hp (by decide +kernel)).1 _ (by simp) _

/-- Of a step beyond nine only the first digit is read. -/
example : Names.parseJobDir (Names.jobDir "h".toList 12) = some ("h".toList, 1) := by decide +kernel

end Seyfert.Job
