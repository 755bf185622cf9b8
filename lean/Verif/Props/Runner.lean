import Verif.Model.Runner
import Verif.Props.Names
import Verif.Props.Parameter
import Verif.Props.ParameterSteps
import Verif.Props.Workspace

/-!
Running a forecast: order of the computations (C80), jobs run one after the other (C81), removal of the
spectra of the variations (C82), run directories and the record of a run (C83), options of
`job_submitter` (C84), the configuration jobs get (C85), spectra of the variations in one process (C86).
-/

set_option linter.unusedSectionVars false

namespace Seyfert.Runner

/-! ### Order of the computations -/

/-- All computations of a forecast in the order of their dependencies. -/
def order (fromConfig : Bool) : List Comp :=
  [.densities fromConfig, .task .powerSpectrum, .task .angular, .deltaCls, .task .derivative,
    .task .fisher, .results]

/-- Which of them a request asks for.  With `--execution no` nothing should be computed; the densities are
an exception in the code, when angular spectra are requested without power spectra. -/
def Wanted (r : Req) (m : Mode) : Comp → Bool
  | .densities _ => r.angular && (decide (m ≠ .no) || !r.powerSpectrum)
  | .task .powerSpectrum => decide (m ≠ .no) && r.powerSpectrum
  | .task .angular => decide (m ≠ .no) && r.angular
  | .task .derivative => decide (m ≠ .no) && r.derivative
  | .task .fisher => decide (m ≠ .no) && r.fisher
  | .deltaCls => decide (m ≠ .no) && r.angular
  | .results => decide (m ≠ .no) && r.fisher

/-- What a computation reads the results of. -/
def needs : Comp → List Comp
  | .densities _ => []
  | .task .powerSpectrum => []
  | .task .angular => [.densities true, .densities false, .task .powerSpectrum]
  | .deltaCls => [.task .angular]
  | .task .derivative => [.task .angular]
  | .task .fisher => [.task .derivative, .deltaCls, .task .angular]
  | .results => [.task .fisher]

/-- The computations asked for, in order. -/
def plan (r : Req) (m : Mode) : List Comp := (order r.powerSpectrum).filter (Wanted r m)

def chain (env : Env) (l : List Comp) (s : State) : State := l.foldl (fun s c => act env c s) s

theorem run_chain (r : Req) (m : Mode) (env : Env) : run r m env = chain env (plan r m) ([], true) := by
  rcases r with ⟨_ | _, _ | _, _ | _, _ | _⟩ <;> cases m <;> rfl

theorem chain_failed (env : Env) (l : List Comp) (tr : List Comp) :
    chain env l (tr, false) = (tr, false) := by
  induction l with
  | nil => rfl
  | cons c l ih => exact ih

/-- Every computation in a list ended well. -/
def AllGood (env : Env) (tr : List Comp) : Prop :=
  ∀ pre c post, tr = pre ++ c :: post → env pre c = false

theorem allGood_snoc {env : Env} {tr : List Comp} {c : Comp} (h : AllGood env tr)
    (hc : env tr c = false) : AllGood env (tr ++ [c]) := by
  intro pre c' post e
  rcases List.eq_nil_or_concat post with rfl | ⟨post', x, rfl⟩
  · have := List.append_inj' e (by simp)
    obtain ⟨rfl, h2⟩ := this
    cases h2; exact hc
  · rw [List.concat_eq_append] at e
    have e' : tr ++ [c] = (pre ++ c' :: post') ++ [x] := by rw [e]; simp
    exact h pre c' post' (List.append_inj' e' rfl).1

theorem chain_spec (env : Env) (l : List Comp) :
    ∀ tr, AllGood env tr →
      ((chain env l (tr, true)).2 = true → (chain env l (tr, true)).1 = tr ++ l ∧
        AllGood env (tr ++ l)) ∧
      ((chain env l (tr, true)).2 = false → ∃ done c rest, l = done ++ c :: rest ∧
        (chain env l (tr, true)).1 = tr ++ done ++ [c] ∧ AllGood env (tr ++ done) ∧
        env (tr ++ done) c = true) := by
  induction l with
  | nil =>
    intro tr h
    exact ⟨fun _ => ⟨(List.append_nil tr).symm, by rw [List.append_nil]; exact h⟩, fun h => by cases h⟩
  | cons c l ih =>
    intro tr h
    have e : chain env (c :: l) (tr, true) = chain env l (tr ++ [c], !env tr c) := rfl
    rw [e]
    cases hc : env tr c with
    | true =>
      rw [Bool.not_true, chain_failed]
      refine ⟨fun h => (by cases h), fun _ => ⟨[], c, l, rfl, ?_, ?_, ?_⟩⟩
      · simp
      · simpa using h
      · simpa using hc
    | false =>
      rw [Bool.not_false]
      obtain ⟨h1, h2⟩ := ih _ (allGood_snoc h hc)
      refine ⟨fun hh => ?_, fun hh => ?_⟩
      · obtain ⟨a, b⟩ := h1 hh
        exact ⟨by rw [a]; simp, by simpa using b⟩
      · obtain ⟨done, x, rest, a, b, d, f⟩ := h2 hh
        exact ⟨c :: done, x, rest, by rw [a]; rfl, by rw [b]; simp, by simpa using d, by simpa using f⟩

/-- What a forecast does, exactly: the computations asked for, in order, each once; if one of them raises
nothing more is started. -/
theorem run_exact (r : Req) (m : Mode) (env : Env) :
    ((run r m env).2 = true → (run r m env).1 = plan r m ∧ AllGood env (plan r m)) ∧
    ((run r m env).2 = false → ∃ done c rest, plan r m = done ++ c :: rest ∧
      (run r m env).1 = done ++ [c] ∧ AllGood env done ∧ env done c = true) := by
  rw [run_chain]
  have := chain_spec env (plan r m) [] (fun pre c post e => by simp at e)
  simpa using this

/-- The place of a computation. -/
def rank : Comp → Nat
  | .densities _ => 0
  | .task .powerSpectrum => 1
  | .task .angular => 2
  | .deltaCls => 3
  | .task .derivative => 4
  | .task .fisher => 5
  | .results => 6

theorem plan_sorted (r : Req) (m : Mode) : (plan r m).Pairwise (fun a b => rank a < rank b) := by
  apply List.Pairwise.filter
  cases r.powerSpectrum <;> decide

theorem mem_plan (r : Req) (m : Mode) (c : Comp) :
    c ∈ plan r m ↔ c ∈ order r.powerSpectrum ∧ Wanted r m c = true := List.mem_filter

theorem trace_prefix (r : Req) (m : Mode) (env : Env) : (run r m env).1 <+: plan r m := by
  obtain ⟨h1, h2⟩ := run_exact r m env
  cases h : (run r m env).2 with
  | true => exact ⟨[], by rw [(h1 h).1, List.append_nil]⟩
  | false =>
    obtain ⟨done, c, rest, a, b, _, _⟩ := h2 h
    rw [a, b]
    exact ⟨rest, by simp⟩

/-- However a forecast goes, every computation is started at most once. -/
theorem run_once (r : Req) (m : Mode) (env : Env) : (run r m env).1.Nodup := by
  have : (plan r m).Nodup := (plan_sorted r m).imp (fun h e => by rw [e] at h; omega)
  exact this.sublist (trace_prefix r m env).sublist

theorem needs_before (c d : Comp) (h : d ∈ needs c) : rank d < rank c := by
  rcases c with b | t | _ | _
  · cases h
  · cases t <;> simp [needs] at h
    · rcases h with rfl | rfl | rfl <;> decide
    · subst h; decide
    · rcases h with rfl | rfl | rfl <;> decide
  · simp [needs] at h; subst h; decide
  · simp [needs] at h; subst h; decide

/-- Nothing is computed before what it needs: when a computation is started, everything it needs that the
forecast was asked for has been computed, without an exception. -/
theorem run_dependencies (r : Req) (m : Mode) (env : Env) (pre post : List Comp) (c d : Comp)
    (h : (run r m env).1 = pre ++ c :: post) (hd : d ∈ needs c) (hw : d ∈ plan r m) :
    ∃ a b, pre = a ++ d :: b ∧ env a d = false := by
  have hpre : pre ++ c :: post <+: plan r m := h ▸ trace_prefix r m env
  obtain ⟨tail, ht⟩ := hpre
  have hs := plan_sorted r m
  have hr := needs_before c d hd
  have hmem : d ∈ pre := by
    rw [← ht] at hw hs
    rw [List.append_assoc, List.mem_append] at hw
    rcases hw with hw | hw
    · exact hw
    · rw [List.append_assoc, List.pairwise_append] at hs
      have hs2 := hs.2.1
      rw [List.cons_append] at hw hs2
      rcases List.mem_cons.mp hw with rfl | hw
      · omega
      · have := (List.pairwise_cons.mp hs2).1 d hw
        omega
  obtain ⟨a, b, hab⟩ := List.append_of_mem hmem
  refine ⟨a, b, hab, ?_⟩
  obtain ⟨h1, h2⟩ := run_exact r m env
  cases hb : (run r m env).2 with
  | true =>
    obtain ⟨e1, e2⟩ := h1 hb
    refine e2 a d (b ++ c :: post) ?_
    rw [← e1, h, hab]; simp
  | false =>
    obtain ⟨done, x, rest, e1, e2, e3, _⟩ := h2 hb
    rw [h] at e2
    rcases List.eq_nil_or_concat post with rfl | ⟨post', y, rfl⟩
    · have := (List.append_inj' e2 rfl).1
      exact e3 a d b (by rw [← this, hab])
    · rw [List.concat_eq_append] at e2
      have e2' : (pre ++ c :: post') ++ [y] = done ++ [x] := by rw [← e2]; simp
      have := (List.append_inj' e2' rfl).1
      refine e3 a d (b ++ c :: post') ?_
      rw [← this, hab]; simp

/-- The final results are evaluated only when everything that was asked for is there. -/
theorem results_last (r : Req) (m : Mode) (env : Env) (h : Comp.results ∈ (run r m env).1) :
    ∃ pre, (run r m env).1 = pre ++ [.results] ∧ AllGood env pre ∧
      ∀ c ∈ plan r m, c ≠ .results → c ∈ pre := by
  obtain ⟨pre, post, hp⟩ := List.append_of_mem h
  have hpre : pre ++ Comp.results :: post <+: plan r m := hp ▸ trace_prefix r m env
  obtain ⟨tail, ht⟩ := hpre
  have hs := plan_sorted r m
  have hmax : ∀ c, rank c ≤ 6 := by
    intro c
    rcases c with b | t | _ | _
    · show 0 ≤ 6; omega
    · cases t <;> decide
    · decide
    · decide
  have hpost : post ++ tail = [] := by
    rw [← ht, List.append_assoc, List.pairwise_append] at hs
    have := hs.2.1
    rw [List.cons_append] at this
    have := (List.pairwise_cons.mp this).1
    by_contra hne
    obtain ⟨x, l, hx⟩ := List.exists_cons_of_ne_nil hne
    have h1 := this x (by rw [hx]; exact List.mem_cons_self)
    have h2 := hmax x
    have h3 : rank .results = 6 := rfl
    omega
  obtain ⟨rfl, rfl⟩ := List.append_eq_nil_iff.mp hpost
  refine ⟨pre, hp, ?_, fun c hc hne => ?_⟩
  · obtain ⟨h1, h2⟩ := run_exact r m env
    cases hb : (run r m env).2 with
    | true =>
      obtain ⟨e1, e2⟩ := h1 hb
      intro a d b hab
      refine e2 a d (b ++ [.results]) ?_
      rw [← e1, hp, hab]; simp
    | false =>
      obtain ⟨done, x, rest, _, e2, e3, _⟩ := h2 hb
      rw [hp] at e2
      rw [(List.append_inj' e2 rfl).1]
      exact e3
  · rw [← ht] at hc
    simp only [List.append_nil] at hc
    rcases List.mem_append.mp hc with hc | hc
    · exact hc
    · exact absurd (List.mem_singleton.mp hc) hne

/-- With `--execution no` nothing is computed.  Missing for the full claim: angular spectra requested
without power spectra, see `dry_run_computes`. -/
theorem dry_run_partial (r : Req) (env : Env) (h : r.angular = true → r.powerSpectrum = true) :
    run r .no env = ([], true) := by
  rw [run_chain]
  have : plan r .no = [] := by
    rcases r with ⟨_ | _, _ | _, _ | _, _ | _⟩ <;> first | rfl | (exact absurd (h rfl) (by decide))
  rw [this]; rfl

/-- Angular spectra requested without power spectra: the densities are computed (and stored) even with
`--execution no`. -/
theorem dry_run_computes (r : Req) (env : Env) (h1 : r.angular = true) (h2 : r.powerSpectrum = false) :
    (run r .no env).1 = [.densities false] := by
  rw [run_chain]
  have : plan r .no = [.densities false] := by
    rcases r with ⟨_ | _, _ | _, _ | _, _ | _⟩ <;> first | rfl | exact absurd h1 (by decide) | exact absurd h2 (by decide)
  rw [this]; rfl

/-- The report on the jobs is never written. -/
theorem report_never (r : Req) (m : Mode) : writesReport r m = false := by
  rcases r with ⟨_ | _, _ | _, _ | _, _ | _⟩ <;> cases m <;> rfl

example : run ⟨true, true, true, true⟩ .interactive (fun _ c => decide (c = .task .derivative)) =
    ([.densities true, .task .powerSpectrum, .task .angular, .deltaCls, .task .derivative], false) := by
  decide

example : (run ⟨false, false, true, true⟩ .batch (fun _ _ => false)).1 =
    [.task .derivative, .task .fisher, .results] := by decide

/-! ### Jobs run one after the other -/

variable {J : Type}

/-- What is executed: all jobs up to and including the first that writes to its error stream, whatever
their exit codes are. -/
theorem jobs_exact (ends : J → Ended) (jobs : List J) :
    ((execJobs ends jobs).2 = false ↔ ∀ j ∈ jobs, (ends j).stderr = false) ∧
    ((execJobs ends jobs).2 = false → (execJobs ends jobs).1 = jobs) ∧
    ((execJobs ends jobs).2 = true → ∃ done j rest, jobs = done ++ j :: rest ∧
      (execJobs ends jobs).1 = done ++ [j] ∧ (ends j).stderr = true ∧
      ∀ i ∈ done, (ends i).stderr = false) := by
  induction jobs with
  | nil => exact ⟨by simp [execJobs], fun _ => rfl, fun h => by cases h⟩
  | cons j rest ih =>
    unfold execJobs
    cases h : (ends j).stderr with
    | true =>
      simp only [if_true]
      refine ⟨by simp [h], fun hh => (by cases hh), fun _ => ⟨[], j, rest, rfl, rfl, h, by simp⟩⟩
    | false =>
      simp only [Bool.false_eq_true, if_false]
      obtain ⟨h1, h2, h3⟩ := ih
      refine ⟨by rw [h1]; simp [h], fun hh => by rw [h2 hh], fun hh => ?_⟩
      obtain ⟨done, i, rest', e1, e2, e3, e4⟩ := h3 hh
      refine ⟨j :: done, i, rest', by rw [e1]; rfl, by rw [e2]; rfl, e3, ?_⟩
      intro x hx
      rcases List.mem_cons.mp hx with rfl | hx
      · exact h
      · exact e4 x hx

/-- A task is reported as completed exactly when all its jobs succeeded, for commands that write to the
error stream exactly when they fail.  Missing for the full claim: commands that do not, see
`silent_failure` and `warning_is_failure`. -/
theorem jobs_completed_partial (ends : J → Ended) (jobs : List J)
    (h : ∀ j ∈ jobs, ((ends j).stderr = true ↔ (ends j).code ≠ 0)) :
    (execJobs ends jobs).2 = false ↔ ∀ j ∈ jobs, (ends j).code = 0 := by
  rw [(jobs_exact ends jobs).1]
  refine forall₂_congr fun j hj => ?_
  rw [← Bool.not_eq_true, h j hj, not_not]

/-- Jobs that fail without a word: the task counts as completed, and what follows is computed from the
missing or incomplete output. -/
theorem silent_failure (ends : J → Ended) (jobs : List J) (h : ∀ j ∈ jobs, (ends j).stderr = false) :
    execJobs ends jobs = (jobs, false) := by
  obtain ⟨h1, h2, _⟩ := jobs_exact ends jobs
  have := h1.mpr h
  exact Prod.ext (h2 this) this

/-- A warning on the error stream of a job that succeeds stops the forecast: the jobs after it are not
run. -/
theorem warning_is_failure (ends : J → Ended) (done rest : List J) (j : J)
    (hd : ∀ i ∈ done, (ends i).stderr = false) (hj : (ends j).stderr = true) :
    execJobs ends (done ++ j :: rest) = (done ++ [j], true) := by
  induction done with
  | nil => simp only [List.nil_append, execJobs, hj, if_true]
  | cons x done ih =>
    rw [List.cons_append]
    unfold execJobs
    rw [if_neg (by rw [hd x List.mem_cons_self]; simp),
      ih fun i hi => hd i (List.mem_cons_of_mem _ hi)]
    rfl

example : execJobs (fun j : Nat => ⟨if j = 1 then 3 else 0, decide (j = 2)⟩) [0, 1, 2, 3] =
    ([0, 1, 2], true) := by decide

/-! ### Removing the spectra of the variations -/

/-- A name that is read as the directory of a variation. -/
def IsVariation (x : Str) (k : Str × Int) : Prop :=
  (stripPrefix "dvar_".toList x).isSome ∧ Names.parseJobDir x = some k ∧ k.1 ≠ "central".toList

/-- The last of the listed names read as a given variation. -/
def LastOf (names : List Str) (k : Str × Int) (x : Str) : Prop :=
  ∃ pre post, names = pre ++ x :: post ∧ IsVariation x k ∧ ∀ y ∈ post, ¬ IsVariation y k

theorem lastOf_cons {names : List Str} {k : Str × Int} {x a : Str} (h : LastOf names k x) :
    LastOf (a :: names) k x := by
  obtain ⟨pre, post, rfl, h2, h3⟩ := h
  exact ⟨a :: pre, post, rfl, h2, h3⟩

theorem lastOf_exists {names : List Str} {k : Str × Int} (h : ∃ y ∈ names, IsVariation y k) :
    ∃ x, LastOf names k x := by
  induction names with
  | nil => obtain ⟨y, hy, _⟩ := h; cases hy
  | cons a l ih =>
    by_cases hl : ∃ y ∈ l, IsVariation y k
    · obtain ⟨x, hx⟩ := ih hl
      exact ⟨x, lastOf_cons hx⟩
    · obtain ⟨y, hy, hv⟩ := h
      rcases List.mem_cons.mp hy with rfl | hy
      · exact ⟨y, [], l, rfl, hv, fun z hz hzv => hl ⟨z, hz, hzv⟩⟩
      · exact absurd ⟨y, hy, hv⟩ hl

theorem variationDirs_spec (names : List Str) :
    ∀ d d' : List ((Str × Int) × Str), (d.map (·.1)).Nodup → variationDirs.go d names = some d' →
      (d'.map (·.1)).Nodup ∧
      ∀ k x, d'.lookup k = some x ↔
        LastOf names k x ∨ (d.lookup k = some x ∧ ∀ y ∈ names, ¬ IsVariation y k) := by
  induction names with
  | nil =>
    intro d d' hd h
    unfold variationDirs.go at h
    cases h
    refine ⟨hd, fun k x => ⟨fun h => Or.inr ⟨h, by simp⟩, ?_⟩⟩
    rintro (⟨pre, post, e, _⟩ | ⟨h, _⟩)
    · simp at e
    · exact h
  | cons a rest ih =>
    intro d d' hd h
    unfold variationDirs.go at h
    -- the dictionary after `a`
    have step : ∃ d₁ : List ((Str × Int) × Str), (d₁.map (·.1)).Nodup ∧
        variationDirs.go d₁ rest = some d' ∧
        ∀ k x, d₁.lookup k = some x ↔
          (IsVariation a k ∧ x = a) ∨ (¬ IsVariation a k ∧ d.lookup k = some x) := by
      by_cases hp : (stripPrefix "dvar_".toList a).isSome = true
      · rw [if_pos hp] at h
        cases hq : Names.parseJobDir a with
        | none => rw [hq] at h; cases h
        | some q =>
          obtain ⟨v, s⟩ := q
          rw [hq] at h
          simp only at h
          by_cases hc : v ≠ "central".toList
          · rw [if_pos hc] at h
            refine ⟨_, PyDict.nodup_set _ _ _ hd, h, fun k x => ?_⟩
            rw [PyDict.lookup_set]
            by_cases hk : k = (v, s)
            · have hv : IsVariation a k := by subst hk; exact ⟨hp, hq, hc⟩
              rw [if_pos hk]
              constructor
              · intro hx; exact Or.inl ⟨hv, (Option.some.inj hx).symm⟩
              · rintro (⟨_, rfl⟩ | ⟨hn, _⟩)
                · rfl
                · exact absurd hv hn
            · have hv : ¬ IsVariation a k := by
                rintro ⟨_, h2, _⟩
                rw [hq] at h2
                exact hk (Option.some.inj h2).symm
              rw [if_neg hk]
              simp [hv]
          · rw [if_neg hc] at h
            refine ⟨d, hd, h, fun k x => ?_⟩
            have hv : ¬ IsVariation a k := by
              rintro ⟨_, h2, h3⟩
              rw [hq] at h2
              exact hc (by rw [← Option.some.inj h2] at h3; exact h3)
            simp [hv]
      · rw [if_neg hp] at h
        refine ⟨d, hd, h, fun k x => ?_⟩
        have hv : ¬ IsVariation a k := fun hh => hp hh.1
        simp [hv]
    obtain ⟨d₁, n1, g1, l1⟩ := step
    obtain ⟨n2, l2⟩ := ih d₁ d' n1 g1
    refine ⟨n2, fun k x => ?_⟩
    rw [l2 k x, l1 k x]
    constructor
    · rintro (hl | ⟨⟨hv, rfl⟩ | ⟨hv, hx⟩, hn⟩)
      · exact Or.inl (lastOf_cons hl)
      · exact Or.inl ⟨[], rest, rfl, hv, hn⟩
      · refine Or.inr ⟨hx, fun y hy => ?_⟩
        rcases List.mem_cons.mp hy with rfl | hy
        · exact hv
        · exact hn y hy
    · rintro (⟨pre, post, e, hv, hn⟩ | ⟨hx, hn⟩)
      · cases pre with
        | nil =>
          rw [List.nil_append] at e
          obtain ⟨rfl, rfl⟩ := List.cons.inj e
          exact Or.inr ⟨Or.inl ⟨hv, rfl⟩, hn⟩
        | cons b pre =>
          rw [List.cons_append] at e
          obtain ⟨rfl, rfl⟩ := List.cons.inj e
          exact Or.inl ⟨pre, post, rfl, hv, hn⟩
      · exact Or.inr ⟨Or.inr ⟨hn a List.mem_cons_self, hx⟩,
          fun y hy => hn y (List.mem_cons_of_mem _ hy)⟩

/-- What is removed, exactly: for every variation the last directory listed for it.  The central
spectra, and everything that is not the directory of a variation, stay. -/
theorem cleanup_exact (names left : List Str) (h : cleanUp true false names = some left) :
    ∀ x, x ∈ left ↔ x ∈ names ∧ ¬ ∃ k, LastOf names k x := by
  unfold cleanUp at h
  rw [if_pos ⟨rfl, by simp⟩] at h
  obtain ⟨d, hd, rfl⟩ := Option.map_eq_some_iff.mp h
  obtain ⟨n, l⟩ := variationDirs_spec names [] d (by simp) hd
  intro x
  rw [List.mem_filter]
  refine and_congr_right fun _ => ?_
  rw [Bool.not_eq_true', ← Bool.not_eq_true, List.contains_iff_mem]
  refine not_congr ?_
  rw [List.mem_map]
  constructor
  · rintro ⟨p, hp, rfl⟩
    refine ⟨p.1, ?_⟩
    rcases (l p.1 p.2).mp (PyDict.lookup_of_mem d n hp) with h | ⟨h, _⟩
    · exact h
    · cases h
  · rintro ⟨k, hk⟩
    exact ⟨(k, x), PyDict.mem_of_lookup ((l k x).mpr (Or.inl hk)), rfl⟩

theorem stripPrefix_jobDir (v : Str) (s : Int) :
    (stripPrefix "dvar_".toList (Names.jobDir v s)).isSome = true := by
  have e : ∃ t, Names.jobDir v s = "dvar_".toList ++ t := by
    unfold Names.jobDir; exact ⟨_, by simp only [List.append_assoc]; rfl⟩
  obtain ⟨t, ht⟩ := e
  rw [ht, stripPrefix_append]; rfl

theorem variationDirs_some (names : List Str)
    (h : ∀ x ∈ names, (stripPrefix "dvar_".toList x).isSome = true → (Names.parseJobDir x).isSome = true) :
    ∀ d, ∃ d', variationDirs.go d names = some d' := by
  induction names with
  | nil => exact fun d => ⟨d, rfl⟩
  | cons a rest ih =>
    intro d
    have ih' := ih fun x hx => h x (List.mem_cons_of_mem _ hx)
    unfold variationDirs.go
    by_cases hp : (stripPrefix "dvar_".toList a).isSome = true
    · rw [if_pos hp]
      obtain ⟨q, hq⟩ := Option.isSome_iff_exists.mp (h a List.mem_cons_self hp)
      rw [hq]
      exact ih' _
    · rw [if_neg hp]
      exact ih' d

/-- A directory whose name begins like a job directory but cannot be read: an exception, and nothing is
removed. -/
theorem cleanup_refused (names : List Str)
    (h : ∃ x ∈ names, (stripPrefix "dvar_".toList x).isSome = true ∧ Names.parseJobDir x = none) :
    cleanUp true false names = none := by
  unfold cleanUp
  rw [if_pos ⟨rfl, by simp⟩, Option.map_eq_none_iff]
  show variationDirs.go [] names = none
  have : ∀ d, variationDirs.go d names = none := by
    induction names with
    | nil => obtain ⟨x, hx, _⟩ := h; cases hx
    | cons a rest ih =>
      intro d
      obtain ⟨x, hx, h1, h2⟩ := h
      unfold variationDirs.go
      rcases List.mem_cons.mp hx with rfl | hx
      · rw [if_pos h1, h2]
      · have ih' := ih ⟨x, hx, h1, h2⟩
        by_cases hp : (stripPrefix "dvar_".toList a).isSome = true
        · rw [if_pos hp]
          cases Names.parseJobDir a with
          | none => rfl
          | some q => exact ih' _
        · rw [if_neg hp]
          exact ih' d
  exact this []

/-- When the variations are to be kept, or no angular spectra were requested, nothing is removed. -/
theorem cleanup_keeps (angular keep : Bool) (names : List Str) (h : angular = false ∨ keep = true) :
    cleanUp angular keep names = some names := by
  unfold cleanUp
  rw [if_neg]
  rintro ⟨h1, h2⟩
  rcases h with h | h
  · rw [h] at h1; cases h1
  · exact h2 h

/-- After the removal no spectra of variations are left, and everything else is.  Missing for the full
claim: steps from ten on, see `cleanup_leaves`. -/
theorem cleanup_partial (names : List Str)
    (hn : ∀ x ∈ names, (stripPrefix "dvar_".toList x).isSome = true →
      ∃ (v : Str) (s : Int), Names.GoodName v ∧ s.natAbs < 10 ∧ x = Names.jobDir v s) :
    ∃ left, cleanUp true false names = some left ∧
      ∀ x, x ∈ left ↔ x ∈ names ∧ ∀ (v : Str) (s : Int), v ≠ "central".toList → x ≠ Names.jobDir v s := by
  have hparse : ∀ x ∈ names, (stripPrefix "dvar_".toList x).isSome = true →
      (Names.parseJobDir x).isSome = true := by
    intro x hx hp
    obtain ⟨v, s, hv, hs, rfl⟩ := hn x hx hp
    rw [Names.jobDir_roundtrip_partial v hv s hs]; rfl
  obtain ⟨d, hd⟩ := variationDirs_some names hparse []
  have hc : ∃ left, cleanUp true false names = some left := by
    unfold cleanUp
    rw [if_pos ⟨rfl, by simp⟩]
    exact ⟨_, congrArg (Option.map _) hd⟩
  obtain ⟨left, hleft⟩ := hc
  refine ⟨left, hleft, fun x => ?_⟩
  rw [cleanup_exact names left hleft x]
  refine and_congr_right fun hx => ?_
  constructor
  · rintro h v s hv rfl
    apply h
    obtain ⟨v', s', hg, hs', e⟩ := hn _ hx (stripPrefix_jobDir v s)
    obtain ⟨rfl, rfl⟩ := Names.jobDir_injective e
    have hvar : IsVariation (Names.jobDir v s) (v, s) :=
      ⟨stripPrefix_jobDir v s, Names.jobDir_roundtrip_partial v hg s hs', hv⟩
    obtain ⟨y, hy⟩ := lastOf_exists ⟨_, hx, hvar⟩
    have hyv : IsVariation y (v, s) := by obtain ⟨_, _, _, h, _⟩ := hy; exact h
    have hym : y ∈ names := by obtain ⟨_, _, e, _⟩ := hy; rw [e]; simp
    obtain ⟨w, t, hw, ht, rfl⟩ := hn y hym hyv.1
    have := hyv.2.1
    rw [Names.jobDir_roundtrip_partial w hw t ht] at this
    obtain ⟨rfl, rfl⟩ := Prod.mk.inj (Option.some.inj this)
    exact ⟨_, hy⟩
  · rintro h ⟨k, hk⟩
    have hkv : IsVariation x k := by obtain ⟨_, _, _, h, _⟩ := hk; exact h
    obtain ⟨v, s, hg, hs, rfl⟩ := hn x hx hkv.1
    have := hkv.2.1
    rw [Names.jobDir_roundtrip_partial v hg s hs] at this
    have := Option.some.inj this
    exact h v s (by rw [← this] at hkv; exact hkv.2.2) rfl

/-- With ten or more steps some of the spectra are left: step 10 is taken for step 1. -/
theorem cleanup_leaves (v : Str) (hv : Names.GoodName v) (hc : v ≠ "central".toList) :
    ∃ left, cleanUp true false [Names.jobDir v 1, Names.jobDir v 10] = some left ∧
      Names.jobDir v 1 ∈ left := by
  have p1 : Names.parseJobDir (Names.jobDir v 1) = some (v, 1) :=
    Names.jobDir_roundtrip_partial v hv 1 (by decide)
  have p10 : Names.parseJobDir (Names.jobDir v 10) = some (v, 1) := by
    rw [Names.parse_jobDir v hv 10]
    have : (10 : Int).sign * (Names.firstDigit (10 : Int).natAbs : Int) = 1 := by decide +kernel
    rw [this]
  have hne : Names.jobDir v 1 ≠ Names.jobDir v 10 := by
    intro e
    have := (Names.jobDir_injective e).2
    omega
  obtain ⟨d, hd⟩ := variationDirs_some [Names.jobDir v 1, Names.jobDir v 10] (by
    intro x hx _
    rcases List.mem_cons.mp hx with rfl | hx
    · rw [p1]; rfl
    · rw [List.mem_singleton.mp hx, p10]; rfl) []
  have hcl : ∃ left, cleanUp true false [Names.jobDir v 1, Names.jobDir v 10] = some left := by
    unfold cleanUp
    rw [if_pos ⟨rfl, by simp⟩]
    exact ⟨_, congrArg (Option.map _) hd⟩
  obtain ⟨left, hleft⟩ := hcl
  refine ⟨left, hleft, (cleanup_exact _ left hleft _).mpr ⟨by simp, ?_⟩⟩
  rintro ⟨k, pre, post, e, ⟨_, h2, _⟩, hpost⟩
  rw [p1] at h2
  have hk : k = (v, 1) := (Option.some.inj h2).symm
  subst hk
  cases pre with
  | nil =>
    rw [List.nil_append] at e
    have hp : post = [Names.jobDir v 10] := (List.cons.inj e).2.symm
    exact hpost (Names.jobDir v 10) (by rw [hp]; simp) ⟨stripPrefix_jobDir v 10, p10, hc⟩
  | cons a pre =>
    rw [List.cons_append] at e
    have e2 := (List.cons.inj e).2
    cases pre with
    | nil => exact hne (List.cons.inj e2).1.symm
    | cons b pre => simp at e2

example : cleanUp true false ["dvar_central_step_0".toList, "dvar_h_step_m_1".toList, "log".toList,
    "dvar_h_step_p_1".toList] = some ["dvar_central_step_0".toList, "log".toList] := by decide +kernel

/-! ### Run directories, record of a run -/

variable {V : Type}

/-- A new run directory is empty and nothing else is touched; outside test mode a directory that is
already there is never reused or emptied: the run is refused. -/
theorem rundir_new (test : Bool) (ident version : Str) (now : Names.DateTime) (empty : V)
    (fs fs' : Str → Option V) (n : Str)
    (h : createRundir test ident version now empty fs = some (fs', n)) :
    fs' n = some empty ∧ (∀ x, x ≠ n → fs' x = fs x) ∧ (test = false → fs n = none) ∧
      n = if test then ident ++ '_' :: version else Names.runDirName ident version now := by
  unfold createRundir at h
  cases test with
  | true =>
    simp only [if_true, Option.some.injEq, Prod.mk.injEq] at h
    obtain ⟨rfl, rfl⟩ := h
    exact ⟨by simp, fun x hx => by simp [hx], fun h => (by cases h), rfl⟩
  | false =>
    simp only [Bool.false_eq_true, if_false] at h
    split at h
    · cases h
    · rename_i hn
      simp only [Option.some.injEq, Prod.mk.injEq] at h
      obtain ⟨rfl, rfl⟩ := h
      refine ⟨by simp, fun x hx => by simp [hx], fun _ => ?_, rfl⟩
      rw [Option.not_isSome_iff_eq_none] at hn
      exact hn

/-- When it is refused: outside test mode, exactly when the directory is there already. -/
theorem rundir_refused (test : Bool) (ident version : Str) (now : Names.DateTime) (empty : V)
    (fs : Str → Option V) :
    createRundir test ident version now empty fs = none ↔
      test = false ∧ (fs (Names.runDirName ident version now)).isSome = true := by
  unfold createRundir
  cases test with
  | true => simp
  | false =>
    simp only [Bool.false_eq_true, if_false]
    by_cases h : (fs (Names.runDirName ident version now)).isSome = true <;> simp [h]

/-- In test mode the results of the previous run with the same identifier are gone. -/
theorem rundir_test_destroys (ident version : Str) (now : Names.DateTime) (empty old : V)
    (fs : Str → Option V) (hne : old ≠ empty) (h : fs (ident ++ '_' :: version) = some old) :
    ∃ fs' n, createRundir true ident version now empty fs = some (fs', n) ∧ fs n = some old ∧
      fs' n ≠ fs n := by
  obtain ⟨fs', n, h'⟩ : ∃ fs' n, createRundir true ident version now empty fs = some (fs', n) :=
    ⟨_, _, rfl⟩
  have := rundir_new true ident version now empty fs fs' n h'
  have hn : n = ident ++ '_' :: version := this.2.2.2
  refine ⟨fs', n, h', by rw [hn]; exact h, ?_⟩
  rw [this.1, hn, h]
  exact fun e => hne (Option.some.inj e).symm

/-- The duration in the record of a run adds up to the whole seconds between start and end.  Missing for
the full claim: runs of a day or more, see `duration_wraps`. -/
theorem duration_partial (round3 : ℚ → ℚ) (start stop : Int) (h0 : start ≤ stop)
    (h1 : stop - start < 86400000000) :
    let t := duration round3 start stop
    t.1 * 3600 + t.2.1 * 60 + t.2.2.1 = (stop - start) / 1000000 ∧
      0 ≤ t.2.1 ∧ t.2.1 < 60 ∧ 0 ≤ t.2.2.1 ∧ t.2.2.1 < 60 ∧ t.2.2.2 = round3 0 := by
  intro t
  have ht : t = Names.timeFormat round3 (((stop - start) / 1000000 : Int) : ℚ) := by
    show duration _ _ _ = _
    unfold duration
    rw [Int.emod_eq_of_lt (by omega) h1]
  rw [ht]
  unfold Names.timeFormat
  simp only [Int.floor_intCast, sub_self, mul_zero, and_true]
  generalize (stop - start) / 1000000 = n
  refine ⟨?_, ?_, ?_, ?_, ?_⟩ <;> omega

/-- A run that takes exactly one day longer gets the same duration. -/
theorem duration_wraps (round3 : ℚ → ℚ) (start stop : Int) :
    duration round3 start (stop + 86400000000) = duration round3 start stop := by
  unfold duration
  have : stop + 86400000000 - start = stop - start + 86400000000 := by ring
  rw [this, Int.add_emod_right]

example : (duration id 0 90061000000).1 = 1 ∧ (duration id 0 3661000000).1 = 1 := by
  constructor <;> (unfold duration Names.timeFormat; simp only [Int.floor_intCast]; decide)

/-- Forecasts of a list run in different directories when their configurations have different names or
they start at different seconds, and the name of a directory tells which forecast it is. -/
theorem forecast_dirs_partial (workdir : Work.Path) (version stem₁ stem₂ : Str)
    (hv : Names.Version version) (t₁ t₂ : Names.DateTime) (h₁ : t₁.valid = true) (h₂ : t₂.valid = true)
    (h : forecastDir workdir false version stem₁ t₁ = forecastDir workdir false version stem₂ t₂) :
    stem₁ = stem₂ ∧ t₁ = t₂ := by
  unfold forecastDir at h
  simp only [Bool.false_eq_true, if_false] at h
  have h' : Names.runDirName ("run_".toList ++ stem₁) version t₁ =
      Names.runDirName ("run_".toList ++ stem₂) version t₂ := by
    have := List.append_cancel_left h
    simpa using this
  have a := Names.runId_roundtrip ("run_".toList ++ stem₁) version hv h₁
  rw [h', Names.runId_roundtrip ("run_".toList ++ stem₂) version hv h₂] at a
  simp only [Option.some.injEq, Prod.mk.injEq, true_and] at a
  exact ⟨(List.append_cancel_left a.1).symm, a.2.symm⟩

/-- A job of the batch system runs all its forecasts in one directory; so do two configurations with one
name in the same second. -/
theorem forecast_dirs_shared (workdir : Work.Path) (version stem₁ stem₂ : Str) (t₁ t₂ : Names.DateTime) :
    forecastDir workdir true version stem₁ t₁ = forecastDir workdir true version stem₂ t₂ := rfl

/-- Memory: never less than what was asked for, and at least 10 GB for more than 24 bins. -/
theorem job_memory (memory : Int) (bins : Nat) :
    memory ≤ jobMemory memory bins ∧ (24 < bins → 10000 ≤ jobMemory memory bins) ∧
      (jobMemory memory bins ≠ memory → 24 < bins ∧ memory < 10000) := by
  unfold jobMemory
  split
  · rename_i h; exact ⟨by omega, fun _ => le_refl _, fun _ => h⟩
  · rename_i h
    exact ⟨le_refl _, fun hb => by by_contra hc; exact h ⟨hb, by omega⟩, fun hh => absurd rfl hh⟩

/-- The jobs of the Fisher task get the same memory whatever is asked for. -/
theorem fisher_memory_fixed (m m' : Int) (bins : Nat) : fisherMemory m bins = fisherMemory m' bins ∧
    (4000 < m → bins ≤ 24 → fisherMemory m bins < m) := by
  refine ⟨rfl, fun h hb => ?_⟩
  unfold fisherMemory
  rw [if_neg (by omega)]; exact h

example : jobMemory 2048 30 = 10000 ∧ jobMemory 2048 24 = 2048 ∧ jobMemory 12000 30 = 12000 := by decide

/-- A directory with results `1` is there. -/
def exampleFs : Str → Option Nat := fun x => if x = "x_1".toList then some 1 else none

example : (createRundir true "x".toList "1".toList ⟨2020, 1, 2, 3, 4, 5⟩ 0 exampleFs).map
      (fun r => (r.2, r.1 r.2)) = some ("x_1".toList, some 0) ∧
    (createRundir false "x".toList "1".toList ⟨2020, 1, 2, 3, 4, 5⟩ 0 exampleFs).map
      (fun r => (r.1 "x_1".toList, r.1 r.2)) = some (some 1, some 0) := by decide +kernel

/-! ### Configuration used by the jobs -/

/-- In a new run the jobs of a task get the configuration that the run directory records for it.  Missing
for the full claim: runs continued in an existing directory, see `resumed_config_differs`. -/
theorem job_config_partial (run : Work.Path) (srcs : List (Str × Work.Path)) (params : V)
    (dataDir : Work.Path) (d : Work.Disk V) (hk : (srcs.map (·.1)).Nodup)
    (hp : "params".toList ∉ srcs.map (·.1)) (hd : "input_data_dir".toList ∉ srcs.map (·.1))
    (hb : (srcs.map (fun s => Work.name s.2)).Nodup)
    (hpn : ∀ s ∈ srcs, Work.name s.2 ≠ Work.paramsName)
    (hok : (prepareRun false run srcs params dataDir d).2 = none) :
    ∀ s ∈ srcs, (jobConfig srcs (prepareRun false run srcs params dataDir d).1 s.1).isSome = true ∧
      jobConfig srcs (prepareRun false run srcs params dataDir d).1 s.1 =
        Work.inputContent run (prepareRun false run srcs params dataDir d).1 s.1 := by
  intro s hs
  have hok' : (Work.createInputs run srcs params dataDir d).2 = none := hok
  show (jobConfig srcs (Work.createInputs run srcs params dataDir d).1 s.1).isSome = true ∧
    jobConfig srcs (Work.createInputs run srcs params dataDir d).1 s.1 =
      Work.inputContent run (Work.createInputs run srcs params dataDir d).1 s.1
  have hsrc := (Work.inputs_ok_iff run srcs params dataDir d).mp hok' s hs
  have hkept := Work.inputs_kept_partial run srcs params dataDir d hk hp hd hb hpn hok'
    (Work.createInputs run srcs params dataDir d).1.file (fun _ _ => rfl) s hs
  have hframe := (Work.inputs_frame run srcs params dataDir d).1 s.2 hsrc.2
  have hj : jobConfig srcs (Work.createInputs run srcs params dataDir d).1 s.1 = d.file s.2 := by
    unfold jobConfig
    rw [PyDict.lookup_of_mem srcs hk hs, Option.bind_some, hframe]
  rw [hj]
  exact ⟨hsrc.1, hkept.symm⟩

/-- In a run continued in an existing directory the jobs get the configuration of the command line, not
the one recorded when the run was set up, which stays in the record. -/
theorem resumed_config_differs (run : Work.Path) (task : Str) (src : Work.Path) (params : V)
    (dataDir : Work.Path) (d : Work.Disk V) (v w : V) (hvw : v ≠ w)
    (hrec : Work.inputContent run d task = some v) (hcmd : d.file src = some w) :
    let d' := (prepareRun true run [(task, src)] params dataDir d).1
    (prepareRun true run [(task, src)] params dataDir d).2 = none ∧
      jobConfig [(task, src)] d' task = some w ∧ Work.inputContent run d' task = some v ∧
      jobConfig [(task, src)] d' task ≠ Work.inputContent run d' task := by
  intro d'
  have hj : jobConfig [(task, src)] d' task = some w := by
    unfold jobConfig
    rw [PyDict.lookup_of_mem [(task, src)] (by simp) (p := (task, src)) (by simp)]
    exact hcmd
  have hi : Work.inputContent run d' task = some v := hrec
  refine ⟨rfl, hj, hi, ?_⟩
  rw [hj, hi]
  exact fun e => hvw (Option.some.inj e).symm

example : let d := (prepareRun false ["run".toList] [("Angular".toList,
        ["home".toList, "x".toList, "b.json".toList])] 7 ["data".toList] Work.exampleDisk).1
    jobConfig [("Angular".toList, ["home".toList, "x".toList, "b.json".toList])] d "Angular".toList = some 2 ∧
    jobConfig [("Angular".toList, ["home".toList, "y".toList, "b.json".toList])] d "Angular".toList = some 3 ∧
    Work.inputContent ["run".toList] d "Angular".toList = some 2 := by decide +kernel

/-! ### Options -/

/-- A flag on the command line: `--angular`, `--angular True`, `--angular false` and no flag mean what they
say. -/
theorem flag_on_command_line (cmd : List (Str × Val)) (hk : (cmd.map (·.1)).Nodup) (flag : Str) (v : Val)
    (hf : (flag, v) ∈ cmd) :
    ∃ args, options cmd none = .ok args ∧
      (v = .bool true ∨ v = .str "True".toList ∨ v = .str "true".toList → requested args flag = true) ∧
      (v = .none ∨ v = .bool false ∨ v = .str "False".toList ∨ v = .str "false".toList →
        requested args flag = false) := by
  refine ⟨_, rfl, ?_⟩
  have hl : (cmd.map fun p => (p.1, convert p.2)).lookup flag = some (convert v) := by
    refine PyDict.lookup_of_mem _ ?_ (p := (flag, convert v)) ?_
    · simpa [List.map_map, Function.comp_def] using hk
    · exact List.mem_map.mpr ⟨(flag, v), hf, rfl⟩
  have c1 : (convert (.str "True".toList)).truthy = true := by decide +kernel
  have c2 : (convert (.str "true".toList)).truthy = true := by decide +kernel
  have c3 : (convert (.str "False".toList)).truthy = false := by decide +kernel
  have c4 : (convert (.str "false".toList)).truthy = false := by decide +kernel
  unfold requested
  rw [hl]
  constructor
  · rintro (rfl | rfl | rfl)
    · rfl
    · exact c1
    · exact c2
  · rintro (rfl | rfl | rfl | rfl)
    · rfl
    · rfl
    · exact c3
    · exact c4

theorem decVal_zero_iff {s : Str} (h : ∀ c ∈ s, isDigit c = true) : decVal s = 0 ↔ ∀ c ∈ s, c = '0' := by
  have key : ∀ (s : Str) (a : Nat), (∀ c ∈ s, isDigit c = true) →
      (s.foldl (fun a c => 10 * a + digitVal c) a = 0 ↔ a = 0 ∧ ∀ c ∈ s, c = '0') := by
    intro s
    induction s with
    | nil => exact fun a _ => ⟨fun h => ⟨h, nofun⟩, fun h => h.1⟩
    | cons c s ih =>
      intro a h
      have h0 : digitVal c = 0 ↔ c = '0' := by
        constructor
        · intro hz
          rw [← digitChar_digitVal (h c List.mem_cons_self), hz]
          rfl
        · rintro rfl
          rfl
      rw [List.foldl_cons, ih _ fun d hd => h d (List.mem_cons_of_mem _ hd), List.forall_mem_cons, ← h0, ← and_assoc]
      refine and_congr_left fun _ => ?_
      omega
  exact (key s 0 h).trans ⟨fun h => h.2, fun h => ⟨rfl, h⟩⟩

/-- The values of a flag on the command line that switch a task off: none, false, zero, the words for false, and texts of
zeros only, among them the empty one. Every other value, also a negative number or a word such as `no`, switches it on. -/
theorem flag_off_iff (cmd : List (Str × Val)) (hk : (cmd.map (·.1)).Nodup) (flag : Str) (v : Val) (hf : (flag, v) ∈ cmd) :
    ∃ args, options cmd none = .ok args ∧ (requested args flag = false ↔
      v = .none ∨ v = .bool false ∨ v = .int 0 ∨ v = .str "False".toList ∨ v = .str "false".toList ∨
        ∃ s, v = .str s ∧ ∀ c ∈ s, c = '0') := by
  refine ⟨_, rfl, ?_⟩
  have hl : (cmd.map fun p => (p.1, convert p.2)).lookup flag = some (convert v) := by
    refine PyDict.lookup_of_mem _ ?_ (p := (flag, convert v)) ?_
    · simpa [List.map_map, Function.comp_def] using hk
    · exact List.mem_map.mpr ⟨(flag, v), hf, rfl⟩
  unfold requested
  rw [hl]
  show (convert v).truthy = false ↔ _
  cases v with
  | none => exact ⟨fun _ => Or.inl rfl, fun _ => rfl⟩
  | bool b =>
    cases b with
    | false => exact ⟨fun _ => Or.inr (Or.inl rfl), fun _ => rfl⟩
    | true =>
      refine ⟨fun h => absurd h (by decide), ?_⟩
      rintro (h | h | h | h | h | ⟨s, h, _⟩) <;> cases h
  | int n =>
    constructor
    · intro h
      have : ¬ n ≠ 0 := of_decide_eq_false h
      rw [not_not.mp this]
      exact Or.inr (Or.inr (Or.inl rfl))
    · rintro (h | h | h | h | h | ⟨s, h, _⟩) <;> cases h
      rfl
  | str s =>
    have neT : ∀ w : Str, (∃ c ∈ w, c ≠ '0') → (∀ c ∈ s, c = '0') → s ≠ w := by
      rintro w ⟨c, hc, hd⟩ hz rfl
      exact hd (hz c hc)
    unfold convert
    dsimp only
    by_cases hT : s = "True".toList ∨ s = "true".toList
    · rw [if_pos hT]
      refine ⟨fun h => absurd h (by decide), ?_⟩
      rintro (h | h | h | h | h | ⟨s', h, hz⟩)
      · cases h
      · cases h
      · cases h
      · rcases hT with rfl | rfl <;> exact absurd (Val.str.inj h) (by decide +kernel)
      · rcases hT with rfl | rfl <;> exact absurd (Val.str.inj h) (by decide +kernel)
      · cases h
        rcases hT with hT | hT
        · exact absurd hT (neT _ ⟨'T', by decide +kernel, by decide⟩ hz)
        · exact absurd hT (neT _ ⟨'t', by decide +kernel, by decide⟩ hz)
    · rw [if_neg hT]
      by_cases hF : s = "False".toList ∨ s = "false".toList
      · rw [if_pos hF]
        refine ⟨fun _ => ?_, fun _ => rfl⟩
        rcases hF with rfl | rfl
        · exact Or.inr (Or.inr (Or.inr (Or.inl rfl)))
        · exact Or.inr (Or.inr (Or.inr (Or.inr (Or.inl rfl))))
      · rw [if_neg hF]
        have back : (Val.str s = .none ∨ Val.str s = .bool false ∨ Val.str s = .int 0 ∨ Val.str s = .str "False".toList ∨
            Val.str s = .str "false".toList ∨ ∃ t, Val.str s = .str t ∧ ∀ c ∈ t, c = '0') ↔ ∀ c ∈ s, c = '0' := by
          constructor
          · rintro (h | h | h | h | h | ⟨t, h, hz⟩)
            · cases h
            · cases h
            · cases h
            · exact absurd (Or.inl (Val.str.inj h)) hF
            · exact absurd (Or.inr (Val.str.inj h)) hF
            · cases h
              exact hz
          · exact fun hz => Or.inr (Or.inr (Or.inr (Or.inr (Or.inr ⟨s, rfl, hz⟩))))
        rw [back]
        unfold parseNat
        by_cases hd : s ≠ [] ∧ s.all isDigit = true
        · rw [if_pos hd]
          have hall := List.all_eq_true.mp hd.2
          rw [← decVal_zero_iff hall]
          constructor
          · intro h
            have : ¬ ((decVal s : Nat) : Int) ≠ 0 := of_decide_eq_false h
            exact Int.ofNat_eq_zero.mp (not_not.mp this)
          · intro h
            show decide (((decVal s : Nat) : Int) ≠ 0) = false
            rw [h]
            rfl
        · rw [if_neg hd]
          constructor
          · intro h
            have : ¬ s ≠ [] := of_decide_eq_false h
            rw [not_not.mp this]
            exact nofun
          · intro hz
            have : s = [] := by
              by_contra hne
              exact hd ⟨hne, List.all_eq_true.mpr fun c hc => by rw [hz c hc]; rfl⟩
            rw [this]
            rfl

/-- A negative number switches the task on, a text of two zeros switches it off. -/
example : (∃ args, options [("angular".toList, .int (-1))] none = .ok args ∧ requested args "angular".toList ≠ false) ∧
    ∃ args, options [("angular".toList, .str "00".toList)] none = .ok args ∧ requested args "angular".toList = false := by
  constructor
  · obtain ⟨args, h1, h2⟩ := flag_off_iff [("angular".toList, .int (-1))] (by decide +kernel) _ _ List.mem_cons_self
    refine ⟨args, h1, fun h => ?_⟩
    rcases h2.mp h with h | h | h | h | h | ⟨s, h, _⟩ <;> exact absurd h nofun
  · obtain ⟨args, h1, h2⟩ := flag_off_iff [("angular".toList, .str "00".toList)] (by decide +kernel) _ _ List.mem_cons_self
    exact ⟨args, h1, h2.mpr (Or.inr (Or.inr (Or.inr (Or.inr (Or.inr ⟨_, rfl, by decide +kernel⟩)))))⟩

/-- What becomes of a value on the command line: the four words of truth, numbers, other texts, and values that are no texts. -/
theorem convert_spec (v : Val) :
    (v = .str "True".toList ∨ v = .str "true".toList → convert v = .bool true) ∧
    (v = .str "False".toList ∨ v = .str "false".toList → convert v = .bool false) ∧
    (∀ n : Nat, v = .str (decStr n) → convert v = .int n) ∧
    (∀ s, v = .str s → (∃ c ∈ s, isDigit c = false) → s ≠ "True".toList → s ≠ "true".toList → s ≠ "False".toList →
      s ≠ "false".toList → convert v = v) ∧
    ((∀ s, v ≠ .str s) → convert v = v) := by
  have c1 : convert (.str "True".toList) = .bool true := by decide +kernel
  have c2 : convert (.str "true".toList) = .bool true := by decide +kernel
  have c3 : convert (.str "False".toList) = .bool false := by decide +kernel
  have c4 : convert (.str "false".toList) = .bool false := by decide +kernel
  refine ⟨?_, ?_, ?_, ?_, ?_⟩
  · rintro (rfl | rfl)
    · exact c1
    · exact c2
  · rintro (rfl | rfl)
    · exact c3
    · exact c4
  · rintro n rfl
    have hne : ∀ w : Str, (∃ c ∈ w, isDigit c = false) → decStr n ≠ w := by
      rintro w ⟨c, hc, hd⟩ rfl
      rw [decStr_digits n c hc] at hd
      cases hd
    rw [convert, if_neg, if_neg, parseNat_decStr]
    · rintro (h | h)
      · exact hne _ ⟨'F', by decide, by decide⟩ h
      · exact hne _ ⟨'f', by decide, by decide⟩ h
    · rintro (h | h)
      · exact hne _ ⟨'T', by decide, by decide⟩ h
      · exact hne _ ⟨'t', by decide, by decide⟩ h
  · rintro s rfl ⟨c, hc, hd⟩ h1 h2 h3 h4
    rw [convert, if_neg (by rintro (h | h); exacts [h1 h, h2 h]), if_neg (by rintro (h | h); exacts [h3 h, h4 h])]
    have : parseNat s = none := by
      unfold parseNat
      apply if_neg
      rintro ⟨-, h⟩
      rw [List.all_eq_true.mp h c hc] at hd
      cases hd
    rw [this]
  · intro h
    cases v with
    | str s => exact absurd rfl (h s)
    | none => rfl
    | bool b => rfl
    | int n => rfl

/-- An option that the program does not know, in the ini file: an error. -/
theorem ini_unknown (cmd : List (Str × Val)) (kv : List (Str × Str))
    (h : ∃ p ∈ kv, p.1 ∉ cmd.map (·.1)) : options cmd (some kv) = .error .keyError := by
  unfold options
  simp only
  rw [if_neg]
  intro hall
  obtain ⟨p, hp, hn⟩ := h
  have := List.all_eq_true.mp hall p hp
  rw [PyDict.lookup_isSome_iff] at this
  exact hn (by simpa [List.map_map, Function.comp_def] using this)

theorem options_ini {cmd : List (Str × Val)} {kv : List (Str × Str)}
    (h : ∀ p ∈ kv, p.1 ∈ cmd.map (·.1)) :
    options cmd (some kv) = .ok (PyDict.update (cmd.map fun p => (p.1, convert p.2))
      (kv.map fun p => (p.1, Val.str p.2))) := by
  unfold options
  simp only
  rw [if_pos]
  refine List.all_eq_true.mpr fun p hp => ?_
  rw [PyDict.lookup_isSome_iff]
  simpa [List.map_map, Function.comp_def] using h p hp

theorem lookup_ini {cmd : List (Str × Val)} {kv : List (Str × Str)} (hk : (kv.map (·.1)).Nodup)
    {p : Str × Str} (hp : p ∈ kv) :
    (PyDict.update (cmd.map fun p => (p.1, convert p.2)) (kv.map fun p => (p.1, Val.str p.2))).lookup p.1 =
      some (Val.str p.2) := by
  rw [PyDict.lookup_update]
  have : (kv.map fun p => (p.1, Val.str p.2)).reverse.lookup p.1 = some (Val.str p.2) := by
    refine PyDict.lookup_of_mem _ ?_ (p := (p.1, Val.str p.2)) ?_
    · rw [List.map_reverse, List.nodup_reverse]
      simpa [List.map_map, Function.comp_def] using hk
    · rw [List.mem_reverse]
      exact List.mem_map.mpr ⟨p, hp, rfl⟩
  rw [this]; rfl

/-- Options of the ini file replace those of the command line, the others keep their values. -/
theorem ini_wins (cmd : List (Str × Val)) (kv : List (Str × Str)) (hk : (kv.map (·.1)).Nodup)
    (h : ∀ p ∈ kv, p.1 ∈ cmd.map (·.1)) :
    ∃ args, options cmd (some kv) = .ok args ∧ (∀ p ∈ kv, args.lookup p.1 = some (.str p.2)) ∧
      ∀ k, k ∉ kv.map (·.1) → args.lookup k = (cmd.lookup k).map convert := by
  refine ⟨_, options_ini h, fun p hp => lookup_ini hk hp, fun k hn => ?_⟩
  rw [PyDict.lookup_update]
  have h1 : (kv.map fun p => (p.1, Val.str p.2)).reverse.lookup k = none := by
    rw [PyDict.lookup_none_iff, List.map_reverse, List.mem_reverse]
    simpa [List.map_map, Function.comp_def] using hn
  rw [h1]
  exact Param.lookup_map_val cmd convert k

/-- A task switched off in the ini file is run: every value that is not empty counts as true. -/
theorem ini_false_is_true (cmd : List (Str × Val)) (kv : List (Str × Str)) (hk : (kv.map (·.1)).Nodup)
    (h : ∀ p ∈ kv, p.1 ∈ cmd.map (·.1)) (flag s : Str) (hf : (flag, s) ∈ kv) (hs : s ≠ []) :
    ∃ args, options cmd (some kv) = .ok args ∧ requested args flag = true := by
  refine ⟨_, options_ini h, ?_⟩
  unfold requested
  rw [lookup_ini hk hf]
  simp [Val.truthy, hs]

/-- The number of cores cannot be given in the ini file. -/
theorem ini_cores_refused (cmd : List (Str × Val)) (kv : List (Str × Str)) (hk : (kv.map (·.1)).Nodup)
    (h : ∀ p ∈ kv, p.1 ∈ cmd.map (·.1)) (s : Str) (hf : ("n_cores_per_job".toList, s) ∈ kv) :
    ∃ args, options cmd (some kv) = .ok args ∧ checkOptions args ≠ none := by
  refine ⟨_, options_ini h, ?_⟩
  unfold checkOptions
  rw [lookup_ini hk hf]
  simp only
  split
  · simp
  · split <;> simp

/-- What is accepted: an execution mode of the three, and a positive number of cores. -/
theorem options_accepted (args : List (Str × Val)) (h : checkOptions args = none) :
    (∃ m ∈ ["no".toList, "interactive".toList, "batch".toList],
      args.lookup "execution".toList = some (.str m)) ∧
    ((∃ n, 0 < n ∧ args.lookup "n_cores_per_job".toList = some (.int n)) ∨
      args.lookup "n_cores_per_job".toList = some (.bool true)) := by
  unfold checkOptions at h
  split at h
  · rename_i hm
    constructor
    · simp only [List.mem_cons, List.not_mem_nil, or_false] at hm
      rcases hm with hm | hm | hm
      · exact ⟨_, by simp, hm⟩
      · exact ⟨_, by simp, hm⟩
      · exact ⟨_, by simp, hm⟩
    · split at h
      · rename_i n hn
        split at h
        · cases h
        · exact Or.inl ⟨n, by omega, hn⟩
      · rename_i b hb
        cases b with
        | true => exact Or.inr hb
        | false => cases h
      · cases h
      · cases h
  · split at h <;> cases h

/-- An identifier made of digits is changed: leading zeros are lost. -/
theorem run_id_changed : convert (.str "007".toList) = .int 7 := by decide +kernel

example : requested [("angular".toList, .str "False".toList)] "angular".toList = true := by decide +kernel
example : checkOptions [("execution".toList, .str "no".toList), ("n_cores_per_job".toList, .int 4)] = none := by
  decide +kernel

/-! ### Spectra of the displaced cosmologies in one process -/

variable {K : Type} [Field K] [LinearOrder K] [IsStrictOrderedRing K]

theorem reset_update (c : Param.Coll K) (d : Str) (s : Int) :
    Param.reset (Param.update c d s).1 = Param.reset c := by
  have := Param.frozen_update c d s
  rw [← Param.reset_frozen, this, Param.reset_frozen]

theorem reset_reset (c : Param.Coll K) : Param.reset (Param.reset c) = Param.reset c := by
  rw [← Param.reset_frozen (Param.reset c), Param.frozen_reset, Param.reset_frozen]

/-- When all spectra of the displaced values of a parameter are computed, each of them is computed with
the parameters of its own step, as if it were the only one, and afterwards all parameters have their
fiducial values. -/
theorem variations_spec (fails : Int → Bool) (dvar : Str) (steps : List Int) :
    ∀ (c c' : Param.Coll K) (l : List (Int × List (Str × Param.Par K))), c = Param.reset c →
      variations fails dvar c steps = (c', .ok l) →
      c' = c ∧ l = steps.map (fun s => (s, (Param.update c dvar s).1.pars)) ∧
        ∀ s ∈ steps, (Param.update c dvar s).2 = none ∧ fails s = false := by
  induction steps with
  | nil =>
    intro c c' l _ h
    unfold variations at h
    cases h
    exact ⟨rfl, rfl, by simp⟩
  | cons s rest ih =>
    intro c c' l hc h
    unfold variations at h
    cases hu : Param.update c dvar s with
    | mk c₁ r =>
      rw [hu] at h
      cases r with
      | some e => cases h
      | none =>
        simp only at h
        cases hf : fails s with
        | true => rw [hf] at h; cases h
        | false =>
          rw [hf] at h
          simp only [Bool.false_eq_true, if_false] at h
          have hr : Param.reset c₁ = c := by
            have := reset_update c dvar s
            rw [hu] at this
            exact this.trans hc.symm
          rw [hr] at h
          cases hv : variations fails dvar c rest with
          | mk c₂ r₂ =>
            rw [hv] at h
            cases r₂ with
            | error e => cases h
            | ok l₂ =>
              cases h
              obtain ⟨i1, i2, i3⟩ := ih c c' l₂ hc hv
              refine ⟨i1, ?_, fun x hx => ?_⟩
              · rw [i2, List.map_cons, hu]
              · rcases List.mem_cons.mp hx with rfl | hx
                · exact ⟨by rw [hu], hf⟩
                · exact i3 x hx

/-- They succeed when every step can be applied and no computation raises. -/
theorem variations_succeed (fails : Int → Bool) (dvar : Str) (steps : List Int) (c : Param.Coll K)
    (hc : c = Param.reset c)
    (h : ∀ s ∈ steps, (Param.update c dvar s).2 = none ∧ fails s = false) :
    ∃ l, variations fails dvar c steps = (c, .ok l) := by
  induction steps with
  | nil => exact ⟨[], rfl⟩
  | cons s rest ih =>
    obtain ⟨l, hl⟩ := ih fun x hx => h x (List.mem_cons_of_mem _ hx)
    obtain ⟨h1, h2⟩ := h s List.mem_cons_self
    refine ⟨(s, (Param.update c dvar s).1.pars) :: l, ?_⟩
    unfold variations
    cases hu : Param.update c dvar s with
    | mk c₁ r =>
      rw [hu] at h1
      simp only at h1
      subst h1
      have hr : Param.reset c₁ = c := by
        have := reset_update c dvar s
        rw [hu] at this
        exact this.trans hc.symm
      simp only [h2, Bool.false_eq_true, if_false, hr, hl]

/-- In one process the spectra of the steps -7 to 7 are computed, for collections with seven
displacements, which are the steps the derivative expects.  Missing for the full claim: other numbers of
displacements, see `too_few_displacements` and `too_many_displacements`. -/
theorem seven_steps_partial (fails : Int → Bool) (dvar : Str) (c₀ : Param.Coll K) (base : List K)
    (hpos : ∀ x ∈ base, 0 < x) (hseven : base.length = 7)
    (hc : Param.loadStem c₀ base = Param.reset (Param.loadStem c₀ base))
    (h : ∀ s ∈ Param.stepNumbers base.length,
      (Param.update (Param.loadStem c₀ base) dvar s).2 = none ∧ fails s = false) :
    ∃ l : List (Int × List (Str × Param.Par K)),
      variations fails dvar (Param.loadStem c₀ base) sevenSteps = (Param.loadStem c₀ base, .ok l) ∧
      some (l.map (·.1)) = (Param.loadStem c₀ base).steps := by
  rw [hseven] at h
  obtain ⟨l, hl⟩ := variations_succeed fails dvar sevenSteps (Param.loadStem c₀ base) hc h
  refine ⟨l, hl, ?_⟩
  obtain ⟨_, h2, _⟩ := variations_spec fails dvar sevenSteps _ _ l hc hl
  rw [(Param.loaded c₀ hpos).2.1, hseven, h2, List.map_map]
  have : ((fun x : Int × List (Str × Param.Par K) => x.1) ∘
      fun s => (s, (Param.update (Param.loadStem c₀ base) dvar s).1.pars)) = id := rfl
  rw [this, List.map_id]
  rfl

/-- With fewer than seven displacements the computation always fails, at its first step. -/
theorem too_few_displacements (fails : Int → Bool) (dvar : Str) (hd : dvar ≠ Param.central)
    (c₀ : Param.Coll K) (base : List K) (hpos : ∀ x ∈ base, 0 < x) (hfew : base.length < 7) :
    ∃ c' e, variations fails dvar (Param.loadStem c₀ base) sevenSteps = (c', .error (some e)) := by
  have hs : sevenSteps = -7 :: sevenSteps.tail := by decide
  rw [hs]
  unfold variations
  obtain ⟨disps, dict, _, hdict, _, _, _, _, _, hlk⟩ := Param.stem_steps c₀ hpos
  have hnone : dict.lookup (-7) = none := by
    rw [← Option.not_isSome_iff_eq_none, hlk]
    rintro ⟨_, h⟩
    have : (-7 : Int).natAbs = 7 := rfl
    omega
  obtain ⟨e, he⟩ := (Param.update_refused_iff (Param.loadStem c₀ base) (-7) hd).mpr (Or.inl (by
    rintro ⟨p, dict', eps, _, _, h3, h4⟩
    rw [hdict] at h3
    obtain rfl := Option.some.inj h3
    rw [hnone] at h4
    cases h4))
  cases hu : Param.update (Param.loadStem c₀ base) dvar (-7) with
  | mk c₁ r =>
    rw [hu] at he
    simp only at he
    subst he
    exact ⟨c₁, e, rfl⟩

/-- With more than seven displacements fewer spectra are computed than there are parameter values. -/
theorem too_many_displacements (fails : Int → Bool) (dvar : Str) (c₀ c' : Param.Coll K) (base : List K)
    (hpos : ∀ x ∈ base, 0 < x) (hmany : 7 < base.length)
    (hc : Param.loadStem c₀ base = Param.reset (Param.loadStem c₀ base))
    (l : List (Int × List (Str × Param.Par K)))
    (h : variations fails dvar (Param.loadStem c₀ base) sevenSteps = (c', .ok l)) :
    l.length = 14 ∧ ∃ steps, (Param.loadStem c₀ base).steps = some steps ∧ 14 < steps.length := by
  obtain ⟨_, h2, _⟩ := variations_spec fails dvar sevenSteps _ _ l hc h
  refine ⟨?_, _, (Param.loaded c₀ hpos).2.1, ?_⟩
  · rw [h2, List.length_map]; decide
  · rw [Param.stepNumbers_length]; omega

/-- When the computation for a step raises, the parameters keep the displaced values. -/
theorem failed_step_stays (fails : Int → Bool) (dvar : Str) (c : Param.Coll K) (s : Int) (rest : List Int)
    (hu : (Param.update c dvar s).2 = none) (hf : fails s = true) :
    variations fails dvar c (s :: rest) = ((Param.update c dvar s).1, .error none) := by
  unfold variations
  cases h : Param.update c dvar s with
  | mk c₁ r =>
    rw [h] at hu
    simp only at hu
    subst hu
    simp only [hf, if_true]

/-- Seven displacements. -/
def exampleBase : List ℚ := [1 / 10, 1 / 20, 1 / 30, 1 / 40, 1 / 50, 1 / 60, 1 / 70]

example : let c := Param.loadStem (Param.exColl false) exampleBase
    c = Param.reset c ∧ (∀ s ∈ Param.stepNumbers exampleBase.length, (Param.update c Param.omm s).2 = none) ∧
    ∀ x ∈ exampleBase, 0 < x := by
  refine ⟨by rfl, by decide +kernel, by decide +kernel⟩

/-! ### Concrete cases -/

/-- A full forecast in which nothing fails: what angular spectra need has been done before. -/
example : ∃ a b, [Comp.densities true, .task .powerSpectrum] = a ++ Comp.task .powerSpectrum :: b ∧
    (fun _ _ => false : Env) a (.task .powerSpectrum) = false :=
  run_dependencies ⟨true, true, true, true⟩ .batch (fun _ _ => false) _ [.deltaCls, .task .derivative, .task .fisher, .results]
    (.task .angular) (.task .powerSpectrum) (by decide) (by decide) (by decide)

example : ∃ pre, (run ⟨true, true, true, true⟩ .batch fun _ _ => false).1 = pre ++ [.results] ∧ AllGood (fun _ _ => false) pre ∧
    ∀ c ∈ plan ⟨true, true, true, true⟩ .batch, c ≠ .results → c ∈ pre :=
  results_last ⟨true, true, true, true⟩ .batch (fun _ _ => false) (by decide)

example : run ⟨true, true, true, true⟩ .no (fun _ _ => true) = ([], true) := dry_run_partial _ _ fun _ => rfl

/-- Three jobs, the second of which fails and says so. -/
example : ¬ (execJobs (fun j : Nat => ⟨if j = 1 then 3 else 0, decide (j = 1)⟩) [0, 1, 2]).2 = false := fun h =>
  absurd ((jobs_completed_partial (fun j : Nat => ⟨if j = 1 then 3 else 0, decide (j = 1)⟩) [0, 1, 2] (by decide)).mp h 1
    (by decide)) (by decide)

example : ¬ ∃ k, LastOf ["dvar_central_step_0".toList, "dvar_h_step_m_1".toList, "log".toList] k "log".toList :=
  ((cleanup_exact ["dvar_central_step_0".toList, "dvar_h_step_m_1".toList, "log".toList]
    ["dvar_central_step_0".toList, "log".toList] (by decide +kernel) "log".toList).mp (by decide +kernel)).2

example : cleanUp true false ["dvar_h_step_m_1".toList, "dvar_old".toList] = none :=
  cleanup_refused _ ⟨"dvar_old".toList, .tail _ (.head _), by decide +kernel⟩

example : cleanUp true true ["dvar_h_step_m_1".toList] = some ["dvar_h_step_m_1".toList] := cleanup_keeps _ _ _ (.inr rfl)

example (fs' : Str → Option Nat) (n : Str)
    (h : createRundir false "x".toList "1".toList ⟨2020, 1, 2, 3, 4, 5⟩ 0 exampleFs = some (fs', n)) : fs' "x_1".toList = some 1 :=
  ((rundir_new _ _ _ _ _ _ _ _ h).2.1 _ fun e => by
    have := (rundir_new _ _ _ _ _ _ _ _ h).2.2.2
    rw [← e] at this
    exact absurd this (by decide +kernel)).trans (by decide +kernel)

example : ∃ fs' n, createRundir true "x".toList "1".toList ⟨2020, 1, 2, 3, 4, 5⟩ 0 exampleFs = some (fs', n) ∧
    exampleFs n = some 1 ∧ fs' n ≠ exampleFs n :=
  rundir_test_destroys _ _ _ _ _ _ (by decide) (by decide +kernel)

/-- A command line with two options. -/
def exCmd : List (Str × Val) := [("angular".toList, .str "true".toList), ("n_cores_per_job".toList, .int 2)]

example : ∃ args, options exCmd none = .ok args ∧ requested args "angular".toList = true := by
  obtain ⟨args, h, h1, -⟩ := flag_on_command_line exCmd (by decide +kernel) "angular".toList _ (.head _)
  exact ⟨args, h, h1 (.inr (.inr rfl))⟩

example : options exCmd (some [("fisher".toList, "true".toList)]) = .error .keyError :=
  ini_unknown _ _ ⟨_, .head _, by decide +kernel⟩

example : ∃ args, options exCmd (some [("angular".toList, "no".toList)]) = .ok args ∧
    args.lookup "angular".toList = some (.str "no".toList) := by
  obtain ⟨args, h, h1, -⟩ := ini_wins exCmd [("angular".toList, "no".toList)] (by decide +kernel) (by decide +kernel)
  exact ⟨args, h, h1 _ (.head _)⟩

example : ∃ args, options exCmd (some [("angular".toList, "False".toList)]) = .ok args ∧ requested args "angular".toList = true :=
  ini_false_is_true exCmd [("angular".toList, "False".toList)] (by decide +kernel) (by decide +kernel) _ _ (.head _) (by decide +kernel)

example : ∃ args, options exCmd (some [("n_cores_per_job".toList, "4".toList)]) = .ok args ∧ checkOptions args ≠ none :=
  ini_cores_refused exCmd [("n_cores_per_job".toList, "4".toList)] (by decide +kernel) (by decide +kernel) _ (.head _)

/-- All steps of seven displacements of the matter density. -/
example : ∃ l, variations (fun _ => false) Param.omm (Param.loadStem (Param.exColl false) exampleBase) sevenSteps =
      (Param.loadStem (Param.exColl false) exampleBase, .ok l) ∧
    some (l.map (·.1)) = (Param.loadStem (Param.exColl false) exampleBase).steps :=
  seven_steps_partial (fun _ => false) Param.omm (Param.exColl false) exampleBase (by decide +kernel) rfl (by rfl) (by decide +kernel)

example : ∃ l, variations (fun _ => false) Param.omm (Param.loadStem (Param.exColl false) exampleBase) [1, -1] =
    (Param.loadStem (Param.exColl false) exampleBase, .ok l) :=
  variations_succeed _ _ _ _ (by rfl) (by decide +kernel)

example : ∃ c' e, variations (fun _ => false) Param.omm (Param.loadStem (Param.exColl false) [1 / 10]) sevenSteps =
    (c', .error (some e)) :=
  too_few_displacements _ _ (by decide +kernel) _ _ (by decide +kernel) (by decide)

end Seyfert.Runner
