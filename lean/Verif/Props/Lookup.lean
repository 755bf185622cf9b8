import Verif.Spec.Lookup
import Verif.Props.JobRuns
import Verif.Props.Compare

/-!
C131: the derivatives and spectra that the jobs have written are the ones which the Fisher matrices are computed from.
-/

set_option linter.unusedSectionVars false

namespace Seyfert.Job

open Orch (Pth pname)
open Param (Coll Par central stepNumbers)
open ClDer (Cosmo Cls Store)
open Compare (globMatch)

variable {K S C : Type} [Field K] [LinearOrder K]

/-! ### Patterns -/

/-- A file is found exactly if it is the only one in the directory that matches the pattern. -/
theorem findFile_iff {entries dirs : Pth → List Str} {d : Disk K S C} (hs : Shows entries dirs d) (dir : Pth)
    (pre suf : Str) (q : Pth) :
    findFile entries dir pre suf = .ok q ↔
      ∃ x, q = dir ++ [x] ∧ ∀ y, ((∃ r, (d (dir ++ y :: r)).isSome) ∧ ∃ m, y = pre ++ m ++ suf) ↔ y = x := by
  have hmem : ∀ y, y ∈ (entries dir).filter (globMatch pre suf) ↔
      (∃ r, (d (dir ++ y :: r)).isSome) ∧ ∃ m, y = pre ++ m ++ suf := by
    intro y
    rw [List.mem_filter, hs.names dir y, Compare.glob_iff]
  have hn : ((entries dir).filter (globMatch pre suf)).Nodup := (hs.once dir).filter _
  unfold findFile Compare.uniqueFile
  generalize (entries dir).filter (globMatch pre suf) = m at *
  match m, hn, hmem with
  | [], _, hmem =>
    simp only
    refine ⟨nofun, ?_⟩
    rintro ⟨x, _, h⟩
    exact absurd ((hmem x).mpr ((h x).mpr rfl)) List.not_mem_nil
  | [b], _, hmem =>
    simp only [Except.ok.injEq]
    constructor
    · rintro rfl
      exact ⟨b, rfl, fun y => (hmem y).symm.trans List.mem_singleton⟩
    · rintro ⟨x, rfl, h⟩
      rw [(h b).mp ((hmem b).mp List.mem_cons_self)]
  | b :: b' :: _, hn, hmem =>
    simp only
    refine ⟨nofun, ?_⟩
    rintro ⟨x, _, h⟩
    have e1 := (h b).mp ((hmem b).mp List.mem_cons_self)
    have e2 := (h b').mp ((hmem b').mp (List.mem_cons_of_mem _ List.mem_cons_self))
    exact absurd List.mem_cons_self (e2 ▸ e1 ▸ (List.nodup_cons.mp hn).1)

theorem findFile_error {entries dirs : Pth → List Str} {d : Disk K S C} (hs : Shows entries dirs d) {dir : Pth}
    {pre suf : Str}
    (h : ¬ ∃ x, ∀ y, ((∃ r, (d (dir ++ y :: r)).isSome) ∧ ∃ m, y = pre ++ m ++ suf) ↔ y = x) :
    findFile entries dir pre suf = .error .notUnique := by
  cases hf : findFile entries dir pre suf with
  | error e => cases e with
    | notUnique => rfl
    | content =>
      unfold findFile at hf
      split at hf
      · cases hf
      · cases hf
  | ok q =>
    obtain ⟨x, _, hx⟩ := (findFile_iff hs dir pre suf q).mp hf
    exact absurd ⟨x, hx⟩ h

/-! ### The dictionary of derivatives -/

theorem readAll_error {entries : Pth → List Str} {d : Disk K S C} {run : Pth} {x : Str} {e : FindErr}
    (hx : readDer entries d run x = .error e) : ∀ {xs : List Str}, x ∈ xs → ∃ e', readAll entries d run xs = .error e' := by
  intro xs
  induction xs with
  | nil => intro h; exact absurd h List.not_mem_nil
  | cons y ys ih =>
    intro h
    unfold readAll
    cases hy : readDer entries d run y with
    | error e' => exact ⟨e', rfl⟩
    | ok l =>
      have hne : x ≠ y := by rintro rfl; rw [hx] at hy; cases hy
      obtain ⟨e', he⟩ := ih ((List.mem_cons.mp h).resolve_left hne)
      simp only
      rw [he]
      exact ⟨e', rfl⟩

theorem readAll_ok {entries : Pth → List Str} {d : Disk K S C} {run : Pth} {f : Str → List ((Str × Str) × (List K × List K))} :
    ∀ {xs : List Str}, (∀ x ∈ xs, readDer entries d run x = .ok (f x)) →
      readAll entries d run xs = .ok (xs.map fun x => (x, f x)) := by
  intro xs
  induction xs with
  | nil => intro _; rfl
  | cons y ys ih =>
    intro h
    unfold readAll
    rw [h y List.mem_cons_self, ih fun x hx => h x (List.mem_cons_of_mem _ hx)]
    rfl

/-- C131. The Fisher matrices are computed exactly if in each directory in `Derivative` there is one file whose name begins
with `cl_derivatives` and ends with `.h5`, and it holds derivatives; these are then the derivatives of the parameter after
which the directory is named. -/
theorem reads_iff {entries dirs : Pth → List Str} {d : Disk K S C} (hs : Shows entries dirs d) (run : Pth)
    (f : Str → List ((Str × Str) × (List K × List K))) :
    (∃ t, readDerivs entries dirs d run = .ok t ∧
      ∀ n, t.lookup n = if n ∈ dirs (run ++ ["Derivative".toList]) then some (f n) else none) ↔
    ∀ n ∈ dirs (run ++ ["Derivative".toList]), ∃ x,
      (∀ y, ((∃ r, (d (run ++ ["Derivative".toList, n] ++ y :: r)).isSome) ∧ DerLike y) ↔ y = x) ∧
      d (run ++ ["Derivative".toList, n] ++ [x]) = some (.ders (f n)) := by
  have hdir : run ++ [Prog.der.dir] = run ++ ["Derivative".toList] := rfl
  have one : ∀ n l, readDer entries d run n = .ok l ↔ ∃ x,
      (∀ y, ((∃ r, (d (run ++ ["Derivative".toList, n] ++ y :: r)).isSome) ∧ DerLike y) ↔ y = x) ∧
      d (run ++ ["Derivative".toList, n] ++ [x]) = some (.ders l) := by
    intro n l
    have hiff := findFile_iff hs (run ++ ["Derivative".toList, n]) "cl_derivatives".toList ".h5".toList
    unfold readDer
    cases hg : getDerFile entries run n with
    | error e =>
      refine ⟨nofun, ?_⟩
      rintro ⟨x, hx, _⟩
      have := (hiff _).mpr ⟨x, rfl, hx⟩
      have hg' : findFile entries (run ++ ["Derivative".toList, n]) "cl_derivatives".toList ".h5".toList = .error e := hg
      rw [hg'] at this
      cases this
    | ok q =>
      obtain ⟨x, rfl, hx⟩ := (hiff q).mp hg
      simp only
      constructor
      · intro h
        refine ⟨x, hx, ?_⟩
        split at h
        · next heq => cases h; exact heq
        · cases h
      · rintro ⟨x', hx', hd⟩
        have : x' = x := (hx x').mp ((hx' x').mpr rfl)
        subst this
        rw [hd]
  constructor
  · rintro ⟨t, ht, hl⟩ n hn
    have key : ∀ xs t, readAll entries d run xs = .ok t → ∀ n ∈ xs, ∃ l, readDer entries d run n = .ok l ∧
        t.lookup n = some l := by
      intro xs
      induction xs with
      | nil => intro t _ n hn; exact absurd hn List.not_mem_nil
      | cons y ys ih =>
        intro t ht n hn
        unfold readAll at ht
        cases hy : readDer entries d run y with
        | error e => rw [hy] at ht; cases ht
        | ok l =>
          rw [hy] at ht
          simp only at ht
          cases hr : readAll entries d run ys with
          | error e => rw [hr] at ht; cases ht
          | ok t' =>
            rw [hr] at ht
            cases ht
            rw [List.lookup_cons]
            by_cases e : n = y
            · subst e
              exact ⟨l, hy, by simp⟩
            · have : (n == y) = false := by simpa using e
              rw [this]
              exact ih t' hr n ((List.mem_cons.mp hn).resolve_left e)
    obtain ⟨l, h1, h2⟩ := key _ t ht n (hdir ▸ hn)
    have h3 := hl n
    rw [if_pos hn, h2] at h3
    cases h3
    exact (one n (f n)).mp h1
  · intro h
    refine ⟨_, readAll_ok fun n hn => (one n (f n)).mpr (h n hn), fun n => ?_⟩
    by_cases hn : n ∈ dirs (run ++ ["Derivative".toList])
    · rw [if_pos hn]
      exact lookup_map_pair _ f hn
    · rw [if_neg hn, List.lookup_eq_none_iff.mpr]
      intro q hq
      obtain ⟨u, hu, rfl⟩ := List.mem_map.mp hq
      simp only [bne_iff_ne, ne_eq]
      rintro rfl
      exact hn hu

/-! ### After the jobs -/

theorem derName_like (dvar : Str) (probes : List Str) : DerLike (derName dvar probes) := by
  refine ⟨"_".toList ++ dvar ++ "_".toList ++ joinStr "_".toList probes, ?_⟩
  unfold derName
  have : "cl_derivatives_".toList = "cl_derivatives".toList ++ "_".toList := by decide
  rw [this]
  simp only [List.append_assoc]

theorem clName_like (probes : List Str) : ClLike (clName probes) := by
  refine ⟨"_".toList ++ joinStr "_".toList probes, ?_⟩
  unfold clName
  have : "cl_".toList = "cl".toList ++ "_".toList := by decide
  rw [this]
  simp only [List.append_assoc]

/-- What is in the directories of the derivatives after their jobs. -/
theorem der_files (w : World K S C) {venv : Option Pth} {home : Pth} {run : Pth} {cfgName : Str} {jobs sched : List Str}
    (hj : Scripts venv home .der run cfgName jobs) {d : Disk K S C} {c : Coll K} (hp : HasParams d run c)
    (hs : Complete jobs sched) {q : Pth} (hq : (runTask w venv home .der run cfgName sched d q).isSome) :
    (d q).isSome ∨ ∃ n ∈ jobs, q = derFile w run n := by
  by_cases h : ∃ n ∈ jobs, Own .der run n q
  · obtain ⟨n, hn, ho⟩ := h
    rw [runTask_after w hj hp hs hn ho] at hq
    by_cases e : q = derFile w run n
    · exact Or.inr ⟨n, hn, e⟩
    · left
      have : after w .der (argsFor .der run cfgName n) d q = d q := by
        refine saved_other fun b r f h => ?_
        rw [(derStart_save h).2]
        intro e'
        apply e
        rw [e']
        show jobPath .der run n ++ _ = _
        unfold derFile jobPath
        rw [List.append_assoc]
        rfl
      rwa [this] at hq
  · rw [(runTask_own w hj hp hs.1).2 q fun n hn ho => h ⟨n, hs.1 n hn, ho⟩] at hq
    exact Or.inl hq

theorem derFile_inj {w : World K S C} {run : Pth} {n m x : Str} {r : Pth}
    (h : run ++ "Derivative".toList :: n :: x :: r = derFile w run m) : n = m ∧ x = derName m w.probes ∧ r = [] := by
  have := List.append_cancel_left h
  simp only [List.cons.injEq, true_and] at this
  exact this

/-- C131. Whatever the order of the steps of the jobs of the derivatives: if none of them fails, then the Fisher matrices
are computed with, for each parameter which had a job, the derivatives that this job has computed, and with no others.
(For directories without files of derivatives before.) -/
theorem fisher_reads_partial (w : World K S C) (venv : Option Pth) (home : Pth) {run : Pth} {cfgName : Str}
    {jobs sched : List Str} (hr : AbsPlain run) (hc : PlainName cfgName) (hn : ∀ n ∈ jobs, PlainPart n)
    {d : Disk K S C} {c : Coll K} (hp : HasParams d run c) (hs : Complete jobs sched) (hold : NoDerivs d run jobs)
    {l : Str → List ((Str × Str) × (List K × List K))} (hl : ∀ n ∈ jobs, derOf w d run c n = some (l n))
    {entries dirs : Pth → List Str} (hsh : Shows entries dirs (runTask w venv home .der run cfgName sched d)) :
    ∃ t, readDerivs entries dirs (runTask w venv home .der run cfgName sched d) run = .ok t ∧
      ∀ n, t.lookup n = if n ∈ jobs then some (l n) else none := by
  have hj := scripts_of venv home .der hr hc hn
  have res : ∀ n ∈ jobs, runTask w venv home .der run cfgName sched d (derFile w run n) = some (.ders (l n)) := by
    intro n h
    rw [derivative_results_partial w venv home hr hc hn hp hs h]
    have := hl n h
    unfold derOf at this
    rw [this]
  have hdirs : ∀ n, n ∈ dirs (run ++ ["Derivative".toList]) ↔ n ∈ jobs := by
    intro n
    rw [hsh.subdirs]
    constructor
    · rintro ⟨x, r, h⟩
      rw [List.append_assoc] at h
      rcases der_files w hj hp hs h with h | ⟨m, hm, e⟩
      · exact (hold _ _ _ h).1
      · rw [(derFile_inj e).1]; exact hm
    · intro h
      refine ⟨derName n w.probes, [], ?_⟩
      have := res n h
      unfold derFile at this
      rw [List.append_assoc]
      show (runTask w venv home .der run cfgName sched d (run ++ ["Derivative".toList, n, derName n w.probes])).isSome = true
      rw [this]
      rfl
  obtain ⟨t, ht, hl'⟩ := (reads_iff hsh run l).mpr (by
    intro n hmem
    have hnj := (hdirs n).mp hmem
    refine ⟨derName n w.probes, fun y => ?_, ?_⟩
    · constructor
      · rintro ⟨⟨r, h⟩, hy⟩
        rw [List.append_assoc] at h
        rcases der_files w hj hp hs h with h | ⟨m, hm, e⟩
        · exact absurd hy (hold _ _ _ h).2
        · obtain ⟨rfl, e2, _⟩ := derFile_inj e
          exact e2
      · rintro rfl
        refine ⟨⟨[], ?_⟩, derName_like _ _⟩
        have := res n hnj
        unfold derFile at this
        rw [List.append_assoc]
        show (runTask w venv home .der run cfgName sched d (run ++ ["Derivative".toList, n, derName n w.probes])).isSome = true
        rw [this]
        rfl
    · have := res n hnj
      unfold derFile at this
      rw [List.append_assoc]
      exact this)
  refine ⟨t, ht, fun n => ?_⟩
  rw [hl' n]
  by_cases h : n ∈ jobs
  · rw [if_pos h, if_pos ((hdirs n).mpr h)]
  · rw [if_neg h, if_neg (fun h' => h ((hdirs n).mp h'))]

theorem readDer_error {entries : Pth → List Str} {d : Disk K S C} {run : Pth} {n : Str} {e : FindErr}
    (h : getDerFile entries run n = .error e) : readDer entries d run n = .error e := by
  unfold readDer
  rw [h]

/-- C131. If the job of a parameter has failed and there are no derivatives from before in its directory, then no Fisher
matrix is computed without that parameter: there is an exception. -/
theorem missing_derivative (w : World K S C) (venv : Option Pth) (home : Pth) {run : Pth} {cfgName : Str}
    {jobs sched : List Str} (hr : AbsPlain run) (hc : PlainName cfgName) (hn : ∀ n ∈ jobs, PlainPart n)
    {d : Disk K S C} {c : Coll K} (hp : HasParams d run c) (hs : Complete jobs sched) {cfg : C}
    (hcfg : HasConfig d .der run cfgName cfg jobs) (hold : NoDerivs d run jobs)
    {n : Str} (hmem : n ∈ jobs) (hl : derOf w d run c n = none)
    {entries dirs : Pth → List Str} (hsh : Shows entries dirs (runTask w venv home .der run cfgName sched d)) :
    ∃ e, readDerivs entries dirs (runTask w venv home .der run cfgName sched d) run = .error e := by
  have hj := scripts_of venv home .der hr hc hn
  have hnone : d (derFile w run n) = none := by
    cases h : d (derFile w run n) with
    | none => rfl
    | some f =>
      have : (d (run ++ "Derivative".toList :: n :: derName n w.probes :: [])).isSome := by
        unfold derFile at h; rw [h]; rfl
      exact absurd (derName_like _ _) (hold _ _ _ this).2
  have res : runTask w venv home .der run cfgName sched d (derFile w run n) = none := by
    rw [derivative_results_partial w venv home hr hc hn hp hs hmem]
    unfold derOf at hl
    rw [hl]
    exact hnone
  have hcn : runTask w venv home .der run cfgName sched d (run ++ [Prog.der.dir, n, cfgName]) = some (.config cfg) := by
    have hpath : run ++ [Prog.der.dir, n, cfgName] = jobPath .der run n ++ [cfgName] := by
      unfold jobPath; rw [List.append_assoc]; rfl
    rw [runTask_after w hj hp hs hmem (hpath ▸ own_append _ _ _ _), ← hcfg n hmem]
    refine saved_other fun b r f h => ?_
    rw [(derStart_save h).2]
    intro e
    have e' : run ++ [Prog.der.dir, n, cfgName] = derFile w run n := by
      rw [e]
      show jobPath .der run n ++ _ = _
      unfold derFile jobPath
      rw [List.append_assoc]; rfl
    have := hcfg n hmem
    rw [e', hnone] at this
    cases this
  refine readAll_error (x := n) (readDer_error (e := .notUnique) (findFile_error hsh ?_)) ?_
  · rintro ⟨x, hx⟩
    obtain ⟨⟨r, h⟩, hy⟩ := (hx x).mpr rfl
    have h' : (runTask w venv home .der run cfgName sched d (run ++ "Derivative".toList :: n :: x :: r)).isSome := by
      rw [List.append_assoc] at h; exact h
    rcases der_files w hj hp hs h' with h2 | ⟨m, hm, e⟩
    · exact (hold _ _ _ h2).2 hy
    · obtain ⟨rfl, rfl, rfl⟩ := derFile_inj e
      have e3 : run ++ "Derivative".toList :: n :: [derName n w.probes] = derFile w run n := rfl
      rw [e3, res] at h'
      cases h'
  · refine (hsh.subdirs _ _).mpr ⟨cfgName, [], ?_⟩
    rw [List.append_assoc]
    have e4 : run ++ ([Prog.der.dir] ++ n :: cfgName :: []) = run ++ [Prog.der.dir, n, cfgName] := rfl
    rw [e4, hcn]
    rfl

/-- C131. If there are derivatives from before in the directory of a parameter under another name, as after a change of the
probes, then there is an exception once the new ones are written. -/
theorem other_name_stops (w : World K S C) (venv : Option Pth) (home : Pth) {run : Pth} {cfgName : Str}
    {jobs sched : List Str} (hr : AbsPlain run) (hc : PlainName cfgName) (hn : ∀ n ∈ jobs, PlainPart n)
    {d : Disk K S C} {c : Coll K} (hp : HasParams d run c) (hs : Complete jobs sched)
    {n : Str} (hmem : n ∈ jobs) {l : List ((Str × Str) × (List K × List K))} (hl : derOf w d run c n = some l)
    {old : Str} (hold : (d (run ++ ["Derivative".toList, n, old])).isSome) (hlike : DerLike old)
    (hne : old ≠ derName n w.probes)
    {entries dirs : Pth → List Str} (hsh : Shows entries dirs (runTask w venv home .der run cfgName sched d)) :
    ∃ e, readDerivs entries dirs (runTask w venv home .der run cfgName sched d) run = .error e := by
  have hj := scripts_of venv home .der hr hc hn
  have res : runTask w venv home .der run cfgName sched d (derFile w run n) = some (.ders l) := by
    rw [derivative_results_partial w venv home hr hc hn hp hs hmem]
    unfold derOf at hl
    rw [hl]
  have hkeep : runTask w venv home .der run cfgName sched d (run ++ ["Derivative".toList, n, old]) =
      d (run ++ ["Derivative".toList, n, old]) := by
    have hpath : run ++ ["Derivative".toList, n, old] = jobPath .der run n ++ [old] := by
      unfold jobPath; rw [List.append_assoc]; rfl
    rw [runTask_after w hj hp hs hmem (hpath ▸ own_append _ _ _ _)]
    refine saved_other fun b r f h => ?_
    rw [(derStart_save h).2, hpath]
    exact work_ne hne
  refine readAll_error (x := n) (readDer_error (e := .notUnique) (findFile_error hsh ?_)) ?_
  · rintro ⟨x, hx⟩
    have e1 := (hx old).mp ⟨⟨[], by
      rw [List.append_assoc]
      show (runTask w venv home .der run cfgName sched d (run ++ ["Derivative".toList, n, old])).isSome = true
      rw [hkeep]; exact hold⟩, hlike⟩
    have e2 := (hx (derName n w.probes)).mp ⟨⟨[], by
      rw [List.append_assoc]
      show (runTask w venv home .der run cfgName sched d (derFile w run n)).isSome = true
      rw [res]; rfl⟩, derName_like _ _⟩
    exact hne (e1.trans e2.symm)
  · refine (hsh.subdirs _ _).mpr ⟨derName n w.probes, [], ?_⟩
    rw [List.append_assoc]
    have e4 : run ++ ([Prog.der.dir] ++ n :: derName n w.probes :: []) = derFile w run n := rfl
    rw [e4, res]
    rfl

/-- C131. But if the job of a parameter fails while there are derivatives from before under the same name, these are used,
and nothing tells them from new ones. -/
theorem stale_derivative (w : World K S C) (venv : Option Pth) (home : Pth) {run : Pth} {cfgName : Str}
    {jobs sched : List Str} (hr : AbsPlain run) (hc : PlainName cfgName) (hn : ∀ n ∈ jobs, PlainPart n)
    {d : Disk K S C} {c : Coll K} (hp : HasParams d run c) (hs : Complete jobs sched)
    {n : Str} (hmem : n ∈ jobs) (hl : derOf w d run c n = none) {old : List ((Str × Str) × (List K × List K))}
    (hd : d (run ++ ["Derivative".toList, n, derName n w.probes]) = some (.ders old))
    (honly : ∀ x r, (d (run ++ "Derivative".toList :: n :: x :: r)).isSome → DerLike x → x = derName n w.probes)
    {entries dirs : Pth → List Str} (hsh : Shows entries dirs (runTask w venv home .der run cfgName sched d)) :
    readDer entries (runTask w venv home .der run cfgName sched d) run n = .ok old := by
  have hj := scripts_of venv home .der hr hc hn
  have res : runTask w venv home .der run cfgName sched d (derFile w run n) = some (.ders old) := by
    rw [derivative_results_partial w venv home hr hc hn hp hs hmem]
    unfold derOf at hl
    rw [hl]
    exact hd
  have hf : getDerFile entries run n = .ok (derFile w run n) := by
    refine (findFile_iff hsh _ _ _ _).mpr ⟨derName n w.probes, by unfold derFile; rw [List.append_assoc]; rfl, fun y => ?_⟩
    constructor
    · rintro ⟨⟨r, h⟩, hy⟩
      rw [List.append_assoc] at h
      rcases der_files w hj hp hs h with h | ⟨m, hm, e⟩
      · exact honly _ _ h hy
      · obtain ⟨rfl, e2, _⟩ := derFile_inj e
        exact e2
    · rintro rfl
      refine ⟨⟨[], ?_⟩, derName_like _ _⟩
      rw [List.append_assoc]
      show (runTask w venv home .der run cfgName sched d (derFile w run n)).isSome = true
      rw [res]; rfl
  unfold readDer
  rw [hf]
  simp only
  rw [res]

/-! ### Spectra -/

/-- What is in the directories of the spectra after their jobs. -/
theorem cls_files (w : World K S C) {venv : Option Pth} {home : Pth} {run : Pth} {cfgName : Str} {jobs sched : List Str}
    (hj : Scripts venv home .cls run cfgName jobs) {d : Disk K S C} {c : Coll K} (hp : HasParams d run c)
    (hs : Complete jobs sched) {n : Str} (hn : n ∈ jobs) {q : Pth} (ho : Own .cls run n q)
    (hq : (runTask w venv home .cls run cfgName sched d q).isSome) :
    (d q).isSome ∨ q = jobPath .cls run n ++ ["params.json".toList] ∨ q = jobPath .cls run n ++ [clName w.probes] := by
  rw [runTask_after w hj hp hs hn ho] at hq
  by_cases e1 : q = jobPath .cls run n ++ ["params.json".toList]
  · exact Or.inr (Or.inl e1)
  by_cases e2 : q = jobPath .cls run n ++ [clName w.probes]
  · exact Or.inr (Or.inr e2)
  left
  generalize ha : argsFor Prog.cls run cfgName n = a at hq
  have hw : a.work = jobPath .cls run n := by rw [← ha]; rfl
  obtain ⟨l, d1, hl⟩ : ∃ l d1, clsStart a d = (l, d1) := ⟨_, _, rfl⟩
  unfold after at hq
  simp only [hl] at hq
  rcases clsStart_eq a hl with ⟨rfl, rfl⟩ | ⟨c', u, s, g, rfl, rfl⟩
  · exact hq
  · simp only at hq
    rw [saved_other (fun b r f h => by rw [(clsGo_save h).2, hw]; exact e2), write_other _ _ (by rw [hw]; exact e1)] at hq
    exact hq

/-- C131. Whatever the order of the steps of the jobs of the spectra: the spectra that are read for a parameter and a step,
so the fiducial ones of the covariance, are those which the job named after them has computed, and there is an exception if
that job has failed. (For directories without files of spectra before.) -/
theorem spectra_found_partial (w : World K S C) (venv : Option Pth) (home : Pth) {run : Pth} {cfgName : Str}
    {jobs sched : List Str} (hr : AbsPlain run) (hc : PlainName cfgName) (hn : ∀ n ∈ jobs, PlainPart n)
    {d : Disk K S C} {c : Coll K} (hp : HasParams d run c) (hs : Complete jobs sched) {cfg : C}
    (hcfg : HasConfig d .cls run cfgName cfg jobs) {v : Str × Int} (hv : Names.jobDir v.1 v.2 ∈ jobs)
    (hg : Names.GoodName v.1) (h9 : v.2.natAbs ≤ 9)
    (hold : ∀ x r, (d (run ++ "Angular".toList :: Names.jobDir v.1 v.2 :: x :: r)).isSome → ¬ ClLike x) {dens : File K S C}
    (hd : d (run ++ ["norm_densities.hdf5".toList]) = some dens) {store : Store K S}
    (hst : Holds d run store [v, (central, 0)])
    {entries dirs : Pth → List Str} (hsh : Shows entries dirs (runTask w venv home .cls run cfgName sched d)) :
    readCls entries (runTask w venv home .cls run cfgName sched d) run v =
      match got (ClDer.clJob (w.th cfg dens) store c (Names.jobDir v.1 v.2)) with
      | some cls => .ok cls
      | none => .error .notUnique := by
  have hj := scripts_of venv home .cls hr hc hn
  have hnone : d (clFile w run v) = none := by
    cases h : d (clFile w run v) with
    | none => rfl
    | some f =>
      have : (d (run ++ "Angular".toList :: Names.jobDir v.1 v.2 :: clName w.probes :: [])).isSome := by
        unfold clFile at h; rw [h]; rfl
      exact absurd (clName_like _) (hold _ _ this)
  have res := (spectra_results_partial w venv home hr hc hn hp hs hcfg hv hg h9 hnone hd hst).1
  have only : ∀ y r, (runTask w venv home .cls run cfgName sched d
      (run ++ ["Angular".toList, Names.jobDir v.1 v.2] ++ y :: r)).isSome → ClLike y →
      y = clName w.probes ∧ r = [] := by
    intro y r h hy
    have hpath : run ++ ["Angular".toList, Names.jobDir v.1 v.2] ++ y :: r = jobPath .cls run (Names.jobDir v.1 v.2) ++ y :: r := rfl
    rw [hpath] at h
    rcases cls_files w hj hp hs hv (own_append _ _ _ _) h with h | e | e
    · rw [← hpath, List.append_assoc] at h
      exact absurd hy (hold _ _ h)
    · have := List.append_cancel_left e
      simp only [List.cons.injEq] at this
      obtain ⟨m, hm⟩ := hy
      rw [this.1] at hm
      have h1 : "cl".toList = 'c' :: "l".toList := by decide
      have h2 : "params.json".toList = 'p' :: "arams.json".toList := by decide
      rw [h1, h2, List.cons_append, List.cons_append] at hm
      exact absurd (List.cons.inj hm).1 (by decide)
    · have := List.append_cancel_left e
      simp only [List.cons.injEq] at this
      exact this
  have hfile : clFile w run v = run ++ ["Angular".toList, Names.jobDir v.1 v.2] ++ [clName w.probes] := by
    unfold clFile; rw [List.append_assoc]; rfl
  cases hcl : got (ClDer.clJob (w.th cfg dens) store c (Names.jobDir v.1 v.2)) with
  | none =>
    rw [hcl] at res
    simp only
    have : getClFile entries run v = .error .notUnique := by
      refine findFile_error hsh ?_
      rintro ⟨x, hx⟩
      obtain ⟨⟨r, h⟩, hy⟩ := (hx x).mpr rfl
      obtain ⟨rfl, rfl⟩ := only x r h hy
      have h' : (runTask w venv home .cls run cfgName sched d (clFile w run v)).isSome := by rw [hfile]; exact h
      rw [res] at h'
      cases h'
    unfold readCls
    rw [this]
  | some cls =>
    rw [hcl] at res
    simp only
    have : getClFile entries run v = .ok (clFile w run v) := by
      refine (findFile_iff hsh _ _ _ _).mpr ⟨clName w.probes, hfile, fun y => ⟨?_, ?_⟩⟩
      · rintro ⟨⟨r, h⟩, hy⟩
        exact (only y r h hy).1
      · rintro rfl
        refine ⟨⟨[], ?_⟩, clName_like _⟩
        show (runTask w venv home .cls run cfgName sched d
          (run ++ ["Angular".toList, Names.jobDir v.1 v.2] ++ [clName w.probes])).isSome = true
        rw [← hfile, res]
        rfl
    unfold readCls
    rw [this]
    simp only
    rw [res]
    rfl

/-! ### A run -/

theorem fill_some (p : Prog) (run : Pth) (cfgName : Str) (cfg : C) {q : Pth} (ns : List Str) :
    ∀ d : Disk K S C, (fill p run cfgName cfg d ns q).isSome → (d q).isSome ∨ ∃ n ∈ ns, q = jobPath p run n ++ [cfgName] := by
  induction ns with
  | nil => intro d h; exact Or.inl h
  | cons m l ih =>
    intro d h
    unfold fill at h
    rcases ih _ h with h | ⟨n, hn, e⟩
    · by_cases e : q = jobPath p run m ++ [cfgName]
      · exact Or.inr ⟨m, List.mem_cons_self, e⟩
      · rw [write_other _ _ e] at h; exact Or.inl h
    · exact Or.inr ⟨n, List.mem_cons_of_mem _ hn, e⟩

variable [IsStrictOrderedRing K]

/-- C131. A whole run from its configurations to the inputs of the Fisher matrices, with the jobs of each task in any order
and mixed with each other in any way: if no computation fails, the Fisher matrices are computed with the derivatives of
exactly the free parameters, and those of each parameter are the slopes of the fits through the spectra for its displaced
values. (For at most nine steps, names of letters and digits, the fit as method for all parameters, and a run directory
without old results.) -/
theorem run_to_fisher_partial (w : World K S C) (venv : Option Pth) (home : Pth) {run : Pth} (hr : AbsPlain run)
    (cfgs : Cfg C) (hc : ∀ p, PlainName (cfgs p).1) (hc1 : (cfgs .pmm).1 ≠ "p_mm.h5".toList)
    (hc2 : (cfgs .cls).1 ≠ clName w.probes) (hc3 : ¬ DerLike (cfgs .der).1) {c₀ : Coll K} {base : List K} {par : Str → Par K}
    (hset : ∀ x ∈ jobNames (Param.loadStem c₀ base) .der, ClDer.Setting c₀ base x (par x) ∧ (par x).method = Names.stem)
    (hsome : jobNames (Param.loadStem c₀ base) .der ≠ [])
    (h0 : 0 < base.length) (h9 : base.length ≤ 9) {d : Disk K S C}
    (hp : HasParams d run (Param.loadStem c₀ base)) {dens : File K S C}
    (hdens : d (run ++ ["norm_densities.hdf5".toList]) = some dens)
    (hold : ∀ p : Prog, ∀ q, run ++ [p.dir] <+: q → d q = none)
    {pw : Str × Int → Cosmo K S} {sp : Str → Int → Cls K} (hok : Computes w cfgs dens (Param.loadStem c₀ base) pw sp)
    (hdirs : w.dirs.Perm (jobNames (Param.loadStem c₀ base) .cls)) {m : Str × Str → Nat}
    (hm1 : ∀ x ∈ jobNames (Param.loadStem c₀ base) .der, ∀ key ∈ w.combos, 0 < m key ∧
      ClDer.Entries sp x base.length key (m key)) {sched : Prog → List Str}
    (hs : ∀ p, Complete (jobNames (Param.loadStem c₀ base) p) (sched p)) {entries dirs : Pth → List Str}
    (hsh : Shows entries dirs (forecast w venv home run cfgs (jobNames (Param.loadStem c₀ base)) sched d)) :
    ∃ t, readDerivs entries dirs (forecast w venv home run cfgs (jobNames (Param.loadStem c₀ base)) sched d) run = .ok t ∧
      ∀ x, t.lookup x = if x ∈ jobNames (Param.loadStem c₀ base) .der then
        some (w.combos.map fun key => (key, slopes base (par x) sp x (m key) key)) else none := by
  have res : ∀ x ∈ jobNames (Param.loadStem c₀ base) .der,
      forecast w venv home run cfgs (jobNames (Param.loadStem c₀ base)) sched d (derFile w run x) =
        some (.ders (w.combos.map fun key => (key, slopes base (par x) sp x (m key) key))) := fun x hx =>
    pipeline_partial w venv home hr cfgs hc hc1 hc2 (hset x hx).1 h0 h9 (hset x hx).2 hp hdens
      (fun q hq => hq.elim (hold .pmm q) (hold .cls q)) hok hdirs (hm1 x hx) hs
  obtain ⟨x₀, hx₀⟩ := List.exists_mem_of_ne_nil _ hsome
  have hs0 := (hset x₀ hx₀).1
  obtain ⟨_, g2, _, g4, _⟩ := Param.loaded c₀ hs0.pos
  generalize hcc : Param.loadStem c₀ base = c at *
  have plain : ∀ p, ∀ n ∈ jobNames c p, PlainPart n := by
    have cgood : Names.GoodName central := ⟨by decide, by decide⟩
    have good : ∀ l : List (Str × Par K), (∀ q ∈ l, q ∈ c.pars) → ∀ st,
        ∀ v ∈ (central, 0) :: Names.variations l st, Names.GoodName v.1 := by
      intro l hl st v hv
      rcases List.mem_cons.mp hv with rfl | hv
      · exact cgood
      · obtain ⟨_, q, h2, _⟩ := (Names.mem_variations _ _ v.1 v.2).mp hv
        exact hs0.good (v.1, q) (by rw [← g4]; exact hl _ h2)
    have free : ∀ q ∈ Param.freePars c, q ∈ c.pars := fun q hq => by
      unfold Param.freePars at hq; exact (List.mem_filter.mp hq).1
    intro p n hn
    cases p with
    | pmm =>
      obtain ⟨v, hv, rfl⟩ := List.mem_map.mp hn
      refine jobDir_plain (good (Param.freeCosmo c) (fun q hq => ?_) (stepNumbers base.length) v ?_) _
      · unfold Param.freeCosmo at hq; exact (List.mem_filter.mp (List.mem_filter.mp hq).1).1
      · unfold Names.powerJobs at hv; rw [g2] at hv; exact hv
    | cls =>
      obtain ⟨v, hv, rfl⟩ := List.mem_map.mp hn
      refine jobDir_plain (good (Param.freePars c) free (stepNumbers base.length) v ?_) _
      unfold Names.angularJobs at hv; rw [g2] at hv; exact hv
    | der =>
      obtain ⟨q, hq, rfl⟩ := List.mem_map.mp hn
      exact param_plain (hs0.good q (by rw [← g4]; exact free q hq))
  have scripts : ∀ p, Scripts venv home p run (cfgs p).1 (jobNames c p) := fun p =>
    scripts_of venv home p hr (hc p) (plain p)
  have far : ∀ {p q : Prog} {x : Pth}, p ≠ q → Shared p run (run ++ q.dir :: x) := fun h =>
    shared_of_first (dir_cases _ _ h.symm)
  obtain ⟨d0, hd0⟩ : ∃ d0, d0 = prepare run cfgs (jobNames c) d := ⟨_, rfl⟩
  have keep0 : ∀ x l, (∀ p : Prog, x ≠ p.dir) → d0 (run ++ x :: l) = d (run ++ x :: l) := by
    intro x l hx
    rw [hd0]
    unfold prepare
    rw [fill_other _ _ _ _ _ (shared_not_fill (shared_of_first (hx .der)) _),
      fill_other _ _ _ _ _ (shared_not_fill (shared_of_first (hx .cls)) _),
      fill_other _ _ _ _ _ (shared_not_fill (shared_of_first (hx .pmm)) _)]
  have hp0 : HasParams d0 run c := by
    obtain ⟨l, a1, a2, a3⟩ := hp
    exact ⟨l, by rw [keep0 _ _ fun p => (input_not_dir p).1]; exact a1, a2,
      by rw [keep0 _ _ fun p => (input_not_dir p).2.1]; exact a3⟩
  obtain ⟨d1, hd1⟩ : ∃ d1, d1 = runTask w venv home .pmm run (cfgs .pmm).1 (sched .pmm) d0 := ⟨_, rfl⟩
  have sh1 : ∀ q, Shared .pmm run q → d1 q = d0 q := fun q hq => by
    rw [hd1]; exact runTask_shared w (scripts .pmm) hp0 (hs .pmm).1 hq
  have hp1 := hp0.mono sh1
  obtain ⟨d2, hd2⟩ : ∃ d2, d2 = runTask w venv home .cls run (cfgs .cls).1 (sched .cls) d1 := ⟨_, rfl⟩
  have sh2 : ∀ q, Shared .cls run q → d2 q = d1 q := fun q hq => by
    rw [hd2]; exact runTask_shared w (scripts .cls) hp1 (hs .cls).1 hq
  have hp2 := hp1.mono sh2
  have hF : forecast w venv home run cfgs (jobNames c) sched d =
      runTask w venv home .der run (cfgs .der).1 (sched .der) d2 := by
    unfold forecast
    rw [← hd0, ← hd1, ← hd2]
  -- the files of the derivatives
  have files : ∀ n x r, (forecast w venv home run cfgs (jobNames c) sched d (run ++ "Derivative".toList :: n :: x :: r)).isSome →
      n ∈ jobNames c .der ∧ (DerLike x → x = derName n w.probes) := by
    intro n x r h
    rw [hF] at h
    rcases der_files w (scripts .der) hp2 (hs .der) h with h | ⟨k, hk, e⟩
    · have e2 : d2 (run ++ "Derivative".toList :: n :: x :: r) = d0 (run ++ "Derivative".toList :: n :: x :: r) := by
        have hq : run ++ "Derivative".toList :: n :: x :: r = run ++ Prog.der.dir :: n :: x :: r := rfl
        rw [hq, sh2 _ (far (p := .cls) (q := .der) (by decide)), sh1 _ (far (p := .pmm) (q := .der) (by decide))]
      rw [e2, hd0] at h
      unfold prepare at h
      rcases fill_some _ _ _ _ _ _ h with h | ⟨k, hk, e⟩
      · exfalso
        have hq : run ++ "Derivative".toList :: n :: x :: r = run ++ Prog.der.dir :: n :: x :: r := rfl
        rw [hq, fill_other _ _ _ _ _ (shared_not_fill (far (p := .cls) (q := .der) (by decide)) _),
          fill_other _ _ _ _ _ (shared_not_fill (far (p := .pmm) (q := .der) (by decide)) _),
          hold .der _ ⟨n :: x :: r, by rw [List.append_assoc]; rfl⟩] at h
        cases h
      · unfold jobPath at e
        rw [List.append_assoc] at e
        have := List.append_cancel_left e
        simp only [List.cons_append, List.nil_append, List.cons.injEq] at this
        obtain ⟨_, rfl, rfl, _⟩ := this
        exact ⟨hk, fun hx => absurd hx hc3⟩
    · obtain ⟨rfl, e2, _⟩ := derFile_inj e
      exact ⟨hk, fun _ => e2⟩
  have there : ∀ n ∈ jobNames c .der, forecast w venv home run cfgs (jobNames c) sched d
      (run ++ ["Derivative".toList, n] ++ [derName n w.probes]) =
        some (.ders (w.combos.map fun key => (key, slopes base (par n) sp n (m key) key))) := by
    intro n hn
    rw [List.append_assoc]
    exact res n hn
  have hd : ∀ n, n ∈ dirs (run ++ ["Derivative".toList]) ↔ n ∈ jobNames c .der := by
    intro n
    rw [hsh.subdirs]
    constructor
    · rintro ⟨x, r, h⟩
      rw [List.append_assoc] at h
      exact (files n x r h).1
    · intro hn
      refine ⟨derName n w.probes, [], ?_⟩
      have := there n hn
      rw [List.append_assoc] at this
      rw [List.append_assoc]
      show (forecast w venv home run cfgs (jobNames c) sched d
        (run ++ (["Derivative".toList, n] ++ [derName n w.probes]))).isSome = true
      rw [this]
      rfl
  obtain ⟨t, ht, hl⟩ := (reads_iff hsh run
      (fun n => w.combos.map fun key => (key, slopes base (par n) sp n (m key) key))).mpr (by
    intro n hn
    have hn' := (hd n).mp hn
    refine ⟨derName n w.probes, fun y => ⟨?_, ?_⟩, there n hn'⟩
    · rintro ⟨⟨r, h⟩, hy⟩
      rw [List.append_assoc] at h
      exact (files n y r h).2 hy
    · rintro rfl
      exact ⟨⟨[], by rw [there n hn']; rfl⟩, derName_like _ _⟩)
  refine ⟨t, ht, fun n => ?_⟩
  rw [hl n]
  by_cases h : n ∈ jobNames c .der
  · rw [if_pos h, if_pos ((hd n).mpr h)]
  · rw [if_neg h, if_neg (fun h' => h ((hd n).mp h'))]

/-! ### Listings -/

/-- There are finitely many files. -/
def Few (d : Disk K S C) : Prop := ∃ qs : List Pth, ∀ q, (d q).isSome → q ∈ qs

/-- The first name of a path below a directory, and whether it is that of a directory. -/
def below : Pth → Pth → Option (Str × Pth)
  | [], [] => none
  | [], x :: r => some (x, r)
  | _ :: _, [] => none
  | a :: p, b :: q => if a = b then below p q else none

theorem below_iff (p q : Pth) (x : Str) (r : Pth) : below p q = some (x, r) ↔ q = p ++ x :: r := by
  induction p generalizing q with
  | nil => cases q with
    | nil => exact ⟨nofun, nofun⟩
    | cons y s => simp [below]
  | cons a p ih => cases q with
    | nil => exact ⟨nofun, nofun⟩
    | cons b q =>
      unfold below
      by_cases e : a = b
      · rw [if_pos e, ih q, e]; simp
      · rw [if_neg e]
        refine ⟨nofun, fun h => ?_⟩
        exact absurd (List.cons.inj h).1.symm e

/-- Finitely many files can be listed. -/
theorem listing {d : Disk K S C} (h : Few d) : ∃ entries dirs, Shows entries dirs d := by
  obtain ⟨qs, hq⟩ := h
  refine ⟨fun p => ((qs.filter fun q => (d q).isSome).filterMap fun q => (below p q).map (·.1)).dedup,
    fun p => ((qs.filter fun q => (d q).isSome).filterMap fun q => match below p q with
      | some (x, _ :: _) => some x
      | _ => none).dedup, fun p => List.nodup_dedup _, fun p => List.nodup_dedup _, fun p n => ?_, fun p n => ?_⟩
  · rw [List.mem_dedup, List.mem_filterMap]
    constructor
    · rintro ⟨q, h1, h2⟩
      obtain ⟨⟨x, r⟩, h3, rfl⟩ := Option.map_eq_some_iff.mp h2
      have := (below_iff _ _ _ _).mp h3
      subst this
      exact ⟨r, by simpa using (List.mem_filter.mp h1).2⟩
    · rintro ⟨r, hr⟩
      exact ⟨_, List.mem_filter.mpr ⟨hq _ hr, by simpa using hr⟩, by rw [(below_iff p _ n r).mpr rfl]; rfl⟩
  · rw [List.mem_dedup, List.mem_filterMap]
    constructor
    · rintro ⟨q, h1, h2⟩
      split at h2
      · next x y r heq =>
        cases h2
        have := (below_iff _ _ _ _).mp heq
        subst this
        exact ⟨_, _, by simpa using (List.mem_filter.mp h1).2⟩
      · cases h2
    · rintro ⟨x, r, hr⟩
      exact ⟨_, List.mem_filter.mpr ⟨hq _ hr, by simpa using hr⟩, by rw [(below_iff p _ n (x :: r)).mpr rfl]⟩

theorem Few.write {d : Disk K S C} (h : Few d) (p : Pth) (f : File K S C) : Few (write d p f) := by
  obtain ⟨qs, hq⟩ := h
  refine ⟨p :: qs, fun q hs => ?_⟩
  by_cases e : q = p
  · rw [e]; exact List.mem_cons_self
  · rw [write_other _ _ e] at hs; exact List.mem_cons_of_mem _ (hq q hs)

theorem Few.fill {p : Prog} {run : Pth} {cfgName : Str} {cfg : C} (ns : List Str) :
    ∀ {d : Disk K S C}, Few d → Few (fill p run cfgName cfg d ns) := by
  induction ns with
  | nil => intro d h; exact h
  | cons m l ih => intro d h; unfold Job.fill; exact ih (h.write _ _)

theorem Few.next {w : World K S C} {p : Prog} {a : Args} {l : Phase K S C} {d : Disk K S C} (h : Few d) :
    Few (next w p a l d).2 := by
  cases l with
  | start => cases p with
    | pmm => exact h
    | der => exact h
    | cls =>
      show Few (clsStart a d).2
      rcases clsStart_eq a (d1 := (clsStart a d).2) rfl with ⟨_, e⟩ | ⟨_, _, _, _, _, e⟩
      · rw [e]; exact h
      · rw [e]; exact h.write _ _
  | spectra c v s g => exact h
  | done => exact h
  | failed => exact h
  | save b q f => cases b with
    | false => exact h.write _ _
    | true =>
      show Few (if (d q).isSome then (Phase.failed, d) else (Phase.done, Job.write d q f)).2
      split
      · exact h
      · exact h.write _ _

theorem Few.runTask {w : World K S C} {venv : Option Pth} {home : Pth} {p : Prog} {run : Pth} {cfgName : Str}
    {sched : List Str} {d : Disk K S C} (h : Few d) : Few (runTask w venv home p run cfgName sched d) := by
  unfold Job.runTask exec
  have : ∀ st : State K S C, Few st.disk → Few (sched.foldl (turn w (jobOf venv home p run cfgName)) st).disk := by
    induction sched with
    | nil => intro st h; exact h
    | cons n s ih =>
      intro st h
      refine ih _ ?_
      unfold turn
      split
      · exact h
      · exact h.next
  exact this _ h

theorem exFew : Few exDisk := by
  refine ⟨[exRun ++ ["input_files_dict.json".toList], exRun ++ ["input_files_dir".toList, "params.json".toList],
    exRun ++ ["norm_densities.hdf5".toList]], fun q h => ?_⟩
  unfold exDisk at h
  by_cases h1 : q = exRun ++ ["input_files_dict.json".toList]
  · rw [h1]; exact List.mem_cons_self
  by_cases h2 : q = exRun ++ ["input_files_dir".toList, "params.json".toList]
  · rw [h2]; exact List.mem_cons_of_mem _ List.mem_cons_self
  by_cases h3 : q = exRun ++ ["norm_densities.hdf5".toList]
  · rw [h3]; exact List.mem_cons_of_mem _ (List.mem_cons_of_mem _ List.mem_cons_self)
  · rw [if_neg h1, if_neg h2, if_neg h3] at h; cases h

theorem exOld3 (p : Prog) (q : Pth) (h : exRun ++ [p.dir] <+: q) : exDisk q = none := by
  have hn : ∀ x l, x ≠ p.dir → ¬ (exRun ++ [p.dir] <+: exRun ++ x :: l) := fun x l hx => shared_of_first hx
  unfold exDisk
  rw [if_neg, if_neg, if_neg]
  · rintro rfl; exact hn _ _ (input_not_dir p).2.2 h
  · rintro rfl; exact hn _ _ (input_not_dir p).2.1 h
  · rintro rfl; exact hn _ _ (input_not_dir p).1 h

/-- The run with one parameter, all its jobs mixed in rounds: its files can be listed, and the derivatives with which the
Fisher matrices are computed are those of `h`. -/
example : ∃ entries dirs, Shows entries dirs (forecast exWorld none [[], "home".toList] exRun exCfg (jobNames exColl)
      (fun p => jobNames exColl p ++ (jobNames exColl p).reverse ++ jobNames exColl p) exDisk) ∧
    ∃ t, readDerivs entries dirs (forecast exWorld none [[], "home".toList] exRun exCfg (jobNames exColl)
      (fun p => jobNames exColl p ++ (jobNames exColl p).reverse ++ jobNames exColl p) exDisk) exRun = .ok t ∧
    t.lookup "h".toList = some [(ClDer.hKey, ([1], [2 * (67 / 100)]))] ∧ t.lookup "w0".toList = none := by
  have hfew : Few (forecast exWorld none [[], "home".toList] exRun exCfg (jobNames exColl)
      (fun p => jobNames exColl p ++ (jobNames exColl p).reverse ++ jobNames exColl p) exDisk) := by
    unfold forecast prepare
    exact (((((exFew.fill _).fill _).fill _).runTask).runTask).runTask
  obtain ⟨entries, dirs, hsh⟩ := listing hfew
  have hnames : jobNames exColl .der = ["h".toList] := by decide +kernel
  refine (fun key => ?_ : (∃ t, _) → _) (run_to_fisher_partial exWorld none [[], "home".toList] exRun_plain exCfg exCfg_plain
    (by decide +kernel) (by decide +kernel) ?_ (c₀ := ClDer.hColl) (base := ClDer.hBase) (par := fun _ => ClDer.hPar) ?_ ?_
    (by decide) (by decide) exParams (dens := .other "densities".toList) ?_ exOld3 exComputes (List.reverse_perm _)
    (m := fun _ => 1) ?_ ?_ hsh)
  · obtain ⟨t, ht, hl⟩ := key
    refine ⟨entries, dirs, hsh, t, ht, ?_, ?_⟩
    · rw [hl, if_pos (by
        have : "h".toList ∈ jobNames exColl .der := by rw [hnames]; exact List.mem_cons_self
        exact this)]
      decide +kernel
    · rw [hl, if_neg (by
        have : "w0".toList ∉ jobNames exColl .der := by rw [hnames]; decide
        exact this)]
  · intro h
    have := (Compare.glob_iff _ _ _).mpr h
    exact absurd this (by decide +kernel)
  · intro x hx
    have hx' : x ∈ jobNames exColl .der := hx
    rw [hnames] at hx'
    rw [List.mem_singleton.mp hx']
    exact ⟨ClDer.hSetting, rfl⟩
  · show jobNames exColl .der ≠ []
    rw [hnames]
    exact List.cons_ne_nil _ _
  · unfold exDisk
    rw [if_neg (by decide +kernel), if_neg (by decide +kernel), if_pos rfl]
  · intro x hx key hk
    have hx' : x ∈ jobNames exColl .der := hx
    rw [hnames] at hx'
    rw [List.mem_singleton.mp hx']
    have : key ∈ [ClDer.hKey] := hk
    rw [List.mem_singleton.mp this]
    exact ⟨by decide, exEntries⟩
  · intro p
    show Complete (jobNames exColl p) _
    refine ⟨fun n hn => ?_, fun n hn => ?_⟩
    · simpa using hn
    · rw [List.count_append, List.count_append, List.count_reverse]
      have := List.count_pos_iff.mpr hn
      omega

/-- The run directory with the directories of the jobs, before any job. -/
def exPrep : Disk ℚ Unit Nat := prepare exRun exCfg (jobNames exColl) exDisk

theorem exPrep_params : HasParams exPrep exRun exColl := by
  obtain ⟨l, a1, a2, a3⟩ := exParams
  have keep : ∀ x l, (∀ p : Prog, x ≠ p.dir) → exPrep (exRun ++ x :: l) = exDisk (exRun ++ x :: l) := by
    intro x l hx
    unfold exPrep prepare
    rw [fill_other _ _ _ _ _ (shared_not_fill (shared_of_first (hx .der)) _),
      fill_other _ _ _ _ _ (shared_not_fill (shared_of_first (hx .cls)) _),
      fill_other _ _ _ _ _ (shared_not_fill (shared_of_first (hx .pmm)) _)]
  exact ⟨l, by rw [keep _ _ fun p => (input_not_dir p).1]; exact a1, a2,
    by rw [keep _ _ fun p => (input_not_dir p).2.1]; exact a3⟩

theorem exPrep_few : Few exPrep := by
  unfold exPrep prepare
  exact ((exFew.fill _).fill _).fill _

theorem exNames : jobNames exColl .der = ["h".toList] := by decide +kernel

theorem exPrep_files {n x : Str} {r : Pth} (h : (exPrep (exRun ++ "Derivative".toList :: n :: x :: r)).isSome) :
    n ∈ ["h".toList] ∧ x = "config.json".toList := by
  have far : ∀ {p : Prog}, p ≠ .der → Shared p exRun (exRun ++ Prog.der.dir :: n :: x :: r) := fun h =>
    shared_of_first (dir_cases _ _ h.symm)
  unfold exPrep prepare at h
  rcases fill_some _ _ _ _ _ _ h with h | ⟨k, hk, e⟩
  · exfalso
    have hq : exRun ++ "Derivative".toList :: n :: x :: r = exRun ++ Prog.der.dir :: n :: x :: r := rfl
    rw [hq, fill_other _ _ _ _ _ (shared_not_fill (far (p := .cls) (by decide)) _),
      fill_other _ _ _ _ _ (shared_not_fill (far (p := .pmm) (by decide)) _),
      exOld3 .der _ ⟨n :: x :: r, by rw [List.append_assoc]; rfl⟩] at h
    cases h
  · unfold jobPath at e
    rw [List.append_assoc] at e
    have := List.append_cancel_left e
    simp only [List.cons_append, List.nil_append, List.cons.injEq] at this
    obtain ⟨_, rfl, rfl, _⟩ := this
    rw [exNames] at hk
    exact ⟨hk, rfl⟩

theorem exConfig_like : ¬ DerLike "config.json".toList := by
  intro h
  have := (Compare.glob_iff _ _ _).mpr h
  exact absurd this (by decide +kernel)

theorem exH_plain : ∀ n ∈ ["h".toList], PlainPart n := by
  intro n hn
  rw [List.mem_singleton.mp hn]
  exact ⟨by decide, by decide, by decide +kernel, by decide +kernel⟩

theorem exComplete : Complete ["h".toList] (List.replicate 3 "h".toList) := ⟨by decide, by decide⟩

/-- Without spectra the job of the derivatives fails, and so does the computation of the Fisher matrices. -/
example : ∃ entries dirs, Shows entries dirs (runTask exWorld none [] .der exRun "config.json".toList
      (List.replicate 3 "h".toList) exPrep) ∧
    ∃ e, readDerivs entries dirs (runTask exWorld none [] .der exRun "config.json".toList
      (List.replicate 3 "h".toList) exPrep) exRun = .error e := by
  obtain ⟨entries, dirs, hsh⟩ := listing (exPrep_few.runTask (w := exWorld) (venv := none) (home := []) (p := .der)
    (run := exRun) (cfgName := "config.json".toList) (sched := List.replicate 3 "h".toList))
  refine ⟨entries, dirs, hsh, missing_derivative exWorld none [] exRun_plain (exCfg_plain .der) exH_plain exPrep_params
    exComplete (cfg := 3) ?_ ?_ (n := "h".toList) List.mem_cons_self (by decide +kernel) hsh⟩
  · intro n hn
    have e : exRun ++ [Prog.der.dir, n, (exCfg .der).1] = jobPath .der exRun n ++ [(exCfg .der).1] := by
      unfold jobPath; rw [List.append_assoc]; rfl
    rw [e]
    unfold exPrep prepare
    exact fill_at _ _ _ _ _ _ _ (Or.inl (by rw [exNames]; exact hn))
  · intro n x r h
    obtain ⟨h1, rfl⟩ := exPrep_files h
    exact ⟨h1, exConfig_like⟩

theorem exPrep_write (q : Pth) (f : File ℚ Unit Nat) (hq : Own .der exRun "h".toList q) :
    HasParams (write exPrep q f) exRun exColl :=
  exPrep_params.mono (p := .der) fun r hr => write_other _ _ (by rintro rfl; exact own_not_shared hq hr)

/-- Derivatives from before under the same name are used when the job fails. -/
example (old : List ((Str × Str) × (List ℚ × List ℚ))) : ∃ entries dirs,
    Shows entries dirs (runTask exWorld none [] .der exRun "config.json".toList (List.replicate 3 "h".toList)
      (write exPrep (derFile exWorld exRun "h".toList) (.ders old))) ∧
    readDer entries (runTask exWorld none [] .der exRun "config.json".toList (List.replicate 3 "h".toList)
      (write exPrep (derFile exWorld exRun "h".toList) (.ders old))) exRun "h".toList = .ok old := by
  have hpath : derFile exWorld exRun "h".toList = jobPath .der exRun "h".toList ++ [derName "h".toList exWorld.probes] := by
    unfold derFile jobPath; rw [List.append_assoc]; rfl
  obtain ⟨entries, dirs, hsh⟩ := listing ((exPrep_few.write (derFile exWorld exRun "h".toList) (.ders old)).runTask
    (w := exWorld) (venv := none) (home := []) (p := .der)
    (run := exRun) (cfgName := "config.json".toList) (sched := List.replicate 3 "h".toList))
  refine ⟨entries, dirs, hsh, stale_derivative exWorld none [] exRun_plain (exCfg_plain .der) exH_plain
    (exPrep_write _ _ (hpath ▸ own_append _ _ _ _)) exComplete List.mem_cons_self ?_ (write_same _ _ _) ?_ hsh⟩
  · have far : ∀ {p : Prog} {x : Pth}, p ≠ .der → exRun ++ p.dir :: x ≠ derFile exWorld exRun "h".toList := by
      intro p x hp e
      have := (List.cons.inj (List.append_cancel_left e)).1
      exact dir_cases _ _ hp this
    have e : derOf exWorld (write exPrep (derFile exWorld exRun "h".toList) (.ders old)) exRun exColl "h".toList =
        derOf exWorld exPrep exRun exColl "h".toList := by
      unfold derOf
      rw [storeOf_congr (d' := exPrep) (fun v _ => write_other _ _ (far (p := .pmm) (by decide))),
        clsOf_congr exWorld (d' := exPrep) (fun n _ => write_other _ _ (far (p := .cls) (by decide)))]
    exact e.trans (by decide +kernel)
  · intro x r h hx
    by_cases e : exRun ++ "Derivative".toList :: "h".toList :: x :: r = derFile exWorld exRun "h".toList
    · exact (derFile_inj e).2.1
    · have h2 : (write exPrep (derFile exWorld exRun "h".toList) (.ders old)
          (exRun ++ "Derivative".toList :: "h".toList :: x :: r)).isSome := h
      rw [write_other _ _ e] at h2
      rw [(exPrep_files h2).2] at hx
      exact absurd hx exConfig_like

/-- Derivatives for the probe `b` from before stop a run for the probe `a`. -/
example : ∃ entries dirs, Shows entries dirs (runTask { exWorld with combos := [] } none [] .der exRun "config.json".toList
      (List.replicate 3 "h".toList)
      (write exPrep (exRun ++ ["Derivative".toList, "h".toList, derName "h".toList ["b".toList]]) (.ders []))) ∧
    ∃ e, readDerivs entries dirs (runTask { exWorld with combos := [] } none [] .der exRun "config.json".toList
      (List.replicate 3 "h".toList)
      (write exPrep (exRun ++ ["Derivative".toList, "h".toList, derName "h".toList ["b".toList]]) (.ders []))) exRun =
        .error e := by
  have hpath : exRun ++ ["Derivative".toList, "h".toList, derName "h".toList ["b".toList]] =
      jobPath .der exRun "h".toList ++ [derName "h".toList ["b".toList]] := by
    unfold jobPath; rw [List.append_assoc]; rfl
  obtain ⟨entries, dirs, hsh⟩ := listing ((exPrep_few.write
    (exRun ++ ["Derivative".toList, "h".toList, derName "h".toList ["b".toList]]) (.ders [])).runTask
    (w := { exWorld with combos := [] }) (venv := none) (home := []) (p := .der)
    (run := exRun) (cfgName := "config.json".toList) (sched := List.replicate 3 "h".toList))
  refine ⟨entries, dirs, hsh, other_name_stops _ none [] exRun_plain (exCfg_plain .der) exH_plain
    (exPrep_write _ _ (hpath ▸ own_append _ _ _ _)) exComplete (n := "h".toList) List.mem_cons_self (l := []) ?_
    (old := derName "h".toList ["b".toList]) ?_ (derName_like _ _) (by decide +kernel) hsh⟩
  · decide +kernel
  · rw [write_same]; rfl

end Seyfert.Job
