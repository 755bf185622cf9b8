import Verif.Spec.PowerEval
import Verif.Props.Boltzmann
import Verif.Lemmas.PyNum
import Mathlib.Data.Rat.Encodable
import Mathlib.Data.Rat.Sqrt
import Mathlib.Tactic.Positivity

/-!
C158: the matter power spectrum of an object belongs to the code, the settings and the parameters of its last computation.
-/

set_option linter.unusedSectionVars false

namespace Seyfert.PowerEval
open Boltzmann (readIni writeIni updatedIni cambGroups cambBasis GoodName GoodValue)

variable {K : Type} [Field K] [LinearOrder K]

/-! ### Two computations with the same inputs -/

/-- Solvers which differ only in the place of the ini file and in the number of their parameters. -/
def Alike (f f' : Files) (v v' : Solver K) : Prop :=
  v.z = v'.z ∧ v.k = v'.k ∧ v.transfer = v'.transfer ∧ v.lin = v'.lin ∧ v.nonlin = v'.nonlin ∧
  ((∃ s, v.kind = .cls s ∧ v'.kind = .cls s) ∨
    ∃ s ref ref' ini ini', v.kind = .camb s ref ini ∧ v'.kind = .camb s ref' ini' ∧ f ref = f' ref')

theorem solve_alike (lib : Lib K) (rounds : Nat) (d : Dict Str K) (f f' : Files) (v v' : Solver K) (h : Alike f f' v v') :
    (solve lib rounds d f v).2.2 = (solve lib rounds d f' v').2.2 ∧
    results (solve lib rounds d f v).2.1 = results (solve lib rounds d f' v').2.1 := by
  obtain ⟨kind, pars, z, k, tr, lin, nonlin⟩ := v
  obtain ⟨kind', pars', z', k', tr', lin', nonlin'⟩ := v'
  obtain ⟨hz, hk, ht, hl, hn, h⟩ := h
  dsimp only at hz hk ht hl hn h
  subst hz hk ht hl hn
  rcases h with ⟨s, rfl, rfl⟩ | ⟨s, ref, ref', ini, ini', rfl, rfl, hf⟩
  · unfold solve classRun
    dsimp only
    cases classPars lib s z d with
    | error e => exact ⟨rfl, rfl⟩
    | ok p =>
      dsimp only
      cases lib.cls p with
      | none => exact ⟨rfl, rfl⟩
      | some c => exact ⟨rfl, rfl⟩
  · unfold solve
    dsimp only
    cases basis lib d with
    | error e => exact ⟨rfl, rfl⟩
    | ok b =>
      dsimp only
      rw [hf]
      cases f' ref' with
      | none => exact ⟨rfl, rfl⟩
      | some t =>
        dsimp only
        cases (finetune lib rounds d (updatedIni t b)).2 with
        | some e => exact ⟨rfl, rfl⟩
        | none =>
          dsimp only
          unfold cambRun
          dsimp only
          cases cambGroups z with
          | error e => exact ⟨rfl, rfl⟩
          | ok gs =>
            dsimp only
            cases lib.camb (finetune lib rounds d (updatedIni t b)).1 with
            | none => exact ⟨rfl, rfl⟩
            | some c => exact ⟨rfl, rfl⟩

/-- Files which a solver leaves alone. -/
theorem solve_files (lib : Lib K) (rounds : Nat) (d : Dict Str K) (f : Files) (v : Solver K) (l : Loc)
    (h : ∀ s ref ini, v.kind = .camb s ref ini → l ≠ ini) : (solve lib rounds d f v).1 l = f l := by
  unfold solve
  cases hk : v.kind with
  | cls s =>
    dsimp only
    cases classRun lib s d v <;> rfl
  | camb s ref ini =>
    have hl := h s ref ini hk
    dsimp only
    cases basis lib d with
    | error e => rfl
    | ok b =>
      dsimp only
      cases f ref with
      | none => rfl
      | some t =>
        dsimp only
        have : put f ini (finetune lib rounds d (updatedIni t b)).1 l = f l := if_neg hl
        cases (finetune lib rounds d (updatedIni t b)).2 with
        | some e => exact this
        | none =>
          dsimp only
          cases cambRun lib s (finetune lib rounds d (updatedIni t b)).1 v <;> exact this

/-- The solver made for a known code. -/
theorem makeSolver_known (lib : Lib K) (w : World K) (o : Obj K) (dir : List Str) (h : Known o.code) :
    (∃ e, makeSolver lib w o dir = some (.error e)) ∨ ∃ v, makeSolver lib w o dir = some (.ok v) ∧ v.pars = o.pars ∧
      v.k = none ∧ v.transfer = none ∧ ∀ s ref ini, v.kind = .camb s ref ini → o.code = "CAMB".toList ∧
        ∃ c, o.cfg = some c ∧ (w.cfgs c).camb = some (s, ini.name) ∧ ref = ⟨lib.config, ini.name⟩ ∧ ini.dir = dir := by
  unfold makeSolver
  rcases h with hc | hc
  · rw [if_pos hc]
    cases hg : o.cfg with
    | none => exact .inl ⟨_, rfl⟩
    | some c =>
      dsimp only
      cases hs : (w.cfgs c).camb with
      | none => exact .inl ⟨_, rfl⟩
      | some q =>
        obtain ⟨s, n⟩ := q
        refine .inr ⟨_, rfl, rfl, rfl, rfl, fun s' ref ini hk => ⟨hc, c, rfl, ?_⟩⟩
        cases hk
        exact ⟨hs, rfl, rfl⟩
  · rw [if_neg (by rw [hc]; decide), if_pos hc]
    cases hg : o.cfg with
    | none => exact .inl ⟨_, rfl⟩
    | some c =>
      dsimp only
      cases hs : (w.cfgs c).cls with
      | none => exact .inl ⟨_, rfl⟩
      | some q => exact .inr ⟨_, rfl, rfl, rfl, rfl, fun s' ref ini hk => nomatch hk⟩

theorem makeSolver_unknown (lib : Lib K) (w : World K) (o : Obj K) (dir : List Str) (h : ¬ Known o.code) :
    makeSolver lib w o dir = none := by
  unfold makeSolver
  rw [if_neg (fun e => h (.inl e)), if_neg (fun e => h (.inr e))]

theorem setObj_same (w : World K) (i : Nat) (o : Obj K) : (w.setObj i o).objs i = some o := if_pos rfl

theorem setObj_other (w : World K) (i j : Nat) (o : Obj K) (h : j ≠ i) : (w.setObj i o).objs j = w.objs j := if_neg h

/-- The computation with a known code: whether it raises and the spectra it gives are determined by the code, the
configuration, the parameters and the reference files at the time of the call. Nothing computed or written before matters, nor
does the directory. -/
theorem same_inputs (lib : Lib K) (rounds : Nat) (w w' : World K) (i i' : Nat) (dir dir' : List Str) (o o' : Obj K)
    (ho : w.objs i = some o) (ho' : w'.objs i' = some o') (hk : Known o.code) (hc : o.code = o'.code)
    (hg : o.cfg.map w.cfgs = o'.cfg.map w'.cfgs) (hp : w.pars o.pars = w'.pars o'.pars)
    (hf : ∀ n, w.files ⟨lib.config, n⟩ = w'.files ⟨lib.config, n⟩) :
    (evaluate lib rounds w i dir).2 = (evaluate lib rounds w' i' dir').2 ∧
    ((evaluate lib rounds w i dir).2 = none → ∃ r r', (evaluate lib rounds w i dir).1.objs i = some r ∧
      (evaluate lib rounds w' i' dir').1.objs i' = some r' ∧ r.spec = r'.spec) := by
  have key : ∀ v v' : Solver K, makeSolver lib w o dir = some (.ok v) → makeSolver lib w' o' dir' = some (.ok v') →
      w.pars v.pars = w'.pars v'.pars → Alike w.files w'.files v v' →
      (evaluate lib rounds w i dir).2 = (evaluate lib rounds w' i' dir').2 ∧
      ((evaluate lib rounds w i dir).2 = none → ∃ r r', (evaluate lib rounds w i dir).1.objs i = some r ∧
        (evaluate lib rounds w' i' dir').1.objs i' = some r' ∧ r.spec = r'.spec) := by
    intro v v' hv hv' hd ha
    unfold evaluate
    rw [ho, ho']
    dsimp only
    rw [hv, hv']
    dsimp only [evaluateWith]
    obtain ⟨h1, h2⟩ := solve_alike lib rounds (w.pars v.pars) w.files w'.files v v' ha
    rw [← hd]
    refine ⟨h1, fun h => ⟨_, _, setObj_same _ _ _, setObj_same _ _ _, ?_⟩⟩
    dsimp only
    rw [if_pos h, if_pos (h1.symm.trans h)]
    exact h2
  have bad : ∀ e, makeSolver lib w o dir = some (.error e) → makeSolver lib w' o' dir' = some (.error e) →
      (evaluate lib rounds w i dir).2 = (evaluate lib rounds w' i' dir').2 ∧
      ((evaluate lib rounds w i dir).2 = none → ∃ r r', (evaluate lib rounds w i dir).1.objs i = some r ∧
        (evaluate lib rounds w' i' dir').1.objs i' = some r' ∧ r.spec = r'.spec) := by
    intro e hv hv'
    unfold evaluate
    rw [ho, ho']
    dsimp only
    rw [hv, hv']
    exact ⟨rfl, nofun⟩
  rcases hk with hk | hk
  · have hk' : o'.code = "CAMB".toList := hc ▸ hk
    cases hg1 : o.cfg with
    | none =>
      cases hg2 : o'.cfg with
      | some c' => rw [hg1, hg2] at hg; cases hg
      | none =>
        exact bad .attributeError (by unfold makeSolver; rw [if_pos hk, hg1]) (by unfold makeSolver; rw [if_pos hk', hg2])
    | some c =>
      cases hg2 : o'.cfg with
      | none => rw [hg1, hg2] at hg; cases hg
      | some c' =>
        rw [hg1, hg2] at hg
        have hg := Option.some.inj hg
        cases hs : (w.cfgs c).camb with
        | none =>
          exact bad .keyError (by unfold makeSolver; rw [if_pos hk, hg1]; dsimp only; rw [hs])
            (by unfold makeSolver; rw [if_pos hk', hg2]; dsimp only; rw [← hg, hs])
        | some q =>
          obtain ⟨s, n⟩ := q
          refine key ⟨.camb s ⟨lib.config, n⟩ ⟨dir, n⟩, o.pars, (w.cfgs c).zGrid, none, none, none, none⟩
            ⟨.camb s ⟨lib.config, n⟩ ⟨dir', n⟩, o'.pars, (w.cfgs c).zGrid, none, none, none, none⟩
            (by unfold makeSolver; rw [if_pos hk, hg1]; dsimp only; rw [hs])
            (by unfold makeSolver; rw [if_pos hk', hg2]; dsimp only; rw [← hg, hs]) hp
            ⟨rfl, rfl, rfl, rfl, rfl, .inr ⟨s, _, _, _, _, rfl, rfl, hf n⟩⟩
  · have hk' : o'.code = "CLASS".toList := hc ▸ hk
    have n1 : ¬ o.code = "CAMB".toList := by rw [hk]; decide
    have n2 : ¬ o'.code = "CAMB".toList := by rw [hk']; decide
    cases hg1 : o.cfg with
    | none =>
      cases hg2 : o'.cfg with
      | some c' => rw [hg1, hg2] at hg; cases hg
      | none =>
        exact bad .attributeError (by unfold makeSolver; rw [if_neg n1, if_pos hk, hg1])
          (by unfold makeSolver; rw [if_neg n2, if_pos hk', hg2])
    | some c =>
      cases hg2 : o'.cfg with
      | none => rw [hg1, hg2] at hg; cases hg
      | some c' =>
        rw [hg1, hg2] at hg
        have hg := Option.some.inj hg
        cases hs : (w.cfgs c).cls with
        | none =>
          exact bad .keyError (by unfold makeSolver; rw [if_neg n1, if_pos hk, hg1]; dsimp only; rw [hs])
            (by unfold makeSolver; rw [if_neg n2, if_pos hk', hg2]; dsimp only; rw [← hg, hs])
        | some s =>
          refine key ⟨.cls s, o.pars, (w.cfgs c).zGrid, none, none, none, none⟩
            ⟨.cls s, o'.pars, (w.cfgs c).zGrid, none, none, none, none⟩
            (by unfold makeSolver; rw [if_neg n1, if_pos hk, hg1]; dsimp only; rw [hs])
            (by unfold makeSolver; rw [if_neg n2, if_pos hk', hg2]; dsimp only; rw [← hg, hs]) hp
            ⟨rfl, rfl, rfl, rfl, rfl, .inl ⟨s, rfl, rfl⟩⟩

/-! ### What a computation leaves alone -/

theorem evaluateWith_keeps (lib : Lib K) (rounds : Nat) (w : World K) (i : Nat) (o : Obj K) (v : Solver K) :
    let r := evaluateWith lib rounds w i o v
    r.1.cfgs = w.cfgs ∧ r.1.pars = w.pars ∧ (∀ j, j ≠ i → r.1.objs j = w.objs j) ∧
    (∃ o', r.1.objs i = some o' ∧ o'.code = o.code ∧ o'.cfg = o.cfg ∧ o'.pars = o.pars ∧ (r.2 ≠ none → o'.spec = o.spec)) := by
  refine ⟨rfl, rfl, fun j hj => setObj_other _ _ _ _ hj, _, setObj_same _ _ _, rfl, rfl, rfl, fun h => ?_⟩
  exact if_neg h

/-- A computation changes no configuration, no parameters, no other object, and nothing of its own object but the
spectra, which stay as they were if there is an exception. With a known code the only file it may change is the ini file in its
directory, and with CLASS it changes none. -/
theorem computation_keeps (lib : Lib K) (rounds : Nat) (w : World K) (i : Nat) (dir : List Str) (o : Obj K)
    (ho : w.objs i = some o) :
    let r := evaluate lib rounds w i dir
    r.1.cfgs = w.cfgs ∧ r.1.pars = w.pars ∧ (∀ j, j ≠ i → r.1.objs j = w.objs j) ∧
    (∃ o', r.1.objs i = some o' ∧ o'.code = o.code ∧ o'.cfg = o.cfg ∧ o'.pars = o.pars ∧ (r.2 ≠ none → o'.spec = o.spec)) ∧
    (Known o.code → ∀ l, r.1.files l ≠ w.files l → o.code = "CAMB".toList ∧ l.dir = dir ∧
      ∃ c s, o.cfg = some c ∧ (w.cfgs c).camb = some (s, l.name)) := by
  dsimp only
  have none' : ∀ e, evaluate lib rounds w i dir = (w, some e) →
      (evaluate lib rounds w i dir).1.cfgs = w.cfgs ∧ (evaluate lib rounds w i dir).1.pars = w.pars ∧
      (∀ j, j ≠ i → (evaluate lib rounds w i dir).1.objs j = w.objs j) ∧
      (∃ o', (evaluate lib rounds w i dir).1.objs i = some o' ∧ o'.code = o.code ∧ o'.cfg = o.cfg ∧ o'.pars = o.pars ∧
        ((evaluate lib rounds w i dir).2 ≠ none → o'.spec = o.spec)) ∧
      (Known o.code → ∀ l, (evaluate lib rounds w i dir).1.files l ≠ w.files l → o.code = "CAMB".toList ∧ l.dir = dir ∧
        ∃ c s, o.cfg = some c ∧ (w.cfgs c).camb = some (s, l.name)) := by
    intro e he
    rw [he]
    exact ⟨rfl, rfl, fun _ _ => rfl, ⟨o, ho, rfl, rfl, rfl, fun _ => rfl⟩, fun _ l h => absurd rfl h⟩
  by_cases hk : Known o.code
  · rcases makeSolver_known lib w o dir hk with ⟨e, he⟩ | ⟨v, hv, -, -, -, hfile⟩
    · exact none' e (by unfold evaluate; rw [ho]; dsimp only; rw [he])
    · have e : evaluate lib rounds w i dir = evaluateWith lib rounds w i o v := by
        unfold evaluate
        rw [ho]
        dsimp only
        rw [hv]
      rw [e]
      obtain ⟨h1, h2, h3, h4⟩ := evaluateWith_keeps lib rounds w i o v
      refine ⟨h1, h2, h3, h4, fun _ l hl => ?_⟩
      by_contra hn
      refine hl (solve_files lib rounds _ w.files v l fun s ref ini hkd hli => hn ?_)
      obtain ⟨hc, c, hcc, hs, -, hd⟩ := hfile s ref ini hkd
      rw [hli]
      exact ⟨hc, hd, c, s, hcc, hs⟩
  · have hm := makeSolver_unknown lib w o dir hk
    cases hs : o.solver with
    | none => exact none' _ (by unfold evaluate; rw [ho]; dsimp only; rw [hm]; dsimp only; rw [hs])
    | some v =>
      have e : evaluate lib rounds w i dir = evaluateWith lib rounds w i o v := by
        unfold evaluate
        rw [ho]
        dsimp only
        rw [hm]
        dsimp only
        rw [hs]
      rw [e]
      obtain ⟨h1, h2, h3, h4⟩ := evaluateWith_keeps lib rounds w i o v
      exact ⟨h1, h2, h3, h4, fun h => absurd h hk⟩

/-- The reference files of the installation are left alone by computations in other directories. -/
theorem reference_kept (lib : Lib K) (rounds : Nat) (w : World K) (i : Nat) (dir : List Str) (o : Obj K)
    (ho : w.objs i = some o) (hk : Known o.code) (hd : dir ≠ lib.config) (n : Str) :
    (evaluate lib rounds w i dir).1.files ⟨lib.config, n⟩ = w.files ⟨lib.config, n⟩ := by
  by_contra h
  exact hd ((computation_keeps lib rounds w i dir o ho).2.2.2.2 hk _ h).2.1.symm

/-! ### Histories -/

theorem steps_append (lib : Lib K) (w : World K) (a b : List (Op K)) : steps lib w (a ++ b) = steps lib (steps lib w a) b :=
  List.foldl_append ..

/-- The effect of a call on the spectra of an object: none, unless it makes the object or computes its spectra without an
exception. -/
theorem step_spec (lib : Lib K) (w : World K) (op : Op K) (i : Nat) (o : Obj K) (h : (step lib w op).1.objs i = some o) :
    (∃ o', w.objs i = some o' ∧ o'.spec = o.spec) ∨ o.spec.lin = none ∨ (op.Computes i ∧ (step lib w op).2 = none) := by
  have ev : ∀ (w : World K) (j : Nat) (dir : List Str) (rounds : Nat), (evaluate lib rounds w j dir).1.objs i = some o →
      (∃ o', w.objs i = some o' ∧ o'.spec = o.spec) ∨ (j = i ∧ (evaluate lib rounds w j dir).2 = none) := by
    intro w j dir rounds h
    cases hj : w.objs j with
    | none =>
      have e : evaluate lib rounds w j dir = (w, some .attributeError) := by
        unfold evaluate
        rw [hj]
      rw [e] at h
      exact .inl ⟨o, h, rfl⟩
    | some oj =>
      obtain ⟨-, -, h3, ⟨o', h4, -, -, -, h5⟩, -⟩ := computation_keeps lib rounds w j dir oj hj
      by_cases hij : j = i
      · subst hij
        cases h2 : (evaluate lib rounds w j dir).2 with
        | none => exact .inr ⟨rfl, rfl⟩
        | some e =>
          refine .inl ⟨oj, hj, ?_⟩
          rw [h4] at h
          cases h
          exact (h5 (by rw [h2]; nofun)).symm
      · rw [h3 i (Ne.symm hij)] at h
        exact .inl ⟨o, h, rfl⟩
  have setter : ∀ (j : Nat) (g : Obj K → Obj K), (∀ x, (g x).spec = x.spec) →
      ((match w.objs j with
        | none => (w, some Err.attributeError)
        | some o => (w.setObj j (g o), none)) : World K × Option Err).1.objs i = some o →
      ∃ o', w.objs i = some o' ∧ o'.spec = o.spec := by
    intro j g hg h
    cases hj : w.objs j with
    | none => rw [hj] at h; exact ⟨o, h, rfl⟩
    | some x =>
      rw [hj] at h
      dsimp only at h
      by_cases hij : i = j
      · subst hij
        rw [setObj_same] at h
        cases h
        exact ⟨x, hj, (hg x).symm⟩
      · rw [setObj_other _ _ _ _ hij] at h
        exact ⟨o, h, rfl⟩
  have newLin : ∀ c p, (create w c p).spec.lin = none := by
    intro c p
    cases c <;> rfl
  cases op with
  | new j c p =>
    have h : (w.setObj j (create w c p)).objs i = some o := h
    by_cases hij : i = j
    · subst hij
      rw [setObj_same] at h
      cases h
      exact .inr (.inl (newLin c p))
    · rw [setObj_other _ _ _ _ hij] at h
      exact .inl ⟨o, h, rfl⟩
  | setCode j s => exact .inl (setter j (fun o => { o with code := s }) (fun _ => rfl) h)
  | usePars j p => exact .inl (setter j (fun o => { o with pars := p }) (fun _ => rfl) h)
  | useCfg j c => exact .inl (setter j (fun o => { o with cfg := c }) (fun _ => rfl) h)
  | editCfg c v => exact .inl ⟨o, h, rfl⟩
  | editPars p d => exact .inl ⟨o, h, rfl⟩
  | write l t => exact .inl ⟨o, h, rfl⟩
  | evaluate j dir rounds =>
    rcases ev w j dir rounds h with h | h
    · exact .inl h
    · exact .inr (.inr h)
  | cosmology j c p dir rounds =>
    rcases ev _ j dir rounds h with ⟨o', h1, h2⟩ | h
    · by_cases hij : i = j
      · subst hij
        rw [setObj_same] at h1
        cases h1
        exact .inr (.inl (by rw [← h2]; rfl))
      · rw [setObj_other _ _ _ _ hij] at h1
        exact .inl ⟨o', h1, h2⟩
    · exact .inr (.inr h)

/-- Over any history: spectra which an object holds are, all together, those which its last successful computation gave; no
later one has succeeded. -/
theorem spectra_of_last (lib : Lib K) (w : World K) (h0 : ∀ i, w.objs i = none) (l : List (Op K)) (i : Nat) (o : Obj K)
    (ho : (steps lib w l).objs i = some o) (hl : o.spec.lin ≠ none) :
    ∃ l₁ op l₂ o₁, l = l₁ ++ op :: l₂ ∧ op.Computes i ∧ (step lib (steps lib w l₁) op).2 = none ∧
      (step lib (steps lib w l₁) op).1.objs i = some o₁ ∧ o₁.spec = o.spec ∧
      ∀ m₁ x m₂, l₂ = m₁ ++ x :: m₂ → x.Computes i → (step lib (steps lib w (l₁ ++ op :: m₁)) x).2 ≠ none := by
  induction l using List.reverseRecOn generalizing o with
  | nil => rw [show steps lib w [] = w from rfl, h0] at ho; cases ho
  | append_singleton l x ih =>
    rw [steps_append] at ho
    have ho : (step lib (steps lib w l) x).1.objs i = some o := ho
    by_cases hx : x.Computes i ∧ (step lib (steps lib w l) x).2 = none
    · refine ⟨l, x, [], o, rfl, hx.1, hx.2, ho, rfl, fun m₁ y m₂ h => ?_⟩
      cases m₁ <;> cases h
    · rcases step_spec lib _ x i o ho with ⟨o', h1, h2⟩ | h | h
      · obtain ⟨l₁, op, l₂, o₁, e, hc, hn, h3, h4, h5⟩ := ih o' h1 (by rw [h2]; exact hl)
        refine ⟨l₁, op, l₂ ++ [x], o₁, by rw [e, List.append_assoc]; rfl, hc, hn, h3, h4.trans h2, fun m₁ y m₂ hm hy hs => ?_⟩
        rcases List.eq_nil_or_concat m₂ with rfl | ⟨m₂', z, rfl⟩
        · obtain ⟨rfl, hxy⟩ := List.append_inj' hm rfl
          cases hxy
          rw [← e] at hs
          exact hx ⟨hy, hs⟩
        · have hm' : l₂ ++ [x] = (m₁ ++ y :: m₂') ++ [z] := by
            rw [hm, List.concat_eq_append, List.append_assoc, List.cons_append]
          obtain ⟨e2, -⟩ := List.append_inj' hm' rfl
          exact h5 m₁ y m₂' e2 hy hs
      · exact absurd h hl
      · exact absurd h hx

/-- `Cosmology.evaluatePowerSpectrum` uses the code which stands in the configuration at the time of the call, refuses an
unknown one, and what it computes does not depend on anything computed before. -/
theorem cosmology_spectrum (lib : Lib K) (w : World K) (i c p : Nat) (dir : List Str) (rounds : Nat) :
    (¬ Known (w.cfgs c).code → (step lib w (.cosmology i c p dir rounds)).2 = some .attributeError ∧
      (step lib w (.cosmology i c p dir rounds)).1.files = w.files) ∧
    (Known (w.cfgs c).code → ∀ (w' : World K) i' c' p' dir', w'.cfgs c' = w.cfgs c → w'.pars p' = w.pars p →
      (∀ n, w'.files ⟨lib.config, n⟩ = w.files ⟨lib.config, n⟩) →
      (step lib w (.cosmology i c p dir rounds)).2 = (step lib w' (.cosmology i' c' p' dir' rounds)).2 ∧
      ((step lib w (.cosmology i c p dir rounds)).2 = none → ∃ r r',
        (step lib w (.cosmology i c p dir rounds)).1.objs i = some r ∧
        (step lib w' (.cosmology i' c' p' dir' rounds)).1.objs i' = some r' ∧ r.spec = r'.spec)) := by
  constructor
  · intro hk
    have hm := makeSolver_unknown lib (w.setObj i (create w (some c) p)) (create w (some c) p) dir hk
    have e : step lib w (.cosmology i c p dir rounds) = (w.setObj i (create w (some c) p), some .attributeError) := by
      show evaluate lib rounds _ i dir = _
      unfold evaluate
      rw [setObj_same]
      dsimp only
      rw [hm]
      rfl
    rw [e]
    exact ⟨rfl, rfl⟩
  · intro hk w' i' c' p' dir' hc hp hf
    exact same_inputs lib rounds _ _ i i' dir dir' _ _ (setObj_same _ _ _) (setObj_same _ _ _) hk
      (congrArg Cfg.code hc).symm (congrArg some hc.symm) hp.symm (fun n => (hf n).symm)

/-! ### What is computed -/

theorem goodName_of (s : Str) (h : (decide (s ≠ []) && s.all (fun c => !Boltzmann.isBreak c) && s.head?.all (fun c => !Boltzmann.isSpace c) &&
    s.getLast?.all (fun c => !Boltzmann.isSpace c) && decide (s.head? ≠ some '#')) = true) : GoodName s := by
  rw [Bool.and_eq_true, Bool.and_eq_true, Bool.and_eq_true, Bool.and_eq_true, decide_eq_true_eq, decide_eq_true_eq,
    List.all_eq_true] at h
  obtain ⟨⟨⟨⟨h1, h2⟩, h3⟩, h4⟩, h5⟩ := h
  refine ⟨h1, fun c hc => ?_, ⟨fun c hc => ?_, fun c hc => ?_⟩, h5⟩
  · have := h2 c hc
    rwa [Bool.not_eq_true'] at this
  · rw [hc] at h3
    exact (Bool.not_eq_true' _).mp h3
  · rw [hc] at h4
    exact (Bool.not_eq_true' _).mp h4

theorem ampKey_good : GoodName ampKey := goodName_of _ (by decide +kernel)

/-- The names which the parameters set. -/
def setNames : List Str := ["hubble".toList, "w".toList, "wa".toList, "scalar_spectral_index".toList, "omch2".toList,
  "ombh2".toList, "omnuh2".toList, "omk".toList]

theorem setNames_good : ∀ n ∈ setNames, GoodName n := by
  have h : setNames.all (fun s => decide (s ≠ []) && s.all (fun c => !Boltzmann.isBreak c) && s.head?.all (fun c => !Boltzmann.isSpace c) &&
    s.getLast?.all (fun c => !Boltzmann.isSpace c) && decide (s.head? ≠ some '#')) = true := by decide +kernel
  intro n hn
  exact goodName_of n (List.all_eq_true.mp h n hn)

theorem setNames_nodup : setNames.Nodup := by decide +kernel

theorem ampKey_not_set : ampKey ∉ setNames := by decide +kernel

theorem lookup_if {β : Type} (n k : Str) (v : β) (l : Dict Str β) :
    List.lookup n ((k, v) :: l) = if n = k then some v else l.lookup n := by
  rw [List.lookup_cons]
  by_cases h : n = k
  · rw [if_pos h, beq_iff_eq.mpr h]
  · rw [if_neg h, beq_eq_false_iff_ne.mpr h]

theorem par_ok {d : Dict Str K} {n : Str} {x : K} (h : d.lookup n = some x) : par d n = .ok x := by
  unfold par
  rw [h]

/-- The entries set, for parameters which are all there. -/
theorem basis_ok (lib : Lib K) (hr : Regular lib) (d : Dict Str K) (p : Str → K)
    (hp : ∀ m ∈ parNames, d.lookup m = some (p m)) :
    ∃ b, basis lib d = .ok b ∧ b.map (·.1) = setNames ∧ (∀ q ∈ b, GoodName q.1 ∧ GoodValue q.2) ∧
      ∀ n, b.lookup n = (entry p n).map lib.str := by
  have q : ∀ m, m ∈ parNames → par d m = .ok (p m) := fun m hm => par_ok (hp m hm)
  refine ⟨[("hubble".toList, lib.str (100 * p "h".toList)), ("w".toList, lib.str (p "w0".toList)),
    ("wa".toList, lib.str (p "wa".toList)), ("scalar_spectral_index".toList, lib.str (p "ns".toList)),
    ("omch2".toList, lib.str (p "Omm".toList * p "h".toList * p "h".toList - p "Omb".toList * p "h".toList * p "h".toList -
      p "mnu".toList / (9314 / 100))), ("ombh2".toList, lib.str (p "Omb".toList * p "h".toList * p "h".toList)),
    ("omnuh2".toList, lib.str (p "mnu".toList / (9314 / 100))),
    ("omk".toList, lib.str (1 - p "Omm".toList - p "OmDE".toList))], ?_, ?_⟩
  · unfold basis
    rw [q "h".toList (by decide +kernel), q "Omm".toList (by decide +kernel), q "Omb".toList (by decide +kernel),
      q "mnu".toList (by decide +kernel), q "OmDE".toList (by decide +kernel), q "w0".toList (by decide +kernel),
      q "wa".toList (by decide +kernel), q "ns".toList (by decide +kernel)]
    rfl
  · refine ⟨rfl, fun x hx => ⟨setNames_good _ (List.mem_map_of_mem (f := (·.1)) hx), ?_⟩, fun n => ?_⟩
    · have hv := List.mem_map_of_mem (f := (·.2)) hx
      have : ∀ y : K, GoodValue (lib.str y) := hr.good
      iterate 8
        rcases List.mem_cons.mp hv with e | hv
        · rw [e]
          exact this _
      cases hv
    · unfold entry
      dsimp only
      iterate 8 rw [lookup_if, apply_ite (Option.map lib.str)]
      rfl

/-- The tuning of the amplitude, for a code whose σ₈ goes with the root of the amplitude: in at most three rounds the file has
the amplitude which gives the σ₈ asked for, and otherwise the entries it had. -/
theorem tuned [IsStrictOrderedRing K] (lib : Lib K) (hr : Regular lib) (s8 amp σ : K) (h8 : 0 < s8) (hσ : 0 < σ) (D : Dict Str Str)
    (hd : (D.map (·.1)).Nodup) (hg : ∀ p ∈ D, GoodName p.1 ∧ GoodValue p.2) (text a : Str) (ht : readIni text = D)
    (law : ∀ t q, 0 < q → (∀ n, n ≠ ampKey → (readIni t).lookup n = D.lookup n) →
      (∃ a, (readIni t).lookup ampKey = some a ∧ lib.num a = some (amp * q ^ 2)) → ∃ c, lib.camb t = some c ∧ c.sigma8 = σ * q)
    (ha : D.lookup ampKey = some a) (hn : lib.num a = some amp) (h10 : (tol : K) < |(s8 - 10) / s8|) (m : Nat) :
    ∃ text', tuneLoop lib s8 (m + 3) 10 amp D text = (text', none) ∧
      (∀ n, n ≠ ampKey → (readIni text').lookup n = D.lookup n) ∧
      (readIni text').lookup ampKey = some (lib.str (amp * (s8 / σ) ^ 2)) := by
  have h8' : ¬ s8 = 0 := h8.ne'
  have hσ' : ¬ σ = 0 := hσ.ne'
  have again : ∀ (E : Dict Str Str), (E.map (·.1)).Nodup → (∀ p ∈ E, GoodName p.1 ∧ GoodValue p.2) → ∀ x,
      ((PyDict.set E ampKey (lib.str x)).map (·.1)).Nodup ∧
      (∀ p ∈ PyDict.set E ampKey (lib.str x), GoodName p.1 ∧ GoodValue p.2) ∧
      readIni (writeIni (PyDict.set E ampKey (lib.str x))) = PyDict.set E ampKey (lib.str x) := by
    intro E h1 h2 x
    have g1 := PyDict.nodup_set E ampKey (lib.str x) h1
    have g2 : ∀ p ∈ PyDict.set E ampKey (lib.str x), GoodName p.1 ∧ GoodValue p.2 :=
      Boltzmann.ofItems_mem (fun p => GoodName p.1 ∧ GoodValue p.2) [(ampKey, lib.str x)] E (fun p hp => by
        rw [List.mem_singleton] at hp
        subst hp
        exact ⟨ampKey_good, hr.good x⟩) h2
    exact ⟨g1, g2, Boltzmann.round_trip_partial _ g1 g2⟩
  obtain ⟨c1, hc1, e1⟩ := law text 1 one_pos (fun n _ => by rw [ht])
    ⟨a, by rw [ht]; exact ha, by rw [one_pow, mul_one]; exact hn⟩
  rw [mul_one] at e1
  obtain ⟨n1, g1, r1⟩ := again D hd hg (amp * (s8 / σ) ^ 2)
  have first : tuneLoop lib s8 (m + 3) 10 amp D text = tuneLoop lib s8 (m + 2) σ (amp * (s8 / σ) ^ 2)
      (PyDict.set D ampKey (lib.str (amp * (s8 / σ) ^ 2))) (writeIni (PyDict.set D ampKey (lib.str (amp * (s8 / σ) ^ 2)))) := by
    rw [tuneLoop, if_neg h8', if_pos h10, hc1]
    dsimp only
    rw [e1, if_neg hσ']
  rw [first]
  have look : ∀ n, (readIni (writeIni (PyDict.set D ampKey (lib.str (amp * (s8 / σ) ^ 2))))).lookup n =
      if n = ampKey then some (lib.str (amp * (s8 / σ) ^ 2)) else D.lookup n := by
    intro n
    rw [r1, PyDict.lookup_set]
  by_cases h : (tol : K) < |(s8 - σ) / s8|
  · obtain ⟨c2, hc2, e2⟩ := law (writeIni (PyDict.set D ampKey (lib.str (amp * (s8 / σ) ^ 2)))) (s8 / σ) (div_pos h8 hσ)
      (fun n hn => by rw [look, if_neg hn]) ⟨_, by rw [look, if_pos rfl], hr.num_str _⟩
    rw [mul_div_cancel₀ _ hσ'] at e2
    obtain ⟨n2, g2, r2⟩ := again _ n1 g1 (amp * (s8 / σ) ^ 2)
    refine ⟨writeIni (PyDict.set (PyDict.set D ampKey (lib.str (amp * (s8 / σ) ^ 2))) ampKey (lib.str (amp * (s8 / σ) ^ 2))),
      ?_, fun n hn => ?_, ?_⟩
    · rw [tuneLoop, if_neg h8', if_pos h, hc2]
      dsimp only
      rw [e2, if_neg h8', div_self h8', one_pow, mul_one, tuneLoop, if_neg h8', if_neg]
      rw [sub_self, zero_div, abs_zero, not_lt]
      unfold tol
      positivity
    · rw [r2, PyDict.lookup_set, if_neg hn, PyDict.lookup_set, if_neg hn]
    · rw [r2, PyDict.lookup_set, if_pos rfl]
  · refine ⟨writeIni (PyDict.set D ampKey (lib.str (amp * (s8 / σ) ^ 2))), ?_, fun n hn => ?_, ?_⟩
    · rw [tuneLoop, if_neg h8', if_neg h]
    · rw [look, if_neg hn]
    · rw [look, if_pos rfl]

theorem flatten_rows {γ : Type} (f : List K → List γ) (h : ∀ g, f g = (g.map fun z => f [z]).flatten) (gs : List (List K)) :
    (gs.map f).flatten = (gs.flatten.map fun z => f [z]).flatten := by
  induction gs with
  | nil => rfl
  | cons g gs ih => rw [List.map_cons, List.flatten_cons, ih, List.flatten_cons, List.map_append, List.flatten_append, ← h g]

/-- With CAMB, all parameters there, a reference file with an amplitude, and a code whose σ₈ goes with the root of the amplitude and
which treats redshifts one by one: the computation ends without an exception, the ini file in the directory has the entries of
the parameters and otherwise those of the reference file, CAMB gives the σ₈ asked for with it, and the spectra of the object are those of CAMB for this file: a
row for every redshift of the configuration. The transfer function is that of a group of the first redshifts. -/
theorem camb_spectrum [IsStrictOrderedRing K] (lib : Lib K) (hr : Regular lib) (rounds : Nat) (h3 : 3 ≤ rounds) (w : World K)
    (i : Nat) (dir : List Str) (o : Obj K) (ho : w.objs i = some o) (hc : o.code = "CAMB".toList) (c : Nat) (hg : o.cfg = some c)
    (s : CambSet K) (n : Str) (hs : (w.cfgs c).camb = some (s, n)) (p : Str → K)
    (hp : ∀ m ∈ parNames, (w.pars o.pars).lookup m = some (p m)) (ref : Str) (hf : w.files ⟨lib.config, n⟩ = some ref)
    (a : Str) (amp : K) (ha : (readIni ref).lookup "scalar_amp".toList = some a) (hn : lib.num a = some amp)
    (h8 : 0 < p "sigma8".toList) (h10 : 1 / 10 ^ 12 < |(p "sigma8".toList - 10) / p "sigma8".toList|) (σ : K) (hσ : 0 < σ)
    (law : ∀ t q, 0 < q → IniFor lib p ref t →
      (∃ a, (readIni t).lookup "scalar_amp".toList = some a ∧ lib.num a = some (amp * q ^ 2)) →
      ∃ C, lib.camb t = some C ∧ C.sigma8 = σ * q ∧ ByRedshift C s)
    (hz : (w.cfgs c).zGrid ≠ []) :
    ∃ text C o', (evaluate lib rounds w i dir).2 = none ∧ (evaluate lib rounds w i dir).1.files ⟨dir, n⟩ = some text ∧
      IniFor lib p ref text ∧ lib.camb text = some C ∧ C.sigma8 = p "sigma8".toList ∧
      (evaluate lib rounds w i dir).1.objs i = some o' ∧ o'.spec.z = some (w.cfgs c).zGrid ∧
      o'.spec.k = some (C.k s (w.cfgs c).zGrid) ∧
      o'.spec.lin = some ((w.cfgs c).zGrid.map fun z => C.lin s [z]).flatten ∧
      o'.spec.nonlin = some ((w.cfgs c).zGrid.map fun z => C.nonlin s [z]).flatten ∧
      ∃ g, g <+: (w.cfgs c).zGrid ∧ g ≠ [] ∧ o'.spec.transfer = some (C.transfer s g) := by
  obtain ⟨b, hb, bk, bg, bl⟩ := basis_ok lib hr (w.pars o.pars) p hp
  have hu : ∀ m, (readIni (updatedIni ref b)).lookup m = ((entry p m).map lib.str).or ((readIni ref).lookup m) := fun m => by
    rw [Boltzmann.updated_file ref b bg (by rw [bk]; exact setNames_nodup), bl]
  have hb0 : b.lookup ampKey = none := (PyDict.lookup_none_iff b ampKey).mpr (by rw [bk]; exact ampKey_not_set)
  have hA : (readIni (updatedIni ref b)).lookup ampKey = some a := by
    rw [hu, ← bl, hb0]
    exact ha
  have hsig : (w.pars o.pars).lookup "sigma8".toList = some (p "sigma8".toList) := hp _ (by decide +kernel)
  obtain ⟨m, rfl⟩ := Nat.exists_eq_add_of_le' h3
  obtain ⟨text, t1, t2, t3⟩ := tuned lib hr (p "sigma8".toList) amp σ h8 hσ (readIni (updatedIni ref b))
    (Boltzmann.readIni_nodup _) (Boltzmann.readIni_good _) (updatedIni ref b) a rfl
    (fun t q hq h1 h2 => by
      obtain ⟨C, g1, g2, -⟩ := law t q hq (fun x hx => by rw [h1 x hx, hu]) h2
      exact ⟨C, g1, g2⟩) hA hn h10 m
  have hini : IniFor lib p ref text := fun x hx => by rw [t2 x hx, hu]
  obtain ⟨C, hC, e8, hrow⟩ := law text (p "sigma8".toList / σ) (div_pos h8 hσ) hini ⟨_, t3, hr.num_str _⟩
  obtain ⟨gs, hgs, gflat, gne, -⟩ := (Boltzmann.groups_spec (w.cfgs c).zGrid).2 hz
  obtain ⟨g, gs', rfl⟩ : ∃ g gs', gs = g :: gs' := by
    cases gs with
    | nil => exact absurd gflat.symm hz
    | cons g gs' => exact ⟨g, gs', rfl⟩
  have hfine : finetune lib (m + 3) (w.pars o.pars) (updatedIni ref b) = (text, none) := by
    unfold finetune
    rw [par_ok hsig]
    dsimp only
    rw [hA]
    dsimp only
    rw [hn]
    exact t1
  have hm : makeSolver lib w o dir = some (.ok ⟨.camb s ⟨lib.config, n⟩ ⟨dir, n⟩, o.pars, (w.cfgs c).zGrid, none, none, none,
      none⟩) := by
    unfold makeSolver
    rw [if_pos hc, hg]
    dsimp only
    rw [hs]
  have hsolve : solve lib (m + 3) (w.pars o.pars) w.files ⟨.camb s ⟨lib.config, n⟩ ⟨dir, n⟩, o.pars, (w.cfgs c).zGrid, none, none, none,
      none⟩ = (put w.files ⟨dir, n⟩ text, ⟨.camb s ⟨lib.config, n⟩ ⟨dir, n⟩, o.pars, (w.cfgs c).zGrid, some (C.k s g),
        some (C.transfer s g), some ((g :: gs').map (C.lin s)).flatten, some ((g :: gs').map (C.nonlin s)).flatten⟩, none) := by
    unfold solve
    dsimp only
    rw [hb]
    dsimp only
    rw [hf]
    dsimp only
    rw [hfine]
    dsimp only
    unfold cambRun
    dsimp only
    rw [hgs]
    dsimp only
    rw [hC]
    rfl
  have he : evaluate lib (m + 3) w i dir = ({ w with files := put w.files ⟨dir, n⟩ text }.setObj i
      { o with
        solver := some ⟨.camb s ⟨lib.config, n⟩ ⟨dir, n⟩, o.pars, (w.cfgs c).zGrid, some (C.k s g),
          some (C.transfer s g), some ((g :: gs').map (C.lin s)).flatten, some ((g :: gs').map (C.nonlin s)).flatten⟩
        spec := ⟨some (w.cfgs c).zGrid, some (C.k s g), some ((g :: gs').map (C.lin s)).flatten,
          some ((g :: gs').map (C.nonlin s)).flatten, some (C.transfer s g)⟩ }, none) := by
    unfold evaluate
    rw [ho]
    dsimp only
    rw [hm]
    dsimp only [evaluateWith]
    rw [hsolve]
    rfl
  rw [he]
  refine ⟨text, C, _, rfl, if_pos rfl, hini, hC, ?_, setObj_same _ _ _, rfl, ?_, ?_, ?_, g, ⟨gs'.flatten, ?_⟩, ?_, rfl⟩
  · rw [e8, mul_div_cancel₀ _ hσ.ne']
  · exact congrArg some (hrow.k _ _)
  · dsimp only
    rw [flatten_rows _ hrow.lin, gflat]
  · dsimp only
    rw [flatten_rows _ hrow.nonlin, gflat]
  · exact gflat
  · exact (gne g List.mem_cons_self).1

/-- The run of a solver of CLASS, whatever it has computed before. -/
theorem class_solve (lib : Lib K) (rounds : Nat) (f : Files) (d : Dict Str K) (s : ClassSet K) (v : Solver K) (hv : v.kind = .cls s)
    (p : Str → K) (hp : ∀ m ∈ parNames, d.lookup m = some (p m)) (hh : p "h".toList ≠ 0)
    (z : K) (hz : v.z.getLast? = some z) (C : ClassRun K) (hC : lib.cls (classFor lib.round6 s z p) = some C) :
    solve lib rounds d f v = (f, { v with
      k := some (lib.logspace s.kMin s.kMax s.nK)
      lin := some (v.z.map fun z => (lib.logspace s.kMin s.kMax s.nK).map fun k => C.lin k z)
      nonlin := some (v.z.map fun z => (lib.logspace s.kMin s.kMax s.nK).map fun k => C.nonlin k z) }, none) := by
  have q : ∀ m, m ∈ parNames → par d m = .ok (p m) := fun m hm => par_ok (hp m hm)
  have hpars : classPars lib s v.z d = .ok (classFor lib.round6 s z p) := by
    unfold classPars
    rw [q "h".toList (by decide +kernel), q "Omm".toList (by decide +kernel), q "Omb".toList (by decide +kernel),
      q "mnu".toList (by decide +kernel), q "OmDE".toList (by decide +kernel), q "sigma8".toList (by decide +kernel),
      q "w0".toList (by decide +kernel), q "wa".toList (by decide +kernel), q "ns".toList (by decide +kernel), hz]
    change (if p "h".toList = 0 then _ else _) = _
    rw [if_neg hh]
    rfl
  unfold solve
  rw [hv]
  dsimp only
  unfold classRun
  rw [hpars]
  dsimp only
  rw [hC, ← hv]

/-- With CLASS, all parameters there and h not zero: CLASS is given the parameters of the object, and the spectra are its values
at every redshift of the configuration and every wave number between the limits set; there is no transfer function. -/
theorem class_spectrum (lib : Lib K) (rounds : Nat) (w : World K)
    (i : Nat) (dir : List Str) (o : Obj K) (ho : w.objs i = some o) (hc : o.code = "CLASS".toList) (c : Nat) (hg : o.cfg = some c)
    (s : ClassSet K) (hs : (w.cfgs c).cls = some s) (p : Str → K)
    (hp : ∀ m ∈ parNames, (w.pars o.pars).lookup m = some (p m)) (hh : p "h".toList ≠ 0)
    (z : K) (hz : (w.cfgs c).zGrid.getLast? = some z) (C : ClassRun K)
    (hC : lib.cls (classFor lib.round6 s z p) = some C) :
    ∃ o', (evaluate lib rounds w i dir).2 = none ∧ (evaluate lib rounds w i dir).1.files = w.files ∧
      (evaluate lib rounds w i dir).1.objs i = some o' ∧
      o'.spec.z = some (w.cfgs c).zGrid ∧ o'.spec.k = some (lib.logspace s.kMin s.kMax s.nK) ∧
      o'.spec.lin = some ((w.cfgs c).zGrid.map fun z => (lib.logspace s.kMin s.kMax s.nK).map fun k => C.lin k z) ∧
      o'.spec.nonlin = some ((w.cfgs c).zGrid.map fun z => (lib.logspace s.kMin s.kMax s.nK).map fun k => C.nonlin k z) ∧
      o'.spec.transfer = none := by
  have hm : makeSolver lib w o dir = some (.ok ⟨.cls s, o.pars, (w.cfgs c).zGrid, none, none, none, none⟩) := by
    unfold makeSolver
    rw [if_neg (by rw [hc]; decide), if_pos hc, hg]
    dsimp only
    rw [hs]
  have hsolve := class_solve lib rounds w.files (w.pars o.pars) s ⟨.cls s, o.pars, (w.cfgs c).zGrid, none, none, none, none⟩ rfl
    p hp hh z hz C hC
  unfold evaluate
  rw [ho]
  dsimp only
  rw [hm]
  dsimp only [evaluateWith]
  rw [hsolve]
  exact ⟨_, rfl, rfl, setObj_same _ _ _, rfl, rfl, rfl, rfl, rfl⟩

/-- When the reference file or one of the parameters is missing, CAMB is not run and no file is written. -/
theorem camb_missing (lib : Lib K) (rounds : Nat) (w : World K) (i : Nat) (dir : List Str) (o : Obj K) (ho : w.objs i = some o)
    (hc : o.code = "CAMB".toList) (c : Nat) (hg : o.cfg = some c) (s : CambSet K) (n : Str) (hs : (w.cfgs c).camb = some (s, n)) :
    ((∃ m ∈ parNames, m ≠ "sigma8".toList ∧ (w.pars o.pars).lookup m = none) →
      (evaluate lib rounds w i dir).2 = some .keyError ∧ (evaluate lib rounds w i dir).1.files = w.files) ∧
    ((∀ m ∈ parNames, ∃ x, (w.pars o.pars).lookup m = some x) → w.files ⟨lib.config, n⟩ = none →
      (evaluate lib rounds w i dir).2 = some .fileNotFound ∧ (evaluate lib rounds w i dir).1.files = w.files) := by
  have hm : makeSolver lib w o dir = some (.ok ⟨.camb s ⟨lib.config, n⟩ ⟨dir, n⟩, o.pars, (w.cfgs c).zGrid, none, none, none,
      none⟩) := by
    unfold makeSolver
    rw [if_pos hc, hg]
    dsimp only
    rw [hs]
  have he : ∀ e v, solve lib rounds (w.pars o.pars) w.files ⟨.camb s ⟨lib.config, n⟩ ⟨dir, n⟩, o.pars, (w.cfgs c).zGrid, none, none,
      none, none⟩ = (w.files, v, some e) →
      (evaluate lib rounds w i dir).2 = some e ∧ (evaluate lib rounds w i dir).1.files = w.files := by
    intro e v h
    unfold evaluate
    rw [ho]
    dsimp only
    rw [hm]
    dsimp only [evaluateWith]
    rw [h]
    exact ⟨rfl, rfl⟩
  constructor
  · rintro ⟨m, hm, hne, hl⟩
    have hb : basis lib (w.pars o.pars) = .error .keyError := by
      have step : ∀ (k : Str) {β : Type} (f : K → Except Err β), (k = m ∨ ∀ x, f x = .error .keyError) →
          (par (w.pars o.pars) k >>= f) = .error .keyError := by
        intro k β f h
        unfold par
        rcases h with rfl | h
        · rw [hl]
          rfl
        · cases (w.pars o.pars).lookup k with
          | none => rfl
          | some x => exact h x
      unfold basis
      have hmem : m = "h".toList ∨ m = "Omm".toList ∨ m = "Omb".toList ∨ m = "mnu".toList ∨ m = "OmDE".toList ∨ m = "w0".toList ∨
          m = "wa".toList ∨ m = "ns".toList := by
        unfold parNames at hm
        iterate 8
          rcases List.mem_cons.mp hm with e | hm
          · tauto
        exact absurd (List.mem_singleton.mp hm) hne
      rcases hmem with rfl | rfl | rfl | rfl | rfl | rfl | rfl | rfl
      · exact step _ _ (.inl rfl)
      · exact step _ _ (.inr fun _ => step _ _ (.inl rfl))
      · exact step _ _ (.inr fun _ => step _ _ (.inr fun _ => step _ _ (.inl rfl)))
      · exact step _ _ (.inr fun _ => step _ _ (.inr fun _ => step _ _ (.inr fun _ => step _ _ (.inl rfl))))
      · exact step _ _ (.inr fun _ => step _ _ (.inr fun _ => step _ _ (.inr fun _ => step _ _ (.inr fun _ => step _ _ (.inl rfl)))))
      · exact step _ _ (.inr fun _ => step _ _ (.inr fun _ => step _ _ (.inr fun _ => step _ _ (.inr fun _ => step _ _
          (.inr fun _ => step _ _ (.inl rfl))))))
      · exact step _ _ (.inr fun _ => step _ _ (.inr fun _ => step _ _ (.inr fun _ => step _ _ (.inr fun _ => step _ _
          (.inr fun _ => step _ _ (.inr fun _ => step _ _ (.inl rfl)))))))
      · exact step _ _ (.inr fun _ => step _ _ (.inr fun _ => step _ _ (.inr fun _ => step _ _ (.inr fun _ => step _ _
          (.inr fun _ => step _ _ (.inr fun _ => step _ _ (.inr fun _ => step _ _ (.inl rfl))))))))
    refine he _ ⟨.camb s ⟨lib.config, n⟩ ⟨dir, n⟩, o.pars, (w.cfgs c).zGrid, none, none, none, none⟩ ?_
    unfold solve
    dsimp only
    rw [hb]
  · intro hp hf
    have hb : ∃ b, basis lib (w.pars o.pars) = .ok b := by
      have q : ∀ m, m ∈ parNames → ∃ x, par (w.pars o.pars) m = .ok x := fun m hm => (hp m hm).imp fun x hx => par_ok hx
      obtain ⟨x1, e1⟩ := q "h".toList (by decide +kernel)
      obtain ⟨x2, e2⟩ := q "Omm".toList (by decide +kernel)
      obtain ⟨x3, e3⟩ := q "Omb".toList (by decide +kernel)
      obtain ⟨x4, e4⟩ := q "mnu".toList (by decide +kernel)
      obtain ⟨x5, e5⟩ := q "OmDE".toList (by decide +kernel)
      obtain ⟨x6, e6⟩ := q "w0".toList (by decide +kernel)
      obtain ⟨x7, e7⟩ := q "wa".toList (by decide +kernel)
      obtain ⟨x8, e8⟩ := q "ns".toList (by decide +kernel)
      unfold basis
      rw [e1, e2, e3, e4, e5, e6, e7, e8]
      exact ⟨_, rfl⟩
    obtain ⟨b, hb⟩ := hb
    refine he _ ⟨.camb s ⟨lib.config, n⟩ ⟨dir, n⟩, o.pars, (w.cfgs c).zGrid, none, none, none, none⟩ ?_
    unfold solve
    dsimp only
    rw [hb]
    dsimp only
    rw [hf]

/-! ### What does not hold -/

/-- False: that an unknown code is refused. It is, without any change, for an object which has no solver yet; otherwise the
solver of the last call is run again, in the directory of that call, whatever directory is asked for. -/
theorem unknown_code (lib : Lib K) (rounds : Nat) (w : World K) (i : Nat) (o : Obj K) (ho : w.objs i = some o)
    (hk : ¬ Known o.code) :
    (o.solver = none → ∀ dir, evaluate lib rounds w i dir = (w, some .attributeError)) ∧
    (∀ v, o.solver = some v → ∀ dir, evaluate lib rounds w i dir = evaluateWith lib rounds w i o v) := by
  refine ⟨fun hs dir => ?_, fun v hs dir => ?_⟩
  · unfold evaluate
    rw [ho]
    dsimp only
    rw [makeSolver_unknown lib w o dir hk]
    dsimp only
    rw [hs]
  · unfold evaluate
    rw [ho]
    dsimp only
    rw [makeSolver_unknown lib w o dir hk]
    dsimp only
    rw [hs]

/-- And then the transfer function and the wave numbers of CAMB stay those of the earlier parameters, whatever the parameters
are now. -/
theorem stale_transfer (lib : Lib K) (rounds : Nat) (w : World K) (i : Nat) (dir : List Str) (o : Obj K) (ho : w.objs i = some o)
    (hk : ¬ Known o.code) (v : Solver K) (hv : o.solver = some v) (s : CambSet K) (ref ini : Loc) (hs : v.kind = .camb s ref ini)
    (t k : List K) (ht : v.transfer = some t) (hkk : v.k = some k) (hok : (evaluate lib rounds w i dir).2 = none) :
    ∃ o', (evaluate lib rounds w i dir).1.objs i = some o' ∧ o'.spec.transfer = some t ∧ o'.spec.k = some k := by
  rw [(unknown_code lib rounds w i o ho hk).2 v hv dir] at hok ⊢
  refine ⟨_, setObj_same _ _ _, ?_⟩
  have hok : (solve lib rounds (w.pars v.pars) w.files v).2.2 = none := hok
  dsimp only
  rw [if_pos hok]
  have : (solve lib rounds (w.pars v.pars) w.files v).2.1.transfer = some t ∧
      (solve lib rounds (w.pars v.pars) w.files v).2.1.k = some k := by
    unfold solve
    rw [hs]
    dsimp only
    cases basis lib (w.pars v.pars) with
    | error e => exact ⟨ht, hkk⟩
    | ok b =>
      dsimp only
      cases w.files ref with
      | none => exact ⟨ht, hkk⟩
      | some x =>
        dsimp only
        cases (finetune lib rounds (w.pars v.pars) (updatedIni x b)).2 with
        | some e => exact ⟨ht, hkk⟩
        | none =>
          dsimp only
          unfold cambRun
          cases cambGroups v.z with
          | error e => exact ⟨ht, hkk⟩
          | ok gs =>
            dsimp only
            cases lib.camb (finetune lib rounds (w.pars v.pars) (updatedIni x b)).1 with
            | none => exact ⟨ht, hkk⟩
            | some c => dsimp only; rw [ht, hkk]; exact ⟨rfl, rfl⟩
  exact this

/-- With CLASS the solver which is run again takes the parameters as they are now; only the settings are those of the earlier
call. -/
theorem class_rerun (lib : Lib K) (rounds : Nat) (w : World K) (i : Nat) (dir : List Str) (o : Obj K) (ho : w.objs i = some o)
    (hk : ¬ Known o.code) (v : Solver K) (hv : o.solver = some v) (s : ClassSet K) (hs : v.kind = .cls s)
    (p : Str → K) (hp : ∀ m ∈ parNames, (w.pars v.pars).lookup m = some (p m)) (hh : p "h".toList ≠ 0)
    (z : K) (hz : v.z.getLast? = some z) (C : ClassRun K) (hC : lib.cls (classFor lib.round6 s z p) = some C) :
    ∃ o', (evaluate lib rounds w i dir).2 = none ∧ (evaluate lib rounds w i dir).1.objs i = some o' ∧
      o'.spec.z = some v.z ∧ o'.spec.k = some (lib.logspace s.kMin s.kMax s.nK) ∧
      o'.spec.lin = some (v.z.map fun z => (lib.logspace s.kMin s.kMax s.nK).map fun k => C.lin k z) ∧
      o'.spec.nonlin = some (v.z.map fun z => (lib.logspace s.kMin s.kMax s.nK).map fun k => C.nonlin k z) := by
  rw [(unknown_code lib rounds w i o ho hk).2 v hv dir]
  dsimp only [evaluateWith]
  rw [class_solve lib rounds w.files (w.pars v.pars) s v hs p hp hh z hz C hC]
  exact ⟨_, rfl, setObj_same _ _ _, rfl, rfl, rfl, rfl⟩

/-- False: that an object uses the code of its configuration. It keeps the code which stood there when it was made: changing the code
in the configuration afterwards has no influence, while a change of the other settings has. -/
theorem code_of_creation (lib : Lib K) (rounds : Nat) (w : World K) (i c : Nat) (dir : List Str) (o : Obj K)
    (ho : w.objs i = some o) (hk : Known o.code) (s : Str) :
    let w' := (step lib w (.editCfg c { w.cfgs c with code := s })).1
    (evaluate lib rounds w' i dir).2 = (evaluate lib rounds w i dir).2 ∧
    ((evaluate lib rounds w i dir).2 = none → ∃ r r', (evaluate lib rounds w i dir).1.objs i = some r ∧
      (evaluate lib rounds w' i dir).1.objs i = some r' ∧ r.spec = r'.spec) := by
  dsimp only
  have hm : makeSolver lib (step lib w (.editCfg c { w.cfgs c with code := s })).1 o dir = makeSolver lib w o dir := by
    unfold makeSolver step
    dsimp only
    cases o.cfg with
    | none => rfl
    | some j =>
      dsimp only
      by_cases h : j = c
      · subst h; rw [if_pos rfl]
      · rw [if_neg h]
  have e1 : (step lib w (.editCfg c { w.cfgs c with code := s })).1.objs i = some o := ho
  rcases makeSolver_known lib w o dir hk with ⟨e, he⟩ | ⟨v, hv, -⟩
  · unfold evaluate
    rw [e1, ho]
    dsimp only
    rw [hm, he]
    exact ⟨rfl, nofun⟩
  · unfold evaluate
    rw [e1, ho]
    dsimp only
    rw [hm, hv]
    exact ⟨rfl, fun h => ⟨_, _, setObj_same _ _ _, setObj_same _ _ _, rfl⟩⟩

/-! ### Examples -/

/-- A library over ℚ: σ₈ is twice the root of the amplitude, the spectra are multiples of redshift and amplitude. -/
def exLib : Lib ℚ where
  num s := (parseNat s).bind Encodable.decode
  str x := decStr (Encodable.encode x)
  config := ["config".toList]
  round6 := id
  logspace a b _ := [a, b]
  camb t := (((readIni t).lookup ampKey).bind fun a => (parseNat a).bind Encodable.decode).map fun a =>
    ⟨2 * Rat.sqrt a, fun s _ => [s.kMax], fun _ g => g.map fun z => [z * a], fun _ g => g.map fun z => [z * a * 2], fun _ g => g⟩
  cls p := some ⟨fun k z => p.h * k * z, fun k z => p.h * k * z * 2⟩

theorem exRegular : Regular exLib where
  num_str x := by
    change (parseNat (decStr (Encodable.encode x))).bind Encodable.decode = some x
    rw [parseNat_decStr]
    exact Encodable.encodek x
  good x := by
    have hd := decStr_digits (Encodable.encode x)
    have key : ∀ c, isDigit c = true → Boltzmann.isBreak c = false ∧ Boltzmann.isSpace c = false ∧ c ≠ '=' := by
      intro c hc
      rw [← digitChar_digitVal hc]
      have := digitVal_lt hc
      generalize digitVal c = n at *
      interval_cases n <;> decide
    refine ⟨fun c hc => (key c (hd c hc)).1, ⟨fun c hc => (key c (hd c ?_)).2.1, fun c hc => (key c (hd c ?_)).2.1⟩,
      fun hc => (key _ (hd _ hc)).2.2 rfl⟩
    · exact List.mem_of_mem_head? hc
    · exact List.mem_of_mem_getLast? hc

/-- Parameters. -/
def exPar (n : Str) : ℚ := if n = "sigma8".toList then 4 / 5 else 1

/-- A world with a reference file and the parameters. -/
def exWorld (code : Str) : World ℚ where
  cfgs _ := ⟨[0, 1, 2], code, some (⟨5, 10⟩, "params.ini".toList), some ⟨5, 1, 2⟩⟩
  pars _ := parNames.map fun n => (n, exPar n)
  files l := if l.dir = ["config".toList] then some (writeIni [(ampKey, decStr (Encodable.encode (1 : ℚ)))]) else none
  objs _ := none

theorem exPars : ∀ m ∈ parNames, (parNames.map fun n => (n, exPar n)).lookup m = some (exPar m) := by
  intro m hm
  refine PyDict.lookup_of_mem _ ?_ (p := (m, exPar m)) (List.mem_map_of_mem (f := fun n => (n, exPar n)) hm)
  rw [List.map_map]
  change (parNames.map id).Nodup
  rw [List.map_id]
  decide +kernel

theorem exRef : readIni (writeIni [(ampKey, decStr (Encodable.encode (1 : ℚ)))]) = [(ampKey, decStr (Encodable.encode (1 : ℚ)))] := by
  refine Boltzmann.round_trip_partial _ (List.nodup_singleton _) fun p hp => ?_
  rw [List.mem_singleton] at hp
  subst hp
  exact ⟨ampKey_good, exRegular.good 1⟩

theorem map_rows (f : ℚ → ℚ) (g : List ℚ) : (g.map fun z => [f z]) = (g.map fun z => [z].map fun z => [f z]).flatten := by
  induction g with
  | nil => rfl
  | cons z g ih =>
    rw [List.map_cons, List.map_cons, List.flatten_cons, ← ih]
    rfl

/-- The computation of an object made in this world, with CAMB. -/
theorem exCamb : ∃ text C o', (evaluate exLib 3 (step exLib (exWorld "CAMB".toList) (.new 0 (some 0) 0)).1 0 ["run".toList]).2 = none ∧
    (evaluate exLib 3 (step exLib (exWorld "CAMB".toList) (.new 0 (some 0) 0)).1 0 ["run".toList]).1.files
      ⟨["run".toList], "params.ini".toList⟩ = some text ∧
    exLib.camb text = some C ∧ C.sigma8 = 4 / 5 ∧
    (evaluate exLib 3 (step exLib (exWorld "CAMB".toList) (.new 0 (some 0) 0)).1 0 ["run".toList]).1.objs 0 = some o' ∧
    o'.spec.lin = some ([0, 1, 2].map fun z => C.lin ⟨5, 10⟩ [z]).flatten := by
  obtain ⟨text, C, o', h1, h2, -, h3, h4, h5, -, -, h6, -⟩ := camb_spectrum exLib exRegular 3 (le_refl 3)
    (step exLib (exWorld "CAMB".toList) (.new 0 (some 0) 0)).1 0 ["run".toList]
    (create (exWorld "CAMB".toList) (some 0) 0) (setObj_same _ _ _) rfl 0 rfl ⟨5, 10⟩ "params.ini".toList rfl exPar exPars
    (writeIni [(ampKey, decStr (Encodable.encode (1 : ℚ)))]) (if_pos rfl : (if ["config".toList] = ["config".toList] then some
      (writeIni [(ampKey, decStr (Encodable.encode (1 : ℚ)))]) else none) = _) (decStr (Encodable.encode (1 : ℚ))) 1
    (by rw [exRef, lookup_if]; exact if_pos rfl) (exRegular.num_str 1)
    (by rw [show exPar "sigma8".toList = 4 / 5 from if_pos rfl]; norm_num)
    (by rw [show exPar "sigma8".toList = 4 / 5 from if_pos rfl]; norm_num) 2 (by norm_num)
    (fun t q hq _ ht => by
      obtain ⟨a, ha, hn⟩ := ht
      have hn : (parseNat a).bind Encodable.decode = some (1 * q ^ 2) := hn
      refine ⟨⟨2 * Rat.sqrt (1 * q ^ 2), fun s _ => [s.kMax], fun _ g => g.map fun z => [z * (1 * q ^ 2)],
        fun _ g => g.map fun z => [z * (1 * q ^ 2) * 2], fun _ g => g⟩, ?_, ?_, ⟨?_, ?_, ?_⟩⟩
      · change (((readIni t).lookup "scalar_amp".toList).bind fun a => (parseNat a).bind Encodable.decode).map _ = _
        rw [ha, Option.bind_some, hn]
        rfl
      · dsimp only
        rw [one_mul, sq, Rat.sqrt_eq, abs_of_pos hq]
      · exact fun g => map_rows (fun z => z * (1 * q ^ 2)) g
      · exact fun g => map_rows (fun z => z * (1 * q ^ 2) * 2) g
      · exact fun _ _ => rfl)
    (by intro h; cases h)
  refine ⟨text, C, o', h1, h2, h3, ?_, h5, h6⟩
  rw [h4]
  exact if_pos rfl

/-- The same in another directory, after other computations and with another ini file there. -/
example (w : World ℚ) (h1 : w.cfgs 3 = (exWorld "CAMB".toList).cfgs 0) (h2 : w.pars 4 = (exWorld "CAMB".toList).pars 0)
    (h3 : ∀ n, w.files ⟨["config".toList], n⟩ = (exWorld "CAMB".toList).files ⟨["config".toList], n⟩) :
    (step exLib w (.cosmology 7 3 4 ["elsewhere".toList] 3)).2 = none := by
  have hk : Known ((exWorld "CAMB".toList).cfgs 0).code := .inl rfl
  obtain ⟨-, -, -, h, -⟩ := exCamb
  have := ((cosmology_spectrum exLib (exWorld "CAMB".toList) 0 0 0 ["run".toList] 3).2 hk w 7 3 4 ["elsewhere".toList] h1 h2 h3).1
  rw [← this]
  exact h

/-- The reference file is kept. -/
example : (evaluate exLib 3 (step exLib (exWorld "CAMB".toList) (.new 0 (some 0) 0)).1 0 ["run".toList]).1.files
    ⟨["config".toList], "params.ini".toList⟩ = (exWorld "CAMB".toList).files ⟨["config".toList], "params.ini".toList⟩ :=
  reference_kept exLib 3 (step exLib (exWorld "CAMB".toList) (.new 0 (some 0) 0)).1 0 ["run".toList]
    (create (exWorld "CAMB".toList) (some 0) 0) (setObj_same _ _ _) (.inl rfl) (by decide) _

/-- With CLASS. -/
example : ∃ o', (evaluate exLib 0 (step exLib (exWorld "CLASS".toList) (.new 0 (some 0) 0)).1 0 ["run".toList]).1.objs 0 = some o' ∧
    o'.spec.lin = some [[0, 0], [1, 5], [2, 10]] := by
  obtain ⟨o', -, -, h1, -, -, h2, -⟩ := class_spectrum exLib 0 (step exLib (exWorld "CLASS".toList) (.new 0 (some 0) 0)).1 0
    ["run".toList] (create (exWorld "CLASS".toList) (some 0) 0) (setObj_same _ _ _) rfl 0 rfl ⟨5, 1, 2⟩ rfl exPar exPars
    (by rw [show exPar "h".toList = 1 from if_neg (by decide)]; exact one_ne_zero) 2 rfl _ rfl
  refine ⟨o', h1, h2.trans ?_⟩
  have e : exPar "h".toList = 1 := if_neg (by decide)
  change some [[exPar "h".toList * 1 * 0, exPar "h".toList * 5 * 0], [exPar "h".toList * 1 * 1, exPar "h".toList * 5 * 1],
    [exPar "h".toList * 1 * 2, exPar "h".toList * 5 * 2]] = _
  rw [e]
  norm_num

/-- A missing parameter, and a missing reference file. -/
example : (evaluate exLib 3 { (step exLib (exWorld "CAMB".toList) (.new 0 (some 0) 0)).1 with pars := fun _ => [] } 0 []).2 =
    some .keyError :=
  ((camb_missing exLib 3 { (step exLib (exWorld "CAMB".toList) (.new 0 (some 0) 0)).1 with pars := fun _ => [] } 0 []
    (create (exWorld "CAMB".toList) (some 0) 0) rfl rfl 0 rfl ⟨5, 10⟩ "params.ini".toList rfl).1
    ⟨"h".toList, List.mem_cons_self, by decide, rfl⟩).1

example : (evaluate exLib 3 { (step exLib (exWorld "CAMB".toList) (.new 0 (some 0) 0)).1 with files := fun _ => none } 0 []).2 =
    some .fileNotFound :=
  ((camb_missing exLib 3 { (step exLib (exWorld "CAMB".toList) (.new 0 (some 0) 0)).1 with files := fun _ => none } 0 []
    (create (exWorld "CAMB".toList) (some 0) 0) rfl rfl 0 rfl ⟨5, 10⟩ "params.ini".toList rfl).2
    (fun m hm => ⟨_, exPars m hm⟩) rfl).1

/-- An object whose code is unknown and which has a solver of CLASS. -/
example : (evaluate exLib 0 { exWorld "CAMB".toList with objs := fun _ => some ⟨none, 0, "?".toList,
    some ⟨.cls ⟨5, 1, 2⟩, 0, [0, 1], none, none, none, none⟩, {}⟩ } 0 []).2 = none := by
  obtain ⟨-, h, -⟩ := class_rerun exLib 0 { exWorld "CAMB".toList with objs := fun _ => some ⟨none, 0, "?".toList,
    some ⟨.cls ⟨5, 1, 2⟩, 0, [0, 1], none, none, none, none⟩, {}⟩ } 0 [] _ rfl (by rintro (h | h) <;> revert h <;> decide) _ rfl ⟨5, 1, 2⟩ rfl exPar exPars
    (by rw [show exPar "h".toList = 1 from if_neg (by decide)]; exact one_ne_zero) 1 rfl _ rfl
  exact h

/-- The history: an object is made, computed with CAMB, its code changed to an unknown name and its parameters changed. -/
def exHistory : List (Op ℚ) := [.new 0 (some 0) 0, .evaluate 0 ["run".toList] 3, .setCode 0 "CAMBB".toList,
  .editPars 0 (parNames.map fun n => (n, 2)), .evaluate 0 ["new".toList] 5]

/-- A library for it, where σ₈ is 1 for the amplitude 1 and 2 for the amplitude 4. -/
def exLib' : Lib ℚ where
  num s := if s = "1".toList then some 1 else if s = "4".toList then some 4 else none
  str x := if x = 1 then "1".toList else if x = 4 then "4".toList else "0".toList
  config := ["config".toList]
  round6 := id
  logspace a b _ := [a, b]
  camb t := match (readIni t).lookup ampKey with
    | none => none
    | some a => if a = "1".toList then some ⟨1, fun _ _ => [1], fun _ g => g.map fun _ => [1], fun _ g => g.map fun _ => [1], fun _ _ => [1]⟩
      else some ⟨2, fun _ _ => [1], fun _ g => g.map fun _ => [4], fun _ g => g.map fun _ => [4], fun _ _ => [4]⟩
  cls _ := none

/-- A world for it. -/
def exWorld' : World ℚ where
  cfgs _ := ⟨[0], "CAMB".toList, some (⟨5, 10⟩, "p".toList), none⟩
  pars _ := parNames.map fun n => (n, 1)
  files l := if l.dir = ["config".toList] then some (writeIni [(ampKey, "1".toList)]) else none
  objs _ := none

/-- The last computation, with an unknown code, raises nothing, takes the linear spectrum for the new parameters and keeps the
transfer function for the old ones, and writes into the old directory. -/
theorem unknown_code_runs :
    (step exLib' (steps exLib' exWorld' (exHistory.take 4)) (.evaluate 0 ["new".toList] 5)).2 = none ∧
    ((steps exLib' exWorld' exHistory).objs 0).map (fun o => o.spec.lin) = some (some [[4]]) ∧
    ((steps exLib' exWorld' exHistory).objs 0).map (fun o => o.spec.transfer) = some (some [1]) ∧
    (steps exLib' exWorld' exHistory).files ⟨["new".toList], "p".toList⟩ = none ∧
    ((steps exLib' exWorld' exHistory).files ⟨["run".toList], "p".toList⟩).isSome = true := by
  decide +kernel

/-- False: that the reference file is never changed. A computation in the directory of the configurations overwrites it. -/
theorem reference_overwritten :
    (steps exLib' exWorld' [.new 0 (some 0) 0, .evaluate 0 ["config".toList] 3]).files ⟨["config".toList], "p".toList⟩ ≠
      exWorld'.files ⟨["config".toList], "p".toList⟩ := by
  decide +kernel

/-- An object made with one code keeps it when the configuration is changed; the spectra it holds are those of the history's last
successful computation. -/
example : ∃ l₁ op l₂ o₁, exHistory = l₁ ++ op :: l₂ ∧ op.Computes 0 ∧ (step exLib' (steps exLib' exWorld' l₁) op).1.objs 0 = some o₁ ∧
    o₁.spec.lin = some [[4]] := by
  obtain ⟨-, h, -⟩ := unknown_code_runs
  cases ho : (steps exLib' exWorld' exHistory).objs 0 with
  | none => rw [ho] at h; cases h
  | some o =>
    rw [ho] at h
    have h : o.spec.lin = some [[4]] := Option.some.inj h
    obtain ⟨l₁, op, l₂, o₁, h1, h2, -, h3, h4, -⟩ := spectra_of_last exLib' exWorld' (fun _ => rfl) exHistory 0 o ho (by rw [h]; nofun)
    exact ⟨l₁, op, l₂, o₁, h1, h2, h3, h4 ▸ h⟩

example : ((steps exLib' exWorld' [.new 0 (some 0) 0, .editCfg 0 { exWorld'.cfgs 0 with code := "CLASS".toList },
    .evaluate 0 ["run".toList] 3]).objs 0).map (fun o => o.spec.lin) = some (some [[1]]) := by
  decide +kernel

end Seyfert.PowerEval
