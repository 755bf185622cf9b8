import Verif.Props.InformationLoss
import Verif.Props.FisherTask

/-!
The files of the Fisher task, from spectra and derivatives to what can be read (C123): the evaluation of
`Verif.Props.Information` in the jobs of `Verif.Props.FisherTask`.
-/

set_option linter.unusedSectionVars false

namespace Seyfert.FTask

open Fisher (FM DF)
open Cov (FEll Store computeFisher fisherMatrixOf Survey Over NoRepeats IsOrder totalInfo)
open Resume (File)

/-- The probes by their aliases. -/
def aliases : List Str := ["WL".toList, "GCph".toList, "GCsp".toList]

/-- A brief string and its correlations fit. -/
structure Reads (name : Str) (dv : List (Str × Str)) : Prop where
  nonempty : dv ≠ []
  probes : ∀ AB ∈ dv, AB.1 ∈ aliases ∧ AB.2 ∈ aliases
  once : NoRepeats dv
  nodup : (probesOf name).Nodup
  involved : ∀ p, p ∈ probesOf name ↔ (p, p) ∈ dv
  single : ∀ p, singleOf name = some p ↔ dv = [(p, p)]

def readsB (name : Str) : Bool :=
  match readDV name with
  | .error _ => false
  | .ok (_, dv) => decide (dv ≠ []) && dv.all (fun AB => decide (AB.1 ∈ aliases) && decide (AB.2 ∈ aliases)) &&
      decide (dv.Nodup) && dv.all (fun AB => decide (AB.1 = AB.2) || decide ((AB.2, AB.1) ∉ dv)) &&
      decide ((probesOf name).Nodup) && (probesOf name).all (fun p => decide ((p, p) ∈ dv)) &&
      dv.all (fun AB => decide (AB.1 ≠ AB.2) || decide (AB.1 ∈ probesOf name)) &&
      match singleOf name, dv with
      | some p, [AB] => decide (AB = (p, p))
      | none, [AB] => decide (AB.1 ≠ AB.2)
      | some _, _ => false
      | none, _ => true

theorem selected_read : (autoNames ++ crossNames).all readsB = true := by decide +kernel

theorem reads_of {name : Str} (h : readsB name = true) : ∃ label dv, readDV name = .ok (label, dv) ∧ Reads name dv := by
  unfold readsB at h
  split at h
  · cases h
  · rename_i label dv hr
    simp only [Bool.and_eq_true, decide_eq_true_eq, List.all_eq_true, Bool.or_eq_true] at h
    obtain ⟨⟨⟨⟨⟨⟨⟨h1, h2⟩, h3⟩, h4⟩, h5⟩, h6⟩, h7⟩, h8⟩ := h
    refine ⟨label, dv, hr, h1, h2, ⟨h3, fun AB hAB hne => ?_⟩, h5, fun p => ⟨h6 p, fun hp => ?_⟩, fun p => ?_⟩
    · rcases h4 AB hAB with h | h
      · exact absurd h hne
      · exact h
    · rcases h7 _ hp with h | h
      · exact absurd rfl h
      · exact h
    · split at h8
      · rename_i q AB hs
        rw [decide_eq_true_eq] at h8
        subst h8
        rw [hs]
        simp [eq_comm]
      · rename_i AB hs
        rw [decide_eq_true_eq] at h8
        rw [hs]
        constructor
        · intro h; cases h
        · intro h
          simp only [List.cons.injEq, and_true] at h
          subst h
          exact absurd rfl h8
      · cases h8
      · rename_i hs hn
        rw [hs]
        constructor
        · intro h; cases h
        · intro h; exact absurd h (hn (p, p))

theorem read_selected {name : Str} (h : name ∈ autoNames ++ crossNames) :
    ∃ label dv, readDV name = .ok (label, dv) ∧ Reads name dv :=
  reads_of (List.all_eq_true.1 selected_read name h)

variable {N : Type} [LinearOrder N] {cosmo : List N} {nuis : Str → List N} {delta : Store Str ℝ}
  {D : N → Option (Store Str ℝ)} {ord : List Str → List Str} {nb : Str → Nat} {e : Str → List ℝ} {g : Str → Str → List ℝ}
  {δ : Str → Str → ℝ → Nat → Nat → ℝ} {d : N → Str → Str → ℝ → Nat → Nat → ℝ}

theorem computeFisher_single (p : Str) (order order' : List Str) (auto auto' : Option (List (Str × FEll N ℝ))) :
    computeFisher cosmo nuis delta D [(p, p)] order auto = computeFisher cosmo nuis delta D [(p, p)] order' auto' := by
  have h : ∀ (l : List ℝ) (fe : FEll N ℝ), Cov.finish l [(p, p)] order auto fe = Cov.finish l [(p, p)] order' auto' fe := by
    intro l fe
    unfold Cov.finish
    rw [show Cov.singleAuto [(p, p)] = true from decide_eq_true rfl]
    rfl
  unfold computeFisher
  simp only [h]

theorem tablesFor_lookup {f : Str → Option (Out N ℝ)} {t : Str → FEll N ℝ} {l : List Str} {p : Str}
    (h : ∀ q ∈ l, f q = some (.table (t q))) (hp : p ∈ l) : (tablesFor f l).lookup p = some (t p) := by
  induction l with
  | nil => cases hp
  | cons q l ih =>
    have : tablesFor f (q :: l) = (q, t q) :: tablesFor f l := by
      unfold tablesFor
      rw [List.filterMap_cons, h q (by simp)]
    rw [this, List.lookup_cons]
    by_cases hq : p = q
    · subst hq
      simp
    · rw [show (p == q) = false by simpa using hq]
      exact ih (fun x hx => h x (by simp [hx])) (by simpa [hq] using hp)

theorem tablesFor_congr {f f' : Str → Option (Out N ℝ)} {l : List Str} (h : ∀ p ∈ l, f p = f' p) :
    tablesFor f l = tablesFor f' l := by
  unfold tablesFor
  induction l with
  | nil => rfl
  | cons p l ih =>
    rw [List.filterMap_cons, List.filterMap_cons, h p (by simp), ih fun q hq => h q (by simp [hq])]

/-- What the file of a data vector should hold: a Fisher matrix over the free parameters of its probes with the total
information of its correlations. -/
structure Forecast (cosmo : List N) (nuis : Str → List N) (nb : Str → Nat) (e : Str → List ℝ)
    (δ : Str → Str → ℝ → Nat → Nat → ℝ) (d : N → Str → Str → ℝ → Nat → Nat → ℝ) (name : Str) (F : FM N ℝ) : Prop where
  wf : F.WF
  names : ∀ a, a ∈ F.matrix.rows ↔ a ∈ cosmo ∨ ∃ dv label, readDV name = .ok (label, dv) ∧ ∃ p ∈ Cov.probesOf dv, a ∈ nuis p
  cosmological : ∀ a, a ∈ F.cosmo ↔ a ∈ cosmo
  values : ∀ label dv, readDV name = .ok (label, dv) → F.name = label ∧
    ∀ a ∈ F.matrix.rows, ∀ b ∈ F.matrix.rows, F.matrix.val a b = totalInfo cosmo nuis nb e δ d dv a b

theorem over_of {name : Str} {dv : List (Str × Str)} (h : Reads name dv) : Over aliases dv := by
  refine ⟨h.nonempty, fun x hx => ?_, h.once⟩
  obtain ⟨AB, h1, rfl | rfl⟩ := Cov.mem_probesOf.mp hx
  · exact (h.probes AB h1).1
  · exact (h.probes AB h1).2

theorem order_of {name : Str} {dv : List (Str × Str)} (h : Reads name dv) (ho : ∀ l : List Str, (ord l).Perm l) :
    IsOrder (ord (probesOf name)) dv :=
  ⟨(ho _).nodup_iff.mpr h.nodup, fun p => ((ho _).mem_iff).trans (h.involved p)⟩

theorem fisherOf_eq {name label : Str} {dv : List (Str × Str)} (hr : readDV name = .ok (label, dv))
    {auto : Option (List (Str × FEll N ℝ))} {F : DF N ℝ} {fe : FEll N ℝ}
    (h : computeFisher cosmo nuis delta D dv (ord (probesOf name)) auto = .ok (F, fe)) :
    fisherOf cosmo nuis delta D ord name auto = .fisher (fisherMatrixOf cosmo nuis dv label F) := by
  unfold fisherOf
  rw [hr]
  simp only [h]

/-- A Fisher matrix with these names and entries is as it should be. -/
theorem forecast_of {name label : Str} {dv : List (Str × Str)} (hr : readDV name = .ok (label, dv)) {F : DF N ℝ}
    (h2 : ∀ a, a ∈ F.rows ↔ a ∈ cosmo ∨ ∃ p ∈ Cov.probesOf dv, a ∈ nuis p) (h3 : F.rows.Pairwise (· < ·))
    (h4 : F.cols = F.rows)
    (h5 : ∀ a ∈ F.rows, ∀ b ∈ F.rows, F.val a b = totalInfo cosmo nuis nb e δ d dv a b) :
    Forecast cosmo nuis nb e δ d name (fisherMatrixOf cosmo nuis dv label F) := by
  refine ⟨Cov.wf_fisherMatrixOf label h2 h3 h4, fun a => ?_, fun a => by simp [fisherMatrixOf], ?_⟩
  · refine (h2 a).trans (or_congr Iff.rfl ⟨fun h => ⟨dv, label, hr, h⟩, ?_⟩)
    rintro ⟨dv', label', hr', h⟩
    rw [hr] at hr'
    cases hr'
    exact h
  · intro label' dv' hr'
    rw [hr] at hr'
    cases hr'
    exact ⟨rfl, h5⟩

/-- The tables of the probes. -/
theorem table_eq (S : Survey aliases cosmo nuis delta D nb e g δ d) {p : Str} (hp : p ∈ aliases) :
    ∃ F t, computeFisher cosmo nuis delta D [(p, p)] [p] none = .ok (F, t) ∧ tableOf cosmo nuis delta D p = .table t := by
  obtain ⟨F, t, h⟩ := Cov.survey_auto S hp [p] none
  refine ⟨F, t, h, ?_⟩
  unfold tableOf
  rw [h]

/-- What the task on the selected data vectors computes is as it should be. -/
theorem right_forecast (S : Survey aliases cosmo nuis delta D nb e g δ d) (ho : ∀ l : List Str, (ord l).Perm l)
    {C : Comp (Out N ℝ)} (hC : forecastComp selectedLines cosmo nuis delta D ord = .ok C) :
    C.WF ∧ C.autos = autoNames ∧ C.cross = crossNames ∧
      ∀ name ∈ autoNames ++ crossNames, ∃ F, C.right name = .fisher F ∧ Forecast cosmo nuis nb e δ d name F := by
  obtain ⟨h1, h2, _⟩ := selected_wf (tableOf cosmo nuis delta D) (fun brief => fisherOf cosmo nuis delta D ord brief none)
    (fun brief f => fisherOf cosmo nuis delta D ord brief (some (tablesFor f (ord (probesOf brief))))) (by
      intro name f f' h
      show fisherOf _ _ _ _ _ _ (some _) = fisherOf _ _ _ _ _ _ (some _)
      rw [tablesFor_congr fun p hp => h p ((ho _).mem_iff.mp hp)])
  unfold forecastComp at hC
  rw [h1] at hC
  cases hC
  refine ⟨h2, rfl, rfl, fun name hn => ?_⟩
  obtain ⟨label, dv, hr, hR⟩ := read_selected hn
  have hA : ∀ f : Str → FEll N ℝ, (∀ p ∈ aliases, ∃ F, computeFisher cosmo nuis delta D [(p, p)] [p] none = .ok (F, f p)) →
      ∀ A : List (Str × FEll N ℝ), (∀ p, (p, p) ∈ dv → A.lookup p = some (f p)) →
      ∃ F fe, computeFisher cosmo nuis delta D dv (ord (probesOf name)) (some A) = .ok (F, fe) ∧
        Forecast cosmo nuis nb e δ d name (fisherMatrixOf cosmo nuis dv label F) := by
    intro f hf A hA
    obtain ⟨F, fe, g1, g2, g3, g4, g5⟩ := Cov.survey_fisher S (over_of hR) (order_of hR ho) (A := A) (by
      intro p hp
      obtain ⟨F, h⟩ := hf p (hR.probes _ hp).1
      refine ⟨F, f p, h, ?_⟩
      rw [lawful_beq_subsingleton (instBEqOfDecidableEq : BEq Str) List.instBEq]
      exact hA p hp)
    exact ⟨F, fe, g1, forecast_of hr g2 g3 g4 g5⟩
  have hT : ∀ p ∈ aliases, ∃ t, (∃ F, computeFisher cosmo nuis delta D [(p, p)] [p] none = .ok (F, t)) ∧
      tableOf cosmo nuis delta D p = .table t := by
    intro p hp
    obtain ⟨F, t, h, h'⟩ := table_eq S hp
    exact ⟨t, ⟨F, h⟩, h'⟩
  have hT' : ∀ p, ∃ t, p ∈ aliases → (∃ F, computeFisher cosmo nuis delta D [(p, p)] [p] none = .ok (F, t)) ∧
      tableOf cosmo nuis delta D p = .table t := by
    intro p
    by_cases hp : p ∈ aliases
    · obtain ⟨t, h⟩ := hT p hp
      exact ⟨t, fun _ => h⟩
    · obtain ⟨t, _⟩ := hT "WL".toList (by simp [aliases])
      exact ⟨t, fun h => absurd h hp⟩
  choose t ht using hT'
  show ∃ F, Comp.right _ name = _ ∧ _
  unfold Comp.right selectedComp
  simp only
  cases hs : singleOf name with
  | some p =>
    have hdv := (hR.single p).mp hs
    subst hdv
    obtain ⟨F, fe, g1, g2⟩ := hA t (fun p hp => (ht p hp).1) [(p, t p)] (by
      intro q hq
      rw [List.mem_singleton] at hq
      cases hq
      simp)
    obtain ⟨F', fe', g1'⟩ := Cov.survey_auto S (hR.probes (p, p) (by simp)).1 (ord (probesOf name)) none
    refine ⟨_, fisherOf_eq hr g1', ?_⟩
    have : F' = F := by
      have := computeFisher_single (cosmo := cosmo) (nuis := nuis) (delta := delta) (D := D) p (ord (probesOf name))
        (ord (probesOf name)) none (some [(p, t p)])
      rw [g1, g1'] at this
      cases this
      rfl
    rw [this]
    exact g2
  | none =>
    obtain ⟨F, fe, g1, g2⟩ := hA t (fun p hp => (ht p hp).1)
      (tablesFor (fun p => some (tableOf cosmo nuis delta D p)) (ord (probesOf name))) (by
        intro p hp
        refine tablesFor_lookup (t := t) ?_ ((order_of hR ho).2 p |>.mpr hp)
        intro q hq
        rw [(ht q (hR.probes _ (((order_of hR ho).2 q).mp hq)).1).2])
    exact ⟨_, fisherOf_eq hr g1, g2⟩

/-- C123. From spectra to files. With a complete set of spectra and derivatives, the task on the selected data vectors,
interactive or in a batch system, in a fresh directory or overwriting one, ends without failing however its jobs are
interleaved, and for each of the 33 data vectors leaves a file with a Fisher matrix over the free parameters of its probes
whose entries are the total information of its correlations; there is no other file. -/
theorem forecast_files (S : Survey aliases cosmo nuis delta D nb e g δ d) (ho : ∀ l : List Str, (ord l).Perm l)
    (m : Mode) {ow : Bool} {dk : Disk (Out N ℝ)} (h0 : ow = true ∨ dk = ⟨none, []⟩) :
    ∃ C, forecastComp selectedLines cosmo nuis delta D ord = .ok C ∧ (∃ dk' ok, Task C m ow dk dk' ok) ∧
      ∀ dk' ok, Task C m ow dk dk' ok → ok = true ∧
        (∀ name ∈ autoNames ++ crossNames, ∃ F, dk'.fishers.lookup name = some (.full (.fisher F)) ∧
          Forecast cosmo nuis nb e δ d name F) ∧
        ∀ name, name ∉ autoNames ++ crossNames → dk'.fishers.lookup name = none := by
  obtain ⟨C, hC⟩ : ∃ C, forecastComp selectedLines cosmo nuis delta D ord = .ok C :=
    ⟨_, (selected_wf _ _ _ (by
      intro name f f' h
      show fisherOf _ _ _ _ _ _ (some _) = fisherOf _ _ _ _ _ _ (some _)
      rw [tablesFor_congr fun p hp => h p ((ho _).mem_iff.mp hp)])).1⟩
  obtain ⟨h1, h2, h3, h4⟩ := right_forecast S ho hC
  obtain ⟨g1, g2⟩ := completes h1 m h0
  refine ⟨C, hC, g1, fun dk' ok ht => ?_⟩
  obtain ⟨k1, k2, _⟩ := g2 dk' ok ht
  rw [h2, h3] at k2
  refine ⟨k1, fun name hn => ?_, fun name hn => ?_⟩
  · obtain ⟨F, f1, f2⟩ := h4 name hn
    exact ⟨F, by rw [k2 name, if_pos hn, f1], f2⟩
  · rw [k2 name, if_neg hn]

/-- C123. At no moment of any history of jobs started, interleaved and killed does the file of a selected data vector hold
anything else: what can be read is right. -/
theorem forecast_never_wrong (S : Survey aliases cosmo nuis delta D nb e g δ d) (ho : ∀ l : List Str, (ord l).Perm l)
    {C : Comp (Out N ℝ)} (hC : forecastComp selectedLines cosmo nuis delta D ord = .ok C) {s : Sys (Out N ℝ)}
    (h : Relation.ReflTransGen (Happens C) Sys.empty s) {name : Str} (hn : name ∈ autoNames ++ crossNames) {v : Out N ℝ}
    (hv : s.disk.fishers.lookup name = some (.full v)) : ∃ F, v = .fisher F ∧ Forecast cosmo nuis nb e δ d name F := by
  obtain ⟨h1, h2, h3, h4⟩ := right_forecast S ho hC
  obtain ⟨F, f1, f2⟩ := h4 name hn
  exact ⟨F, by rw [(never_wrong h1.isLocal h).fishers name v hv, f1], f2⟩

/-! ### Example -/

/-- The spectroscopic probe has two multipoles, the others three; one bin each, independent probes. -/
def uGrid (x : Str) : List ℝ := if x = "GCsp".toList then [1, 2] else [1, 2, 3]

def uPair (x y : Str) : List ℝ := if x = "GCsp".toList ∨ y = "GCsp".toList then [1, 2] else [1, 2, 3]

def uSpec (a b : Str) (_ : ℝ) (_ _ : Nat) : ℝ := if a = b then 1 else 0

def uStore : Store Str ℝ :=
  (aliases.product aliases).map fun p => (p, Cov.fullBlock (fun _ => 1) uPair uSpec p.1 p.2)

theorem uHolds : Cov.Holds uStore (fun _ => 1) uPair uSpec where
  stored := by
    intro a b t h
    unfold uStore at h
    rw [lawful_beq_subsingleton (instBEqOfDecidableEq : BEq Str) List.instBEq, Cov.lookup_keyed] at h
    split at h
    · exact (Option.some.inj h).symm
    · cases h
  symm := fun a b _ _ _ => by simp only [uSpec, eq_comm]
  gsymm := fun a b => by simp only [uPair, or_comm]
  sorted := fun a b => by
    unfold uPair
    split <;> norm_num

theorem uHas {x y : Str} (hx : x ∈ aliases) (hy : y ∈ aliases) : Cov.Has uStore x y := by
  refine Or.inl ?_
  unfold uStore
  rw [lawful_beq_subsingleton (instBEqOfDecidableEq : BEq Str) List.instBEq, Cov.lookup_keyed,
    if_pos ((List.pair_mem_product (x := x) (y := y)).mpr ⟨hx, hy⟩)]
  rfl

theorem uSurvey : Survey aliases [(0 : Nat)] (fun _ => []) uStore (fun _ => some uStore) (fun _ => 1) uGrid uPair uSpec
    (fun _ => uSpec) where
  spectra := uHolds
  grids := by
    intro x y ℓ
    unfold uPair uGrid
    by_cases hx : x = "GCsp".toList <;> by_cases hy : y = "GCsp".toList
    · rw [if_pos (Or.inl hx), if_pos hx, if_pos hy, and_self]
    · rw [if_pos (Or.inl hx), if_pos hx, if_neg hy]
      simp only [List.mem_cons, List.not_mem_nil, or_false]
      tauto
    · rw [if_pos (Or.inr hy), if_neg hx, if_pos hy]
      simp only [List.mem_cons, List.not_mem_nil, or_false]
      tauto
    · rw [if_neg (by tauto), if_neg hx, if_neg hy, and_self]
  increasing := fun x => by
    unfold uGrid
    split <;> norm_num
  stored := fun x hx y hy => uHas hx hy
  free := List.cons_ne_nil _ _
  derivs := fun a _ => ⟨_, rfl, uHolds, fun x hx y hy => uHas hx hy⟩
  two := ⟨1, 2, by norm_num, fun x _ => by unfold uGrid; split <;> simp⟩
  positive := by
    intro x _ ℓ hℓ
    unfold uGrid at hℓ
    split at hℓ <;> simp only [List.mem_cons, List.not_mem_nil, or_false] at hℓ
    · rcases hℓ with rfl | rfl <;> norm_num
    · rcases hℓ with rfl | rfl | rfl <;> norm_num
  posDef := by
    intro dv _ ℓ _
    have h : Cov.joint (fun _ => 1) uSpec dv ℓ = 1 := by
      ext x y
      have hx := (Cov.mem_bins.mp x.2).2
      have hy := (Cov.mem_bins.mp y.2).2
      simp only [Nat.lt_one_iff] at hx hy
      rw [Matrix.one_apply]
      show (if x.1.1 = y.1.1 then (1 : ℝ) else 0) = _
      congr 1
      refine propext ⟨fun h => Subtype.ext (Prod.ext h (hx.trans hy.symm)), fun h => by rw [h]⟩
    rw [h]
    exact Matrix.PosDef.one

/-- The spectra of three independent probes, in a batch run that overwrites whatever there is. -/
example (dk : Disk (Out Nat ℝ)) : ∃ C,
    forecastComp selectedLines [(0 : Nat)] (fun _ => []) uStore (fun _ => some uStore) List.reverse = .ok C ∧
    (∃ dk' ok, Task C .batch true dk dk' ok) ∧ ∀ dk' ok, Task C .batch true dk dk' ok → ok = true ∧
      (∀ name ∈ autoNames ++ crossNames, ∃ F, dk'.fishers.lookup name = some (.full (.fisher F)) ∧
        Forecast [0] (fun _ => []) (fun _ => 1) uGrid uSpec (fun _ => uSpec) name F) ∧
      ∀ name, name ∉ autoNames ++ crossNames → dk'.fishers.lookup name = none :=
  forecast_files uSurvey (fun l => l.reverse_perm) .batch (Or.inl rfl)

end Seyfert.FTask
