import Verif.Spec.Equality
import Verif.Lemmas.Equality

/-!
C129: comparing densities, biases, kernels, weight functions and spectra.
-/

namespace Seyfert.Same

variable {E : Type} [DecidableEq E]

/-- C129. Two objects of a class whose `==` goes through all attributes, with arrays of the same shapes in the same places,
are equal exactly if they hold the same in every attribute which is not excluded, and comparing them does not raise.
Missing is the case of arrays of different shapes, and of arrays beside something else, where objects can be equal which
do not hold the same (`stretched_equal`, `empty_equals_none`). -/
theorem equal_iff_partial (clash : Option Bool) (excluded : List Str) {a b : List (Str × Val E)} (ha : Object a)
    (hb : Object b) (h : ∀ k ∈ a.map (·.1), k ∉ excluded → AlikeAt a b k) :
    ∃ c, compareObjects clash excluded a b = some c ∧
      (c = true ↔ ∀ k ∈ a.map (·.1), k ∉ excluded → SameAt a b k) := by
  obtain ⟨cs, h1, h2⟩ := conditions_alike clash excluded hb a ha.good (by
    intro p hp he
    obtain ⟨v, w, hv, hw, hal⟩ := h p.1 (List.mem_map_of_mem hp) he
    rw [PyDict.lookup_of_mem a ha.names hp] at hv
    cases hv
    exact ⟨w, hw, hal⟩)
  refine ⟨cs.all id, by unfold compareObjects; rw [h1]; rfl, h2.trans ⟨fun H k hk he => ?_, fun H p hp he => ?_⟩⟩
  · obtain ⟨p, hp, rfl⟩ := List.mem_map.mp hk
    obtain ⟨w, hw, hs⟩ := H p hp he
    exact ⟨p.2, w, PyDict.lookup_of_mem a ha.names hp, hw, hs⟩
  · obtain ⟨v, w, hv, hw, hs⟩ := H p.1 (List.mem_map_of_mem hp) he
    rw [PyDict.lookup_of_mem a ha.names hp] at hv
    cases hv
    exact ⟨w, hw, hs⟩

/-- C129. Objects which hold the same are equal, whatever the shapes. -/
theorem same_are_equal (clash : Option Bool) (excluded : List Str) {a b : List (Str × Val E)} (ha : Object a)
    (hb : Object b) (h : ∀ k ∈ a.map (·.1), k ∉ excluded → SameAt a b k) :
    compareObjects clash excluded a b = some true := by
  obtain ⟨c, h1, h2⟩ := equal_iff_partial clash excluded ha hb (by
    intro k hk he
    obtain ⟨v, w, hv, hw, hs⟩ := h k hk he
    exact ⟨v, w, hv, hw, alike_of_same hs⟩)
  rw [h1, h2.mpr h]

/-- C129. An object is equal to itself and to its copies. -/
theorem equal_refl (clash : Option Bool) (excluded : List Str) {a : List (Str × Val E)} (ha : Object a) :
    compareObjects clash excluded a a = some true := by
  refine same_are_equal clash excluded ha ha fun k hk _ => ?_
  obtain ⟨v, hv⟩ := Option.isSome_iff_exists.mp ((PyDict.lookup_isSome_iff a k).mpr hk)
  exact ⟨v, v, hv, hv, SameVal.refl v⟩

/-- C129. Of two objects with the same attributes and arrays of the same shapes either can stand first. -/
theorem equal_symm_partial (clash : Option Bool) (excluded : List Str) {a b : List (Str × Val E)} (ha : Object a)
    (hb : Object b) (hn : ∀ k, k ∈ a.map (·.1) ↔ k ∈ b.map (·.1))
    (h : ∀ k ∈ a.map (·.1), k ∉ excluded → AlikeAt a b k) :
    compareObjects clash excluded a b = compareObjects clash excluded b a := by
  have h' : ∀ k ∈ b.map (·.1), k ∉ excluded → AlikeAt b a k := by
    intro k hk he
    obtain ⟨v, w, hv, hw, hs⟩ := h k ((hn k).mpr hk) he
    refine ⟨w, v, hw, hv, ?_⟩
    cases v <;> cases w <;> simp_all [Alike]
  obtain ⟨c, h1, h2⟩ := equal_iff_partial clash excluded ha hb h
  obtain ⟨c', h1', h2'⟩ := equal_iff_partial clash excluded hb ha h'
  rw [h1, h1']
  congr 1
  rw [Bool.eq_iff_iff, h2, h2']
  constructor
  · intro H k hk he
    obtain ⟨v, w, hv, hw, hs⟩ := H k ((hn k).mpr hk) he
    exact ⟨w, v, hw, hv, hs.symm⟩
  · intro H k hk he
    obtain ⟨v, w, hv, hw, hs⟩ := H k ((hn k).mp hk) he
    exact ⟨w, v, hw, hv, hs.symm⟩

/-- C129. Objects of the same attributes and shapes which are equal to a third one are equal to each other. -/
theorem equal_trans_partial (clash : Option Bool) (excluded : List Str) {a b c : List (Str × Val E)} (ha : Object a)
    (hb : Object b) (hc : Object c) (hn : ∀ k, k ∈ a.map (·.1) → k ∈ b.map (·.1))
    (h : ∀ k ∈ a.map (·.1), k ∉ excluded → AlikeAt a b k) (h' : ∀ k ∈ b.map (·.1), k ∉ excluded → AlikeAt b c k)
    (hab : compareObjects clash excluded a b = some true) (hbc : compareObjects clash excluded b c = some true) :
    compareObjects clash excluded a c = some true := by
  obtain ⟨x, h1, h2⟩ := equal_iff_partial clash excluded ha hb h
  obtain ⟨y, h1', h2'⟩ := equal_iff_partial clash excluded hb hc h'
  rw [hab] at h1
  rw [hbc] at h1'
  cases h1
  cases h1'
  refine same_are_equal clash excluded ha hc fun k hk he => ?_
  obtain ⟨v, w, hv, hw, hs⟩ := h2.mp rfl k hk he
  obtain ⟨w', u, hw', hu, hs'⟩ := h2'.mp rfl k (hn k hk) he
  rw [hw] at hw'
  cases hw'
  exact ⟨v, u, hv, hu, hs.trans hs'⟩

/-- C129. The classes which list what they compare (weight functions, power spectra, angular spectra and their
uncertainties): with arrays of the same shapes, two objects are equal exactly if they hold the same in the listed
attributes. The rest, such as the probe, is not compared (`probes_not_compared`). -/
theorem listed_iff_partial (clash : Option Bool) {a b : List (Str × Val E)} (ha : Object a) (hb : Object b) :
    ∀ names : List Str, (∀ k ∈ names, AlikeAt a b k) →
    ∃ c, compareListed clash names a b = some c ∧ (c = true ↔ ∀ k ∈ names, SameAt a b k)
  | [], _ => ⟨true, rfl, by simp⟩
  | k :: ks, h => by
    obtain ⟨c, h1, h2⟩ := listed_iff_partial clash ha hb ks fun k hk => h k (List.mem_cons_of_mem _ hk)
    obtain ⟨v, w, hv, hw, hal⟩ := h k (by simp)
    obtain ⟨d, hd1, hd2⟩ := compare_alike clash hal (good_at ha hv) (good_at hb hw)
    refine ⟨d && c, ?_, ?_⟩
    · unfold compareListed
      rw [hv, hw]
      dsimp only
      rw [hd1]
      dsimp only
      rw [h1]
      rfl
    · rw [Bool.and_eq_true]
      constructor
      · rintro ⟨e1, e2⟩ k' hk'
        rcases List.mem_cons.mp hk' with rfl | hk'
        · exact ⟨v, w, hv, hw, hd2.mp e1⟩
        · exact h2.mp e2 k' hk'
      · intro H
        refine ⟨hd2.mpr ?_, h2.mpr fun k' hk' => H k' (List.mem_cons_of_mem _ hk')⟩
        obtain ⟨v', w', hv', hw', hs⟩ := H k (by simp)
        rw [hv] at hv'
        rw [hw] at hw'
        cases hv'
        cases hw'
        exact hs

/-- C129. Redshift densities: with arrays of the same shapes, two are equal exactly if they agree in probe, grids, densities,
bins, instrument response, input and sky fraction. The fractions of good and of outlying redshifts and the splines are not
compared. -/
theorem densities_equal_iff_partial (clash : Option Bool) (a b : Density E)
    (ha : ∀ p ∈ a.attributes, Good p.2) (hb : ∀ p ∈ b.attributes, Good p.2)
    (h1 : Alike a.probe b.probe) (h2 : Alike a.zGrid b.zGrid) (h3 : Alike a.normDensity b.normDensity)
    (h4 : Alike a.inputDomain b.inputDomain) (h5 : Alike a.perBin b.perBin) (h6 : Alike a.edges b.edges)
    (h7 : Alike a.response b.response) (h8 : Alike a.fromInput b.fromInput)
    (h9 : Alike a.inputDensity b.inputDensity) (h10 : Alike a.inputBins b.inputBins) (h11 : Alike a.fsky b.fsky) :
    ∃ c, Density.equal clash a b = some c ∧ (c = true ↔
      (SameVal a.probe b.probe ∧ SameVal a.zGrid b.zGrid ∧ SameVal a.normDensity b.normDensity ∧
       SameVal a.inputDomain b.inputDomain ∧ SameVal a.perBin b.perBin ∧ SameVal a.edges b.edges ∧
       SameVal a.response b.response ∧ SameVal a.fromInput b.fromInput ∧ SameVal a.inputDensity b.inputDensity ∧
       SameVal a.inputBins b.inputBins ∧ SameVal a.fsky b.fsky)) := by
  have hna : (a.attributes.map (·.1)).Nodup := by
    rw [density_names]; decide +kernel
  have hnb : (b.attributes.map (·.1)).Nodup := by
    rw [density_names]; decide +kernel
  obtain ⟨c, e1, e2⟩ := equal_iff_partial clash densityExcluded ⟨hna, ha⟩ ⟨hnb, hb⟩ (density_all a b
    (fun v w => Alike v w) ⟨h1, h2, h3, h4, h5, h6, h7, h8, h9, h10, h11⟩)
  exact ⟨c, e1, e2.trans ⟨fun H => density_at a b _ H, fun H => density_all a b (fun v w => SameVal v w) H⟩⟩

/-- C129. Weight functions. -/
theorem weights_equal_iff_partial (clash : Option Bool) {a b : List (Str × Val E)} (ha : Object a) (hb : Object b)
    (h1 : AlikeAt a b "z_grid".toList) (h2 : AlikeAt a b "w_bin_z".toList) :
    ∃ c, compareListed clash weightNames a b = some c ∧
      (c = true ↔ SameAt a b "z_grid".toList ∧ SameAt a b "w_bin_z".toList) := by
  have := listed_iff_partial clash ha hb weightNames
  unfold weightNames at this ⊢
  generalize "z_grid".toList = k1 at *
  generalize "w_bin_z".toList = k2 at *
  simpa only [List.forall_mem_cons, List.not_mem_nil, false_imp_iff, implies_true, and_true, h1, h2, forall_const, and_self] using this

/-- C129. Power spectra. -/
theorem powers_equal_iff_partial (clash : Option Bool) {a b : List (Str × Val E)} (ha : Object a) (hb : Object b)
    (h1 : AlikeAt a b "z_grid".toList) (h2 : AlikeAt a b "k_grid".toList) (h3 : AlikeAt a b "lin_p_mm_z_k".toList)
    (h4 : AlikeAt a b "nonlin_p_mm_z_k".toList) (h5 : AlikeAt a b "transfer_function".toList) :
    ∃ c, compareListed clash powerNames a b = some c ∧
      (c = true ↔ SameAt a b "z_grid".toList ∧ SameAt a b "k_grid".toList ∧ SameAt a b "lin_p_mm_z_k".toList ∧
        SameAt a b "nonlin_p_mm_z_k".toList ∧ SameAt a b "transfer_function".toList) := by
  have := listed_iff_partial clash ha hb powerNames
  unfold powerNames at this ⊢
  generalize "z_grid".toList = k1 at *
  generalize "k_grid".toList = k2 at *
  generalize "lin_p_mm_z_k".toList = k3 at *
  generalize "nonlin_p_mm_z_k".toList = k4 at *
  generalize "transfer_function".toList = k5 at *
  simpa only [List.forall_mem_cons, List.not_mem_nil, false_imp_iff, implies_true, and_true, h1, h2, h3, h4, h5, forall_const, and_self] using this

/-- C129. Angular spectra. -/
theorem spectra_equal_iff_partial (clash : Option Bool) {a b : List (Str × Val E)} (ha : Object a) (hb : Object b)
    (h1 : AlikeAt a b "c_lij".toList) (h2 : AlikeAt a b "l_bin_centers".toList)
    (h3 : AlikeAt a b "l_bin_widths".toList) :
    ∃ c, compareListed clash spectraNames a b = some c ∧
      (c = true ↔ SameAt a b "c_lij".toList ∧ SameAt a b "l_bin_centers".toList ∧ SameAt a b "l_bin_widths".toList) := by
  have := listed_iff_partial clash ha hb spectraNames
  unfold spectraNames at this ⊢
  generalize "c_lij".toList = k1 at *
  generalize "l_bin_centers".toList = k2 at *
  generalize "l_bin_widths".toList = k3 at *
  simpa only [List.forall_mem_cons, List.not_mem_nil, false_imp_iff, implies_true, and_true, h1, h2, h3, forall_const, and_self] using this

/-- C129. Uncertainties of angular spectra. -/
theorem deltas_equal_iff_partial (clash : Option Bool) {a b : List (Str × Val E)} (ha : Object a) (hb : Object b)
    (h1 : AlikeAt a b "delta_c_lij".toList) (h2 : AlikeAt a b "noise_lij".toList)
    (h3 : AlikeAt a b "l_bin_centers".toList) (h4 : AlikeAt a b "l_bin_widths".toList) :
    ∃ c, compareListed clash deltaNames a b = some c ∧
      (c = true ↔ SameAt a b "delta_c_lij".toList ∧ SameAt a b "noise_lij".toList ∧ SameAt a b "l_bin_centers".toList ∧
        SameAt a b "l_bin_widths".toList) := by
  have := listed_iff_partial clash ha hb deltaNames
  unfold deltaNames at this ⊢
  generalize "delta_c_lij".toList = k1 at *
  generalize "noise_lij".toList = k2 at *
  generalize "l_bin_centers".toList = k3 at *
  generalize "l_bin_widths".toList = k4 at *
  simpa only [List.forall_mem_cons, List.not_mem_nil, false_imp_iff, implies_true, and_true, h1, h2, h3, h4, forall_const, and_self] using this

/-- C129. Two collections of spectra with the names of the first among those of the second are equal exactly if the spectra
of the first one hold the same as those of the second one. -/
theorem collections_iff_partial (clash : Option Bool) (names : List Str) {b : List (Str × List (Str × Val E))} :
    ∀ a : List (Str × List (Str × Val E)),
    (∀ p ∈ a, Object p.2 ∧ ∃ w, b.lookup p.1 = some w ∧ Object w ∧ ∀ k ∈ names, AlikeAt p.2 w k) →
    ∃ c, compareCollected clash names a b = some c ∧
      (c = true ↔ ∀ p ∈ a, ∃ w, b.lookup p.1 = some w ∧ ∀ k ∈ names, SameAt p.2 w k)
  | [], _ => ⟨true, rfl, by simp⟩
  | (k, v) :: a, h => by
    obtain ⟨c, h1, h2⟩ := collections_iff_partial clash names a fun p hp => h p (List.mem_cons_of_mem _ hp)
    obtain ⟨hv, w, hw, how, hal⟩ := h (k, v) (by simp)
    obtain ⟨d, hd1, hd2⟩ := listed_iff_partial clash hv how names hal
    refine ⟨d && c, ?_, ?_⟩
    · unfold compareCollected
      rw [hw]
      dsimp only
      rw [hd1]
      dsimp only
      rw [h1]
      rfl
    · rw [Bool.and_eq_true]
      constructor
      · rintro ⟨e1, e2⟩ p hp
        rcases List.mem_cons.mp hp with rfl | hp
        · exact ⟨w, hw, hd2.mp e1⟩
        · exact h2.mp e2 p hp
      · intro H
        refine ⟨hd2.mpr ?_, h2.mpr fun p hp => H p (List.mem_cons_of_mem _ hp)⟩
        obtain ⟨w', hw', hs⟩ := H (k, v) (by simp)
        rw [hw] at hw'
        cases hw'
        exact hs

/-- C129. Where no attribute is excluded, the attributes printed as different are those whose comparison fails. -/
theorem reported_right_partial (clash : Option Bool) {excluded : List Str} {a b : List (Str × Val E)}
    (h : ∀ k ∈ a.map (·.1), k ∉ excluded) {l : List Str} (hl : reported clash excluded a b = some l) :
    l = (a.filter fun p => decide (((b.lookup p.1).bind (compare clash p.2)) = some false)).map (·.1) := by
  have gen : ∀ (a : List (Str × Val E)), (∀ k ∈ a.map (·.1), k ∉ excluded) → ∀ cs,
      conditions clash excluded b a = some cs →
      (((a.map (·.1)).zip cs).filter fun p => !p.2).map (·.1) =
        (a.filter fun p => decide (((b.lookup p.1).bind (compare clash p.2)) = some false)).map (·.1) := by
    intro a
    induction a with
    | nil => intro _ cs _; rfl
    | cons p a ih =>
      obtain ⟨k, v⟩ := p
      intro h cs hcs
      unfold conditions at hcs
      rw [if_neg (h k (by simp))] at hcs
      split at hcs
      · cases hcs
      · rename_i w hw
        split at hcs
        · cases hcs
        · rename_i c hc
          split at hcs
          · cases hcs
          · rename_i cs' hcs'
            cases hcs
            have ih' := ih (fun k' hk' => h k' (by rw [List.map_cons]; exact List.mem_cons_of_mem _ hk')) cs' hcs'
            rw [List.map_cons, List.zip_cons_cons, List.filter_cons, List.filter_cons]
            have e : ((b.lookup k).bind (compare clash v)) = some c := by rw [hw, Option.bind_some, hc]
            dsimp only
            rw [e]
            cases c with
            | true => simpa using ih'
            | false => simpa using ih'
  unfold reported at hl
  obtain ⟨cs, h1, h2⟩ := Option.map_eq_some_iff.mp hl
  rw [← h2]
  exact gen a h cs h1

/-! ### Cases -/

/-- An array with one axis. -/
def row (l : List ℕ) : Arr ℕ := ⟨[l.length], fun i => l.getD (i.headD 0) 0⟩

def exBias (edges : List ℕ) (model : Str) : List (Str × Val ℕ) :=
  [("probe".toList, .text "Void".toList), ("nuisance_parameters".toList, .dict [("a".toList, 1)]),
   ("additional_parameters".toList, .none), ("z_grid".toList, .arr (row [1, 2])), ("b_i_z".toList, .arr (row [5, 6])),
   ("model".toList, .none), ("model_name".toList, .text model), ("z_bin_edges".toList, .arr (row edges))]

theorem exBias_object (edges : List ℕ) (model : Str) : Object (exBias edges model) := by
  constructor
  · have : (exBias edges model).map (·.1) = (exBias [] []).map (·.1) := rfl
    rw [this]
    decide +kernel
  · intro p hp
    unfold exBias at hp
    simp only [List.mem_cons, List.not_mem_nil, or_false] at hp
    rcases hp with rfl | rfl | rfl | rfl | rfl | rfl | rfl | rfl <;> simp [Good]

/-- The hypotheses of the theorems on equality are met. -/
example : (∀ k ∈ (exBias [0, 3] "constant".toList).map (·.1), k ∉ biasExcluded →
      AlikeAt (exBias [0, 3] "constant".toList) (exBias [0, 4] "constant".toList) k) ∧
    compareObjects none biasExcluded (exBias [0, 3] "constant".toList) (exBias [0, 4] "constant".toList) = some false := by
  constructor
  · intro k hk _
    have e : ∀ edges, (exBias edges "constant".toList).lookup k = ((exBias [] "constant".toList).lookup k).map fun v =>
        if k = "z_bin_edges".toList then .arr (row edges) else v := by
      intro edges
      have : (exBias edges "constant".toList).map (·.1) = (exBias [0, 3] "constant".toList).map (·.1) := rfl
      rw [show (exBias [0, 3] "constant".toList).map (·.1) = ["probe".toList, "nuisance_parameters".toList,
        "additional_parameters".toList, "z_grid".toList, "b_i_z".toList, "model".toList, "model_name".toList,
        "z_bin_edges".toList] from rfl] at hk
      simp only [List.mem_cons, List.not_mem_nil, or_false] at hk
      rcases hk with rfl | rfl | rfl | rfl | rfl | rfl | rfl | rfl <;> rfl
    obtain ⟨v, hv⟩ := Option.isSome_iff_exists.mp ((PyDict.lookup_isSome_iff (exBias [] "constant".toList) k).mpr hk)
    refine ⟨_, _, by rw [e, hv]; rfl, by rw [e, hv]; rfl, ?_⟩
    dsimp only
    by_cases hz : k = "z_bin_edges".toList
    · rw [if_pos hz, if_pos hz]; rfl
    · rw [if_neg hz, if_neg hz]; exact alike_of_same (SameVal.refl v)
  · decide +kernel

/-- C129. Arrays of different shapes can be equal: one of length one is stretched. -/
theorem stretched_equal :
    compareObjects none biasExcluded (exBias [3] "constant".toList) (exBias [3, 3, 3] "constant".toList) = some true := by
  decide +kernel

/-- C129. Arrays whose shapes do not fit raise with recent versions of numpy. -/
theorem misfit_raises :
    compareObjects none biasExcluded (exBias [0, 3] "constant".toList) (exBias [0, 3, 4] "constant".toList) = none ∧
    compareObjects (some false) biasExcluded (exBias [0, 3] "constant".toList) (exBias [0, 3, 4] "constant".toList) =
      some false := by
  decide +kernel

/-- C129. An empty array equals something which is no array. -/
theorem empty_equals_none : compareObjects none [] [("z_grid".toList, .arr (row []))] [("z_grid".toList, (.none : Val ℕ))] =
    some true := by decide +kernel

/-- C129. Attributes which only the second object has are not looked at; with the objects exchanged the comparison raises. -/
theorem extra_attribute :
    compareObjects none [] [("a".toList, (.num 1 : Val ℕ))] [("a".toList, .num 1), ("b".toList, .num 2)] = some true ∧
    compareObjects none [] [("a".toList, .num 1), ("b".toList, .num 2)] [("a".toList, (.num 1 : Val ℕ))] = none := by
  decide +kernel

/-- C129. Weight functions of two probes, and any two which have not been evaluated, are equal. -/
theorem probes_not_compared :
    compareListed none weightNames
      [("probe".toList, .text "Void".toList), ("z_grid".toList, .arr (row [1])), ("w_bin_z".toList, .arr (row [2]))]
      [("probe".toList, .text "Lensing".toList), ("z_grid".toList, .arr (row [1])), ("w_bin_z".toList, .arr (row [2]))] =
      some true ∧
    compareListed none weightNames
      [("probe".toList, .text "Void".toList), ("z_grid".toList, (.none : Val ℕ)), ("w_bin_z".toList, .none)]
      [("probe".toList, .text "Lensing".toList), ("z_grid".toList, .none), ("w_bin_z".toList, .none)] = some true := by
  decide +kernel

def exSpectrum (x : ℕ) : List (Str × Val ℕ) :=
  [("probe1".toList, .text "Void".toList), ("c_lij".toList, .arr ⟨[1, 1, 2], fun i => x + i.sum⟩),
   ("l_bin_centers".toList, .arr (row [10, 20])), ("l_bin_widths".toList, .arr (row [5, 5]))]

/-- The hypotheses of the theorem on angular spectra are met, by different ones. -/
example : AlikeAt (exSpectrum 1) (exSpectrum 2) "c_lij".toList ∧
    AlikeAt (exSpectrum 1) (exSpectrum 2) "l_bin_centers".toList ∧
    AlikeAt (exSpectrum 1) (exSpectrum 2) "l_bin_widths".toList ∧
    compareListed none spectraNames (exSpectrum 1) (exSpectrum 2) = some false :=
  ⟨⟨_, _, rfl, rfl, rfl⟩, ⟨_, _, rfl, rfl, rfl⟩, ⟨_, _, rfl, rfl, rfl⟩, by decide +kernel⟩

def exDensity (f : ℕ) (good : ℕ) : Density ℕ :=
  ⟨.text "Void".toList, .arr (row [1, 2]), .none, .arr (row [0, 3]), .none, .arr (row [7]), .arr (row [0, 1, 3]),
   .dict [("sigma".toList, 2)], .dict [("fout".toList, good)], .dict [], .flag false, .arr (row [4, 5]), .none, .none, .none,
   .none, .num f, .flag true⟩

/-- The comparison of densities: another sky fraction makes a difference, other parameters of the photometric errors do
not. -/
example : Density.equal none (exDensity 3 1) (exDensity 4 1) = some false ∧
    Density.equal none (exDensity 3 1) (exDensity 3 2) = some true := by decide +kernel

/-- C129. Spectra which only the second collection has are not looked at, so that an empty collection equals every one; with
the collections exchanged the comparison raises. -/
theorem extra_spectrum :
    compareCollected none spectraNames [] [("Void_Void".toList, exSpectrum 1)] = some true ∧
    compareCollected none spectraNames [("Void_Void".toList, exSpectrum 1)] [] = none ∧
    compareCollected none spectraNames [("Void_Void".toList, exSpectrum 1)] [("Void_Void".toList, exSpectrum 2)] =
      some false ∧
    compareCollected none spectraNames [("Void_Void".toList, exSpectrum 1)] [("Void_Void".toList, exSpectrum 1)] =
      some true := by
  decide +kernel

/-- C129. For two biases which differ in the model, the attribute before it is printed as the difference, and for two which
differ in the bins the name of the model is. -/
theorem wrong_name_reported :
    reported none biasExcluded (exBias [0, 3] "constant".toList) (exBias [0, 3] "piecewise".toList) =
      some ["model".toList] ∧
    reported none biasExcluded (exBias [0, 3] "constant".toList) (exBias [0, 4] "constant".toList) =
      some ["model_name".toList] := by
  decide +kernel

end Seyfert.Same
