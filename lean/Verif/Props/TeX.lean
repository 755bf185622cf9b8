import Verif.Model.TeX
import Verif.Lemmas.PyStr
import Verif.Lemmas.PyDict

/-!
C41: translating names to TeX and back.
-/

set_option linter.unusedSectionVars false

namespace Seyfert.TeX

/-! ### Parameters -/

/-- Known parameters translate to their table entry, with dollar signs on request. -/
theorem known_name (s t : Str) (h : (s, t) ∈ parToTex) (d : Bool) :
    physParNameToTeX s d = .ok (if d then "$".toList ++ t ++ "$".toList else t) := by
  have hn : (parToTex.map (·.1)).Nodup := by decide +kernel
  have hl : parToTex.lookup s = some t := PyDict.lookup_of_mem parToTex hn h
  unfold physParNameToTeX physTry cosmoParNameToTeX get finish
  rw [hl]

example : physParNameToTeX "Omm".toList true = .ok "$\\Omega_m$".toList := by decide +kernel

/-- No name is ever reported as an error. -/
theorem never_reported (s : Str) (d : Bool) : ∃ r, physParNameToTeX s d = .ok r := ⟨_, rfl⟩

/-- Witness against the first part of the claim: every unknown name without underscore that does not start like a bias
parameter is silently translated to nothing. -/
theorem unknown_silent (s : Str) (h1 : s ∉ parToTex.map (·.1)) (h2 : '_' ∉ s)
    (h3 : ¬ ∃ r, s = "bg".toList ++ r) :
    physParNameToTeX s false = .ok [] ∧ physParNameToTeX s true = .ok "$$".toList := by
  have hl : parToTex.lookup s = none := (PyDict.lookup_none_iff parToTex s).mpr h1
  have hb : stripPrefix "bg".toList s = none := by
    rcases h : stripPrefix "bg".toList s with _ | r
    · rfl
    · exact absurd ⟨r, (stripPrefix_eq_some _ _ _).mp h⟩ h3
  unfold physParNameToTeX physTry cosmoParNameToTeX get finish biasMatch
  rw [hl, hb, if_neg h2]
  exact ⟨rfl, rfl⟩

example : physParNameToTeX "Omega".toList false = .ok [] := by decide +kernel

/-- A name made of known names with underscores between them, which is not itself in the table and does not start like
a bias parameter, is translated part by part. -/
theorem composed_name (l : List (Str × Str)) (hl : 2 ≤ l.length) (h : ∀ q ∈ l, q ∈ parToTex ∧ '_' ∉ q.1)
    (h1 : joinStr "_".toList (l.map (·.1)) ∉ parToTex.map (·.1))
    (h3 : ¬ ∃ r, joinStr "_".toList (l.map (·.1)) = "bg".toList ++ r) :
    physParNameToTeX (joinStr "_".toList (l.map (·.1))) false = .ok (joinStr " ".toList (l.map (·.2))) := by
  have hn : (parToTex.map (·.1)).Nodup := by decide +kernel
  have e : splitChar '_' (joinStr "_".toList (l.map (·.1))) = l.map (·.1) := by
    refine splitChar_join '_' _ ?_ ?_
    · intro e
      rw [List.map_eq_nil_iff] at e
      rw [e] at hl
      exact absurd hl (by decide)
    · intro p hp
      obtain ⟨q, hq, rfl⟩ := List.mem_map.mp hp
      exact (h q hq).2
  have hu : '_' ∈ joinStr "_".toList (l.map (·.1)) := by
    by_contra hc
    rw [splitChar_no_sep _ _ hc] at e
    have := congrArg List.length e
    rw [List.length_map, List.length_singleton] at this
    omega
  have hp : (l.map (·.1)).map physPart = l.map (·.2) := by
    rw [List.map_map]
    refine List.map_congr_left fun q hq => ?_
    have hq' : parToTex.lookup q.1 = some q.2 := PyDict.lookup_of_mem parToTex hn (h q hq).1
    show (physTry [] q.1).1 = q.2
    unfold physTry cosmoParNameToTeX get
    rw [hq']
  revert e hu h1 h3
  generalize joinStr "_".toList (l.map (·.1)) = s
  intro h1 h3 e hu
  have hk : parToTex.lookup s = none := (PyDict.lookup_none_iff parToTex s).mpr h1
  have hb : stripPrefix "bg".toList s = none := by
    rcases h : stripPrefix "bg".toList s with _ | r
    · rfl
    · exact absurd ⟨r, (stripPrefix_eq_some _ _ _).mp h⟩ h3
  unfold physParNameToTeX physTry cosmoParNameToTeX get finish biasMatch
  rw [hk, hb, if_pos hu, e, hp]
  rfl

example : physParNameToTeX "Omm_h".toList false = .ok "\\Omega_m h".toList := by decide +kernel

theorem not_table (r : Str) : parToTex.lookup ("bg".toList ++ r) = none := by
  rw [PyDict.lookup_none_iff]
  intro h
  obtain ⟨q, hq, e⟩ := List.mem_map.mp h
  have : ∀ q ∈ parToTex, stripPrefix "bg".toList q.1 = none := by decide +kernel
  have h1 := this q hq
  rw [e, stripPrefix_append] at h1
  exact absurd h1 (by simp)

/-- The name of a bias parameter is translated with the first digit of its index only. -/
theorem bias_name (w : Str) (hw : w ∈ ["ph".toList, "sp".toList]) (c : Char) (hc : isDigit c = true) (rest : Str) :
    physParNameToTeX ("bg".toList ++ (w ++ c :: rest)) false =
      .ok ("b^{\\mathrm{".toList ++ w ++ "}}_{".toList ++ [c] ++ "}".toList) := by
  unfold physParNameToTeX physTry cosmoParNameToTeX get finish biasMatch
  rw [not_table, stripPrefix_append]
  simp only [List.mem_cons, List.not_mem_nil, or_false] at hw
  have e : stripPrefix "ph".toList ("sp".toList ++ c :: rest) = none := by
    rcases h : stripPrefix "ph".toList ("sp".toList ++ c :: rest) with _ | r
    · rfl
    · have := congrArg List.head? ((stripPrefix_eq_some _ _ _).mp h)
      rw [List.head?_append, List.head?_append] at this
      rw [show "sp".toList.head? = some 's' by decide, show "ph".toList.head? = some 'p' by decide] at this
      simp only [Option.some_or] at this
      exact absurd this (by decide)
  rcases hw with rfl | rfl
  · simp only [Option.bind_some, matchAlt, List.findSome?_cons, stripPrefix_append, hc, if_true]
    rfl
  · simp only [Option.bind_some, matchAlt, List.findSome?_cons, stripPrefix_append, e, Option.bind_none, hc, if_true]
    rfl

/-- Witness: bins with two-digit numbers share the TeX name of another bin. -/
theorem bias_collision : physParNameToTeX "bgph1".toList false = physParNameToTeX "bgph10".toList false := by
  decide +kernel

/-- The known parameters and the bias parameters with indices below ten. -/
def shortNames : List Str :=
  parToTex.map (·.1) ++ ["bgph".toList, "bgsp".toList].flatMap fun w => "0123456789".toList.map fun c => w ++ [c]

/-- Different known parameters have different TeX names, as long as the bias parameters have one-digit indices. -/
theorem names_distinct_partial (s t : Str) (hs : s ∈ shortNames) (ht : t ∈ shortNames) (d : Bool)
    (h : physParNameToTeX s d = physParNameToTeX t d) : s = t := by
  have : ∀ s ∈ shortNames, ∀ t ∈ shortNames, ∀ d : Bool,
      (physParNameToTeX s d).toOption = (physParNameToTeX t d).toOption → s = t := by decide +kernel
  exact this s hs t ht d (by rw [h])

/-- Translating a cosmological parameter to TeX and back is the identity. -/
theorem par_roundtrip (s t : Str) (h : cosmoParNameToTeX s = .ok t) : cosmoParTeXToName t = .ok s := by
  unfold cosmoParNameToTeX get at h
  split at h
  · rename_i v hv
    cases h
    have : ∀ q ∈ parToTex, cosmoParTeXToName q.2 = .ok q.1 := by decide +kernel
    exact this (s, t) (PyDict.mem_of_lookup hv)
  · exact absurd h (by simp)

/-- Here an unknown parameter is refused. -/
theorem par_refused (s : Str) (h : s ∉ parToTex.map (·.1)) : cosmoParNameToTeX s = .error .keyError := by
  unfold cosmoParNameToTeX get
  rw [(PyDict.lookup_none_iff parToTex s).mpr h]

/-- Translating a cosmology to TeX and back removes the underscores from its name. -/
theorem cosmology_roundtrip (s t : Str) (h : cosmologyNameToTeX s = .ok t) :
    cosmologyTeXToName t = .ok (removeChar '_' s) := by
  unfold cosmologyNameToTeX get at h
  split at h
  · rename_i v hv
    cases h
    have : ∀ q ∈ cosmologyToTex, cosmologyTeXToName q.2 = .ok (removeChar '_' q.1) := by decide +kernel
    exact this (s, t) (PyDict.mem_of_lookup hv)
  · exact absurd h (by simp)

/-! ### Probes -/

/-- A single probe is translated by the table, an unknown one refused. -/
theorem probe_single (s : Str) (h : '+' ∉ s) :
    (∀ t, (s, t) ∈ probeToTex → probeNameToTeX s = .ok t) ∧
    (s ∉ probeToTex.map (·.1) → probeNameToTeX s = .error .keyError) := by
  have hn : (probeToTex.map (·.1)).Nodup := by decide +kernel
  unfold probeNameToTeX get
  rw [if_neg h]
  constructor
  · intro t ht
    have hl : probeToTex.lookup s = some t := PyDict.lookup_of_mem probeToTex hn ht
    rw [hl]
  · intro hs
    rw [(PyDict.lookup_none_iff probeToTex s).mpr hs]

/-- Witness against the last part of the claim: the TeX name of a single probe is never translated back. -/
theorem single_never_back (s t : Str) (h : '+' ∉ s) (ht : probeNameToTeX s = .ok t) :
    probeTeXToName t = .error .keyError := by
  unfold probeNameToTeX get at ht
  rw [if_neg h] at ht
  split at ht
  · rename_i v hv
    cases ht
    have : ∀ q ∈ probeToTex, probeTeXToName q.2 = .error .keyError := by decide +kernel
    exact this (s, t) (PyDict.mem_of_lookup hv)
  · exact absurd ht (by simp)

theorem getAll_map (d : Dict Str Str) (f : Str → Str) (l : List Str) (h : ∀ s ∈ l, d.lookup s = some (f s)) :
    getAll d l = .ok (l.map f) := by
  induction l with
  | nil => rfl
  | cons s l ih =>
    rw [getAll]
    unfold get
    rw [h s List.mem_cons_self]
    simp only [ih (fun t ht => h t (List.mem_cons_of_mem _ ht)), List.map_cons]

/-- The last probe name in the table with the same TeX name. -/
def canonical (s : Str) : Str :=
  if s = "Lensing".toList then "WL".toList
  else if s = "Void".toList then "V".toList
  else if s = "PhotometricGalaxy".toList then "GCph".toList
  else if s = "SpectroscopicGalaxy".toList ∨ s = "GCsp".toList then "IST_GCsp".toList
  else s

/-- The TeX name of a probe in the table. -/
def texOf (s : Str) : Str := (probeToTex.lookup s).getD []

theorem mem_plus (l : List Str) (h : 2 ≤ l.length) : '+' ∈ joinStr "+".toList l := by
  match l, h with
  | p :: q :: rest, _ =>
    rw [joinStr]
    exact List.mem_append_left _ (List.mem_append_right _ (by decide))

/-- A combination of two or more known probes is translated probe by probe; translated back it gives the combination
of the last names in the table with the same TeX names. -/
theorem combination (l : List Str) (h2 : 2 ≤ l.length) (hl : ∀ s ∈ l, s ∈ probeToTex.map (·.1)) :
    probeNameToTeX (joinStr "+".toList l) = .ok (joinStr "+".toList (l.map texOf)) ∧
    probeTeXToName (joinStr "+".toList (l.map texOf)) = .ok (joinStr "+".toList (l.map canonical)) := by
  have t1 : ∀ s ∈ probeToTex.map (·.1), '+' ∉ s ∧ strip s = s ∧ probeToTex.lookup s = some (texOf s) ∧
      '+' ∉ texOf s ∧ strip (texOf s) = texOf s ∧ (inverse probeToTex).lookup (texOf s) = some (canonical s) := by
    decide +kernel
  have e : "+".toList = ['+'] := by decide
  have hne : l ≠ [] := by rintro rfl; simp at h2
  have s1 : splitChar '+' (joinStr "+".toList l) = l := by
    rw [e]
    exact splitChar_join '+' l hne (fun p hp => (t1 p (hl p hp)).1)
  have s2 : splitChar '+' (joinStr "+".toList (l.map texOf)) = l.map texOf := by
    rw [e]
    refine splitChar_join '+' _ (by simpa using hne) (fun p hp => ?_)
    obtain ⟨q, hq, rfl⟩ := List.mem_map.mp hp
    exact (t1 q (hl q hq)).2.2.2.1
  have m1 : l.map strip = l := by
    conv_rhs => rw [← List.map_id l]
    exact List.map_congr_left (fun s hs => (t1 s (hl s hs)).2.1)
  have m2 : (l.map texOf).map strip = l.map texOf := by
    rw [List.map_map]
    exact List.map_congr_left (fun s hs => (t1 s (hl s hs)).2.2.2.2.1)
  constructor
  · unfold probeNameToTeX
    rw [if_pos (mem_plus l h2), s1, m1, getAll_map probeToTex texOf l (fun s hs => (t1 s (hl s hs)).2.2.1)]
  · unfold probeTeXToName
    rw [if_pos (mem_plus _ (by simpa using h2)), s2, m2]
    have : getAll (inverse probeToTex) (l.map texOf) = .ok (l.map canonical) := by
      clear s1 s2 m1 m2 hne h2
      induction l with
      | nil => rfl
      | cons s l ih =>
        rw [List.map_cons, getAll]
        unfold get
        rw [(t1 s (hl s List.mem_cons_self)).2.2.2.2.2]
        simp only [ih (fun t ht => hl t (List.mem_cons_of_mem _ ht)), List.map_cons]
    rw [this]

/-- Combinations of the short names other than the one of the spectroscopic galaxies come back unchanged. Missing from
the full claim: single probes, long names, and `GCsp`, which comes back as `IST_GCsp`. -/
theorem combination_back_partial (l : List Str) (h2 : 2 ≤ l.length)
    (hl : ∀ s ∈ l, s ∈ ["WL".toList, "V".toList, "GCph".toList, "GCsp(Pk)".toList, "XC".toList, "IST_GCsp".toList]) :
    ∃ t, probeNameToTeX (joinStr "+".toList l) = .ok t ∧ probeTeXToName t = .ok (joinStr "+".toList l) := by
  have t1 : ∀ s ∈ ["WL".toList, "V".toList, "GCph".toList, "GCsp(Pk)".toList, "XC".toList, "IST_GCsp".toList],
      s ∈ probeToTex.map (·.1) ∧ canonical s = s := by decide +kernel
  obtain ⟨h3, h4⟩ := combination l h2 (fun s hs => (t1 s (hl s hs)).1)
  refine ⟨_, h3, ?_⟩
  rw [h4]
  congr 2
  conv_rhs => rw [← List.map_id l]
  exact List.map_congr_left (fun s hs => (t1 s (hl s hs)).2)

/-- Witness: the spectroscopic galaxies come back under another name. -/
theorem combination_renamed :
    probeNameToTeX "WL+GCsp".toList = .ok "\\mathrm{WL}+\\mathrm{GC_{sp}}".toList ∧
    probeTeXToName "\\mathrm{WL}+\\mathrm{GC_{sp}}".toList = .ok "WL+IST_GCsp".toList := by
  decide +kernel

example : probeNameToTeX "WL + XC".toList = .ok "\\mathrm{WL}+\\mathrm{XC}".toList := by decide +kernel

end Seyfert.TeX
