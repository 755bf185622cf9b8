import Verif.Model.Cli
import Verif.Lemmas.RunSeyfert
import Verif.Lemmas.PyDict

/-!
Lemmas on command lines: the values which the parser gives, and reading back a command line written from them.
-/

namespace Seyfert.Cli

open Orch (Pth)
open OrchIn (toPath)
open RunS (Val group isValue pathText intText)

/-- A value which the parser can give to an option. -/
def HasKind : Kind → Val → Prop
  | .text, v => ∃ s, v = .text s
  | .path, v => ∃ p, v = .path p ∧ RunS.Norm p
  | .int, v => ∃ n, v = .int n
  | .bool, v => ∃ b, v = .bool b
  | .paths, v => ∃ l, v = .paths l ∧ ∀ p ∈ l, RunS.Norm p

theorem convert_kind {k : Kind} {ts : List Str} {v : Val} (h : convert k ts = some v) : HasKind k v := by
  unfold convert at h
  split at h
  · cases h; exact ⟨_, rfl⟩
  · cases h; exact ⟨_, rfl, RunS.norm_toPath _⟩
  · obtain ⟨n, -, e⟩ := Option.map_eq_some_iff.mp h
    exact ⟨n, e.symm⟩
  · cases h; exact ⟨_, rfl⟩
  · obtain ⟨b, -, e⟩ := Option.map_eq_some_iff.mp h
    exact ⟨b, e.symm⟩
  · cases h
    refine ⟨_, rfl, fun p hp => ?_⟩
    obtain ⟨t, -, rfl⟩ := List.mem_map.mp hp
    exact RunS.norm_toPath _
  · cases h

theorem strToBool_str (b : Bool) : strToBool (Val.bool b).str = some b := by cases b <;> decide

/-- What is written on the command line is read back. -/
theorem convert_str {k : Kind} {v : Val} (h : HasKind k v) (hk : k ≠ .paths) : convert k [v.str] = some v := by
  cases k with
  | text => obtain ⟨s, rfl⟩ := h; rfl
  | path =>
    obtain ⟨p, rfl, hp⟩ := h
    show some (Val.path (toPath (pathText p))) = _
    rw [RunS.toPath_pathText p hp]
  | int =>
    obtain ⟨n, rfl⟩ := h
    show (RunS.parseInt (intText n)).map Val.int = _
    rw [RunS.parseInt_intText]; rfl
  | bool =>
    obtain ⟨b, rfl⟩ := h
    show (strToBool (Val.bool b).str).map Val.bool = _
    rw [strToBool_str]; rfl
  | paths => exact absurd rfl hk

theorem assign_ok_cons {opts : List Opt} {d d' : Dict Str Val} {o : Str} {ts : List Str} {gs : List (Str × List Str)}
    (h : assign opts d ((o, ts) :: gs) = some d') :
    ∃ x ∈ opts, ∃ v, find opts o = some x ∧ convert x.kind ts = some v ∧ assign opts (PyDict.set d x.dest v) gs = some d' := by
  rw [assign] at h
  split at h
  · cases h
  · rename_i x hx
    split at h
    · cases h
    · rename_i v hv
      exact ⟨x, List.mem_of_find?_eq_some hx, v, hx, hv, h⟩

theorem assign_keys {opts : List Opt} {gs : List (Str × List Str)} : ∀ {d d' : Dict Str Val},
    assign opts d gs = some d' → d.map (·.1) = opts.map (·.dest) → d'.map (·.1) = opts.map (·.dest) := by
  induction gs with
  | nil => intro d d' h hd; cases h; exact hd
  | cons g gs ih =>
    intro d d' h hd
    obtain ⟨x, hx, v, -, -, h3⟩ := assign_ok_cons h
    refine ih h3 ?_
    rw [PyDict.keys_set, if_pos (by rw [hd]; exact List.mem_map_of_mem hx), hd]

theorem assign_values {opts : List Opt} (hn : (opts.map (·.dest)).Nodup) {gs : List (Str × List Str)} :
    ∀ {d d' : Dict Str Val}, assign opts d gs = some d' → ∀ x ∈ opts,
    d'.lookup x.dest = d.lookup x.dest ∨ ∃ v, HasKind x.kind v ∧ d'.lookup x.dest = some v := by
  induction gs with
  | nil => intro d d' h x _; cases h; exact Or.inl rfl
  | cons g gs ih =>
    intro d d' h x hx
    obtain ⟨y, hy, v, -, h2, h3⟩ := assign_ok_cons h
    rcases ih h3 x hx with e | e
    · rw [PyDict.lookup_set] at e
      by_cases hk : x.dest = y.dest
      · have hxy : x = y := List.inj_on_of_nodup_map hn hx hy hk
        subst hxy
        rw [if_pos rfl] at e
        exact Or.inr ⟨v, convert_kind h2, e⟩
      · rw [if_neg hk] at e
        exact Or.inl e
    · exact Or.inr e

theorem lookup_defaults {opts : List Opt} (hn : (opts.map (·.dest)).Nodup) {x : Opt} (hx : x ∈ opts) :
    (opts.map fun x => (x.dest, x.default)).lookup x.dest = some x.default := by
  have hm : (x.dest, x.default) ∈ opts.map fun x => (x.dest, x.default) := List.mem_map.mpr ⟨x, hx, rfl⟩
  exact PyDict.lookup_of_mem _ (by rw [List.map_map]; exact hn) hm

/-- The parsed arguments: one for each option, in order, each a default or of the kind of its option. -/
theorem parse_shape {opts : List Opt} (hn : (opts.map (·.dest)).Nodup) {argv : List Str} {d : Dict Str Val}
    (h : parse opts argv = some d) :
    d.map (·.1) = opts.map (·.dest) ∧
    ∀ x ∈ opts, ∃ v, d.lookup x.dest = some v ∧ (v = x.default ∨ HasKind x.kind v) := by
  unfold parse at h
  dsimp only at h
  split at h
  · cases h
  · split at h
    · cases h
    · rename_i d' hd
      split at h
      · cases h
        refine ⟨assign_keys hd (by rw [List.map_map]; rfl), fun x hx => ?_⟩
        rcases assign_values hn hd x hx with e | ⟨v, hv, e⟩
        · rw [lookup_defaults hn hx] at e; exact ⟨_, e, Or.inl rfl⟩
        · exact ⟨v, e, Or.inr hv⟩
      · cases h

/-- Options and values as they are written. -/
def written (l : Dict Str Val) : List (Str × List Str) := l.map fun p => ("--".toList ++ p.1, [p.2.str])

theorem assign_written {opts : List Opt} (conv : Str → Val → Val) (l : Dict Str Val) :
    ∀ d0 : Dict Str Val, (l.map (·.1)).Nodup →
    (∀ p ∈ l, ∃ x, find opts ("--".toList ++ p.1) = some x ∧ x.dest = p.1 ∧
      convert x.kind [p.2.str] = some (conv p.1 p.2)) →
    ∃ d', assign opts d0 (written l) = some d' ∧
      ∀ k, d'.lookup k = match l.lookup k with | some v => some (conv k v) | none => d0.lookup k := by
  induction l with
  | nil => intro d0 _ _; exact ⟨d0, rfl, fun k => rfl⟩
  | cons p l ih =>
    intro d0 hn hv
    rw [List.map_cons, List.nodup_cons] at hn
    have hl : l.lookup p.1 = none := (PyDict.lookup_none_iff l p.1).mpr hn.1
    obtain ⟨x, hx, hd, hc⟩ := hv p (by simp)
    obtain ⟨d', h1, h2⟩ := ih (PyDict.set d0 p.1 (conv p.1 p.2)) hn.2 (fun q hq => hv q (List.mem_cons_of_mem _ hq))
    refine ⟨d', ?_, fun k => ?_⟩
    · show assign opts d0 (("--".toList ++ p.1, [p.2.str]) :: written l) = _
      rw [assign, hx]
      dsimp only
      rw [hc]
      dsimp only
      rw [hd, h1]
    · rw [h2 k]
      by_cases hk : k = p.1
      · subst hk
        rw [hl, List.lookup_cons_self]
        dsimp only
        rw [PyDict.lookup_set, if_pos rfl]
      · rw [show List.lookup k (p :: l) = List.lookup k l from by
          obtain ⟨a, b⟩ := p
          rw [List.lookup_cons]
          have : (k == a) = false := by simpa using hk
          rw [this]]
        rw [PyDict.lookup_set, if_neg hk]

theorem isValue_option (k : Str) : isValue ("--".toList ++ k) = false := by
  show (('-' :: k).all isDigit) = false
  rfl

/-- Reading back a command line on which every option is written. -/
theorem parse_written {opts : List Opt} (hn : (opts.map (·.dest)).Nodup)
    (hf : ∀ x ∈ opts, find opts ("--".toList ++ x.dest) = some x) (conv : Str → Val → Val) {l : Dict Str Val}
    (hk : l.map (·.1) = opts.map (·.dest))
    (hv : ∀ x ∈ opts, ∀ v, l.lookup x.dest = some v → isValue v.str = true ∧
      convert x.kind [v.str] = some (conv x.dest v)) :
    ∃ d', parse opts ((written l).flatMap fun g => g.1 :: g.2) = some d' ∧
      ∀ x ∈ opts, d'.lookup x.dest = (l.lookup x.dest).map (conv x.dest) := by
  have hnl : (l.map (·.1)).Nodup := by rw [hk]; exact hn
  have hp : ∀ p ∈ l, ∃ x ∈ opts, x.dest = p.1 ∧ l.lookup x.dest = some p.2 := by
    intro p hp
    have : p.1 ∈ opts.map (·.dest) := by rw [← hk]; exact List.mem_map_of_mem hp
    obtain ⟨x, hx, e⟩ := List.mem_map.mp this
    exact ⟨x, hx, e, by rw [e]; exact PyDict.lookup_of_mem _ hnl hp⟩
  have hg : group ((written l).flatMap fun g => g.1 :: g.2) = ([], written l) := by
    apply RunS.group_words
    intro g hg
    obtain ⟨p, hpl, rfl⟩ := List.mem_map.mp hg
    obtain ⟨x, hx, e, hl⟩ := hp p hpl
    exact ⟨isValue_option _, fun t ht => by rw [List.mem_singleton.mp ht]; exact (hv x hx _ hl).1⟩
  obtain ⟨d', h1, h2⟩ := assign_written (opts := opts) conv l (opts.map fun x => (x.dest, x.default)) hnl (by
    intro p hpl
    obtain ⟨x, hx, e, hl⟩ := hp p hpl
    refine ⟨x, by rw [← e]; exact hf x hx, e, ?_⟩
    rw [(hv x hx _ hl).2, e])
  refine ⟨d', ?_, ?_⟩
  · unfold parse
    dsimp only
    rw [hg]
    dsimp only
    rw [if_neg (by simp), h1]
    dsimp only
    rw [if_pos]
    rw [List.all_eq_true]
    intro x hx
    have hm : x.dest ∈ l.map (·.1) := by rw [hk]; exact List.mem_map_of_mem hx
    obtain ⟨p, hpl, e⟩ := List.mem_map.mp hm
    have : ((written l).any fun q => decide (q.1 ∈ x.names)) = true := by
      rw [List.any_eq_true]
      refine ⟨("--".toList ++ p.1, [p.2.str]), List.mem_map.mpr ⟨p, hpl, rfl⟩, ?_⟩
      have := List.find?_some (hf x hx)
      rw [e]; exact this
    rw [this, Bool.or_true]
  · intro x hx
    have hm : x.dest ∈ l.map (·.1) := by rw [hk]; exact List.mem_map_of_mem hx
    have hs := (PyDict.lookup_isSome_iff l x.dest).mpr hm
    obtain ⟨v, hlv⟩ := Option.isSome_iff_exists.mp hs
    rw [h2, hlv]; rfl

end Seyfert.Cli
