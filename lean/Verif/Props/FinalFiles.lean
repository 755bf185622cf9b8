import Verif.Spec.FinalFiles
import Verif.Lemmas.PyDict
import Verif.Props.CollectProg

/-! C152: the files of final results over any history of the program. -/

namespace Seyfert.FFiles
open CProg (Key keys keys_nodup)

variable {M T : Type}

/-! ### Which files a list of calls writes -/

/-- The matrix written last to a file. -/
def lastF : List (Act M T) → Key → Str → Option M
  | [], _, _ => none
  | a :: as, k, f => (lastF as k f).or (match a with
    | .fisher k' f' m => if k = k' ∧ f = f' then some m else none
    | _ => none)

/-- The table written last to a file. -/
def lastT : List (Act M T) → Key → Str → Option T
  | [], _, _ => none
  | a :: as, k, f => (lastT as k f).or (match a with
    | .table k' f' x => if k = k' ∧ f = f' then some x else none
    | _ => none)

/-- Whether a directory is made. -/
def makes : List (Act M T) → Key → Bool
  | [], _ => false
  | a :: as, k => (match a with | .mkdir k' => decide (k = k') | _ => false) || makes as k

theorem lastF_append (a b : List (Act M T)) (k : Key) (f : Str) : lastF (a ++ b) k f = (lastF b k f).or (lastF a k f) := by
  induction a with
  | nil => show lastF b k f = (lastF b k f).or none; rw [Option.or_none]
  | cons x a ih =>
    show (lastF (a ++ b) k f).or _ = (lastF b k f).or ((lastF a k f).or _)
    rw [ih, Option.or_assoc]

theorem lastT_append (a b : List (Act M T)) (k : Key) (f : Str) : lastT (a ++ b) k f = (lastT b k f).or (lastT a k f) := by
  induction a with
  | nil => show lastT b k f = (lastT b k f).or none; rw [Option.or_none]
  | cons x a ih =>
    show (lastT (a ++ b) k f).or _ = (lastT b k f).or ((lastT a k f).or _)
    rw [ih, Option.or_assoc]

theorem makes_append (a b : List (Act M T)) (k : Key) : makes (a ++ b) k = (makes a k || makes b k) := by
  induction a with
  | nil => rfl
  | cons x a ih =>
    show (_ || makes (a ++ b) k) = ((_ || makes a k) || makes b k)
    rw [ih, Bool.or_assoc]

/-- The state after all calls with overwriting. -/
def written (t : Tree M T) (l : List (Act M T)) : Tree M T where
  made k := makes l k || t.made k
  fishers k f := match lastF l k f with | some m => some (.full m) | none => t.fishers k f
  tables k f := match lastT l k f with | some x => some (.full x) | none => t.tables k f

/-- No call fails by itself. -/
def NoFail (l : List (Act M T)) : Prop := ∀ a ∈ l, a ≠ .fail

theorem written_cons (t t' : Tree M T) (a : Act M T) (l : List (Act M T)) (h : exec true t a = some t') :
    written t (a :: l) = written t' l := by
  cases a with
  | fail => cases h
  | mkdir k =>
    cases h
    ext k' f x
    · show ((decide (k' = k) || makes l k') || t.made k') = (makes l k' || (decide (k' = k) || t.made k'))
      cases decide (k' = k) <;> cases makes l k' <;> rfl
    · show ((match (lastF l k' f).or none with | some m => some (.full m) | none => t.fishers k' f) = some x) ↔ _
      rw [Option.or_none]; rfl
    · show ((match (lastT l k' f).or none with | some m => some (.full m) | none => t.tables k' f) = some x) ↔ _
      rw [Option.or_none]; rfl
  | fisher k f m =>
    have e : t' = t.putF k f (some (.full m)) := by
      change (if (t.fishers k f).isSome ∧ true = false then none else some (t.putF k f (some (.full m)))) = some t' at h
      rw [if_neg (fun h => nomatch h.2)] at h
      exact (Option.some.inj h).symm
    subst e
    ext k' f' x
    · show ((false || makes l k') || t.made k') = (makes l k' || t.made k')
      rw [Bool.false_or]
    · show ((match (lastF l k' f').or (if k' = k ∧ f' = f then some m else none) with
        | some m => some (File.full m) | none => t.fishers k' f') = some x) ↔
        ((match lastF l k' f' with | some m => some (File.full m) | none => if k' = k ∧ f' = f then some (.full m) else t.fishers k' f')
          = some x)
      cases lastF l k' f' with
      | some y => rfl
      | none => by_cases c : k' = k ∧ f' = f
                · rw [if_pos c, if_pos c]; rfl
                · rw [if_neg c, if_neg c]; rfl
    · show ((match (lastT l k' f').or none with | some m => some (.full m) | none => t.tables k' f') = some x) ↔ _
      rw [Option.or_none]; rfl
  | table k f m =>
    have e : t' = t.putT k f (some (.full m)) := by
      change (if (t.tables k f).isSome ∧ true = false then some t else some (t.putT k f (some (.full m)))) = some t' at h
      rw [if_neg (fun h => nomatch h.2)] at h
      exact (Option.some.inj h).symm
    subst e
    ext k' f' x
    · show ((false || makes l k') || t.made k') = (makes l k' || t.made k')
      rw [Bool.false_or]
    · show ((match (lastF l k' f').or none with | some m => some (.full m) | none => t.fishers k' f') = some x) ↔ _
      rw [Option.or_none]; rfl
    · show ((match (lastT l k' f').or (if k' = k ∧ f' = f then some m else none) with
        | some m => some (File.full m) | none => t.tables k' f') = some x) ↔
        ((match lastT l k' f' with | some m => some (File.full m) | none => if k' = k ∧ f' = f then some (.full m) else t.tables k' f')
          = some x)
      cases lastT l k' f' with
      | some y => rfl
      | none => by_cases c : k' = k ∧ f' = f
                · rw [if_pos c, if_pos c]; rfl
                · rw [if_neg c, if_neg c]; rfl

theorem exec_true (t : Tree M T) (a : Act M T) (h : a ≠ .fail) : ∃ t', exec true t a = some t' := by
  cases a with
  | fail => exact absurd rfl h
  | mkdir k => exact ⟨_, rfl⟩
  | fisher k f m => exact ⟨_, if_neg fun h => nomatch h.2⟩
  | table k f m => exact ⟨_, if_neg fun h => nomatch h.2⟩

theorem final_true (t : Tree M T) (l : List (Act M T)) (h : NoFail l) : final true t l = (written t l, true) := by
  induction l generalizing t with
  | nil =>
    show (t, true) = (written t [], true)
    rfl
  | cons a l ih =>
    obtain ⟨t', ht⟩ := exec_true t a (h a List.mem_cons_self)
    unfold final
    rw [ht]
    dsimp only
    rw [ih t' fun b hb => h b (List.mem_cons_of_mem _ hb), written_cons t t' a l ht]

/-! ### The states on the way -/

theorem exec_fishers {ow : Bool} {t t' : Tree M T} {a : Act M T} (h : exec ow t a = some t') (k : Key) (f : Str) :
    t'.fishers k f = t.fishers k f ∨ ∃ m, a = .fisher k f m ∧ t'.fishers k f = some (.full m) := by
  cases a with
  | fail => cases h
  | mkdir k' => cases h; exact .inl rfl
  | fisher k' f' m =>
    change (if (t.fishers k' f').isSome ∧ ow = false then none else some (t.putF k' f' (some (.full m)))) = some t' at h
    split at h
    · cases h
    · cases h
      by_cases c : k = k' ∧ f = f'
      · obtain ⟨rfl, rfl⟩ := c
        exact .inr ⟨m, rfl, if_pos ⟨rfl, rfl⟩⟩
      · exact .inl (if_neg c)
  | table k' f' x =>
    change (if (t.tables k' f').isSome ∧ ow = false then some t else some (t.putT k' f' (some (.full x)))) = some t' at h
    split at h <;> cases h <;> exact .inl rfl

theorem exec_tables {ow : Bool} {t t' : Tree M T} {a : Act M T} (h : exec ow t a = some t') (k : Key) (f : Str) :
    t'.tables k f = t.tables k f ∨ ∃ x, a = .table k f x ∧ t'.tables k f = some (.full x) := by
  cases a with
  | fail => cases h
  | mkdir k' => cases h; exact .inl rfl
  | fisher k' f' m =>
    change (if (t.fishers k' f').isSome ∧ ow = false then none else some (t.putF k' f' (some (.full m)))) = some t' at h
    split at h
    · cases h
    · cases h; exact .inl rfl
  | table k' f' x =>
    change (if (t.tables k' f').isSome ∧ ow = false then some t else some (t.putT k' f' (some (.full x)))) = some t' at h
    split at h
    · cases h; exact .inl rfl
    · cases h
      by_cases c : k = k' ∧ f = f'
      · obtain ⟨rfl, rfl⟩ := c
        exact .inr ⟨x, rfl, if_pos ⟨rfl, rfl⟩⟩
      · exact .inl (if_neg c)

theorem exec_made {ow : Bool} {t t' : Tree M T} {a : Act M T} (h : exec ow t a = some t') (k : Key) :
    t'.made k = (makes [a] k || t.made k) := by
  cases a with
  | fail => cases h
  | mkdir k' =>
    cases h
    show (decide (k = k') || t.made k) = ((decide (k = k') || false) || t.made k)
    rw [Bool.or_false]
  | fisher k' f' m =>
    change (if (t.fishers k' f').isSome ∧ ow = false then none else some (t.putF k' f' (some (.full m)))) = some t' at h
    split at h <;> cases h
    rfl
  | table k' f' x =>
    change (if (t.tables k' f').isSome ∧ ow = false then some t else some (t.putT k' f' (some (.full x)))) = some t' at h
    split at h <;> cases h <;> rfl

theorem mid_made {ow : Bool} {t t' : Tree M T} {a : Act M T} (h : t' ∈ mid ow t a) (k : Key) : t'.made k = t.made k := by
  cases a with
  | fail => cases h
  | mkdir k' => cases h
  | fisher k' f' m =>
    change t' ∈ (if (t.fishers k' f').isSome then
      (if ow = true then [t.putF k' f' none, t.putF k' f' (some .begun)] else []) else [t.putF k' f' (some .begun)]) at h
    split at h
    · split at h
      · rcases List.mem_cons.1 h with rfl | h
        · rfl
        · rw [List.mem_singleton.1 h]; rfl
      · cases h
    · rw [List.mem_singleton.1 h]; rfl
  | table k' f' x =>
    change t' ∈ (if (t.tables k' f').isSome ∧ ow = false then [] else [t.putT k' f' (some .begun)]) at h
    split at h
    · cases h
    · rw [List.mem_singleton.1 h]; rfl

/-- On the way a file of a matrix is as before, deleted to be overwritten, or begun. -/
theorem mid_fishers {ow : Bool} {t t' : Tree M T} {a : Act M T} (h : t' ∈ mid ow t a) (k : Key) (f : Str) :
    t'.fishers k f = t.fishers k f ∨ (∃ m, a = .fisher k f m) ∧ (ow = true ∨ t.fishers k f = none) ∧
      ((t.fishers k f).isSome ∧ t'.fishers k f = none ∨ t'.fishers k f = some .begun) := by
  cases a with
  | fail => cases h
  | mkdir k' => cases h
  | fisher k' f' m =>
    change t' ∈ (if (t.fishers k' f').isSome then
      (if ow = true then [t.putF k' f' none, t.putF k' f' (some .begun)] else []) else [t.putF k' f' (some .begun)]) at h
    by_cases c : k = k' ∧ f = f'
    · obtain ⟨rfl, rfl⟩ := c
      refine .inr ⟨⟨m, rfl⟩, ?_⟩
      split at h
      · rename_i hs
        split at h
        · rename_i ho
          rcases List.mem_cons.1 h with rfl | h
          · exact ⟨.inl ho, .inl ⟨hs, if_pos ⟨rfl, rfl⟩⟩⟩
          · rw [List.mem_singleton.1 h]
            exact ⟨.inl ho, .inr (if_pos ⟨rfl, rfl⟩)⟩
        · cases h
      · rename_i hs
        rw [List.mem_singleton.1 h]
        exact ⟨.inr (Option.not_isSome_iff_eq_none.1 hs), .inr (if_pos ⟨rfl, rfl⟩)⟩
    · refine .inl ?_
      split at h
      · split at h
        · rcases List.mem_cons.1 h with rfl | h
          · exact if_neg c
          · rw [List.mem_singleton.1 h]; exact if_neg c
        · cases h
      · rw [List.mem_singleton.1 h]; exact if_neg c
  | table k' f' x =>
    change t' ∈ (if (t.tables k' f').isSome ∧ ow = false then [] else [t.putT k' f' (some .begun)]) at h
    split at h
    · cases h
    · rw [List.mem_singleton.1 h]; exact .inl rfl

theorem mid_tables {ow : Bool} {t t' : Tree M T} {a : Act M T} (h : t' ∈ mid ow t a) (k : Key) (f : Str) :
    t'.tables k f = t.tables k f ∨ (∃ x, a = .table k f x) ∧ (ow = true ∨ t.tables k f = none) ∧
      t'.tables k f = some .begun := by
  cases a with
  | fail => cases h
  | mkdir k' => cases h
  | fisher k' f' m =>
    change t' ∈ (if (t.fishers k' f').isSome then
      (if ow = true then [t.putF k' f' none, t.putF k' f' (some .begun)] else []) else [t.putF k' f' (some .begun)]) at h
    split at h
    · split at h
      · rcases List.mem_cons.1 h with rfl | h
        · exact .inl rfl
        · rw [List.mem_singleton.1 h]; exact .inl rfl
      · cases h
    · rw [List.mem_singleton.1 h]; exact .inl rfl
  | table k' f' x =>
    change t' ∈ (if (t.tables k' f').isSome ∧ ow = false then [] else [t.putT k' f' (some .begun)]) at h
    split at h
    · cases h
    · rename_i hn
      rw [List.mem_singleton.1 h]
      by_cases c : k = k' ∧ f = f'
      · obtain ⟨rfl, rfl⟩ := c
        refine .inr ⟨⟨x, rfl⟩, ?_, if_pos ⟨rfl, rfl⟩⟩
        cases ow with
        | true => exact .inl rfl
        | false => exact .inr (Option.not_isSome_iff_eq_none.1 fun h => hn ⟨h, rfl⟩)
      · exact .inl (if_neg c)

/-- Induction over the states on the way. -/
theorem states_ind {ow : Bool} {P : Tree M T → List (Act M T) → Tree M T → Prop} (refl : ∀ t l, P t l t)
    (inMid : ∀ t a l t', t' ∈ mid ow t a → P t (a :: l) t')
    (next : ∀ t a l t1 t', exec ow t a = some t1 → P t1 l t' → P t (a :: l) t') :
    ∀ (l : List (Act M T)) (t t' : Tree M T), t' ∈ states ow t l → P t l t'
  | [], t, t', h => by rw [List.mem_singleton.1 h]; exact refl t []
  | a :: l, t, t', h => by
    unfold states at h
    rcases List.mem_cons.1 h with rfl | h
    · exact refl _ _
    · rcases List.mem_append.1 h with h | h
      · exact inMid _ _ _ _ h
      · cases e : exec ow t a with
        | none => rw [e] at h; cases h
        | some t1 =>
          rw [e] at h
          exact next t a l t1 t' e (states_ind refl inMid next l t1 t' h)

theorem lastF_cons_none {a : Act M T} {l : List (Act M T)} {k : Key} {f : Str} (h : lastF (a :: l) k f = none) :
    lastF l k f = none ∧ ∀ m, a ≠ .fisher k f m := by
  cases e : lastF l k f with
  | some y => unfold lastF at h; rw [e] at h; cases h
  | none =>
    refine ⟨rfl, fun m hm => ?_⟩
    subst hm
    unfold lastF at h
    rw [e] at h
    change (if k = k ∧ f = f then some m else none) = none at h
    rw [if_pos ⟨rfl, rfl⟩] at h
    cases h

theorem lastT_cons_none {a : Act M T} {l : List (Act M T)} {k : Key} {f : Str} (h : lastT (a :: l) k f = none) :
    lastT l k f = none ∧ ∀ m, a ≠ .table k f m := by
  cases e : lastT l k f with
  | some y => unfold lastT at h; rw [e] at h; cases h
  | none =>
    refine ⟨rfl, fun m hm => ?_⟩
    subst hm
    unfold lastT at h
    rw [e] at h
    change (if k = k ∧ f = f then some m else none) = none at h
    rw [if_pos ⟨rfl, rfl⟩] at h
    cases h

/-- Files that are not written stay as they are. -/
theorem states_fishers {ow : Bool} {l : List (Act M T)} {t t' : Tree M T} (h : t' ∈ states ow t l) (k : Key) (f : Str)
    (hn : lastF l k f = none) : t'.fishers k f = t.fishers k f := by
  refine states_ind (P := fun t l t' => lastF l k f = none → t'.fishers k f = t.fishers k f) ?_ ?_ ?_ l t t' h hn
  · intros; rfl
  · intro t a l t' hm hn
    rcases mid_fishers hm k f with h | h
    · exact h
    · obtain ⟨⟨m, hm⟩, _⟩ := h
      exact absurd hm ((lastF_cons_none hn).2 m)
  · intro t a l t1 t' he ih hn
    rw [ih (lastF_cons_none hn).1]
    rcases exec_fishers he k f with h | ⟨m, hm, _⟩
    · exact h
    · exact absurd hm ((lastF_cons_none hn).2 m)

theorem states_tables {ow : Bool} {l : List (Act M T)} {t t' : Tree M T} (h : t' ∈ states ow t l) (k : Key) (f : Str)
    (hn : lastT l k f = none) : t'.tables k f = t.tables k f := by
  refine states_ind (P := fun t l t' => lastT l k f = none → t'.tables k f = t.tables k f) ?_ ?_ ?_ l t t' h hn
  · intros; rfl
  · intro t a l t' hm hn
    rcases mid_tables hm k f with h | h
    · exact h
    · obtain ⟨⟨m, hm⟩, _⟩ := h
      exact absurd hm ((lastT_cons_none hn).2 m)
  · intro t a l t1 t' he ih hn
    rw [ih (lastT_cons_none hn).1]
    rcases exec_tables he k f with h | ⟨m, hm, _⟩
    · exact h
    · exact absurd hm ((lastT_cons_none hn).2 m)

theorem makes_cons (a : Act M T) (l : List (Act M T)) (k : Key) : makes (a :: l) k = (makes [a] k || makes l k) :=
  makes_append [a] l k

theorem states_made {ow : Bool} {l : List (Act M T)} {t t' : Tree M T} (h : t' ∈ states ow t l) (k : Key) :
    (makes l k || t'.made k) = (makes l k || t.made k) := by
  refine states_ind (P := fun t l t' => (makes l k || t'.made k) = (makes l k || t.made k)) ?_ ?_ ?_ l t t' h
  · intros; rfl
  · intro t a l t' hm
    rw [mid_made hm]
  · intro t a l t1 t' he ih
    rw [makes_cons, Bool.or_assoc, ih, exec_made he]
    cases makes [a] k <;> cases makes l k <;> rfl

theorem written_states {ow : Bool} {l : List (Act M T)} {t t' : Tree M T} (h : t' ∈ states ow t l) :
    written t' l = written t l := by
  ext k f x
  · exact states_made h k
  · show ((match lastF l k f with | some m => some (File.full m) | none => t'.fishers k f) = some x) ↔
      ((match lastF l k f with | some m => some (File.full m) | none => t.fishers k f) = some x)
    cases e : lastF l k f with
    | some m => rfl
    | none => dsimp only; rw [states_fishers h k f e]
  · show ((match lastT l k f with | some m => some (File.full m) | none => t'.tables k f) = some x) ↔
      ((match lastT l k f with | some m => some (File.full m) | none => t.tables k f) = some x)
    cases e : lastT l k f with
    | some m => rfl
    | none => dsimp only; rw [states_tables h k f e]

theorem final_mem_states (ow : Bool) : ∀ (l : List (Act M T)) (t : Tree M T), (final ow t l).1 ∈ states ow t l
  | [], t => List.mem_singleton.2 rfl
  | a :: l, t => by
    unfold final states
    cases e : exec ow t a with
    | none => exact List.mem_cons_self
    | some t1 => exact List.mem_cons_of_mem _ (List.mem_append_right _ (final_mem_states ow l t1))

theorem states_append {ow : Bool} {l1 l2 : List (Act M T)} {t t' : Tree M T} (h1 : (final ow t l1).2 = true)
    (h2 : t' ∈ states ow (final ow t l1).1 l2) : t' ∈ states ow t (l1 ++ l2) := by
  induction l1 generalizing t with
  | nil => exact h2
  | cons a l ih =>
    unfold final at h1 h2
    show t' ∈ t :: (mid ow t a ++ match exec ow t a with
      | none => []
      | some t' => states ow t' (l ++ l2))
    cases e : exec ow t a with
    | none => rw [e] at h1; cases h1
    | some t1 =>
      rw [e] at h1 h2
      exact List.mem_cons_of_mem _ (List.mem_append_right _ (ih h1 h2))

theorem states_self (ow : Bool) (l : List (Act M T)) (t : Tree M T) : t ∈ states ow t l := by
  cases l with
  | nil => exact List.mem_singleton.2 rfl
  | cons a l => exact List.mem_cons_self

/-! ### The calls of the program -/

theorem keyActs_some {res : Key → Option (Res M T)} {k : Key} {r : Res M T} (h : res k = some r) :
    keyActs res k = .mkdir k :: (r.fishers.map (fun p => Act.fisher k p.1 p.2) ++
      (tableFiles.zip [r.marg, r.marg, r.rel, r.rel]).map fun p => Act.table k p.1 p.2) := by
  unfold keyActs
  rw [h]

theorem lastF_fishers (k k' : Key) (f : Str) (l : List (Str × M)) :
    lastF (l.map (fun p => (Act.fisher k p.1 p.2 : Act M T))) k' f = if k' = k then l.reverse.lookup f else none := by
  induction l with
  | nil => show none = _; split <;> rfl
  | cons p l ih =>
    show (lastF (l.map _) k' f).or (if k' = k ∧ f = p.1 then some p.2 else none) = _
    rw [ih, List.reverse_cons, List.lookup_append]
    by_cases c : k' = k
    · rw [if_pos c, if_pos c]
      congr 1
      by_cases d : f = p.1
      · rw [if_pos ⟨c, d⟩, d]
        show _ = (match p.1 == p.1 with | true => some p.2 | false => none)
        rw [beq_self_eq_true]
      · rw [if_neg (fun h => d h.2)]
        show _ = (match f == p.1 with | true => some p.2 | false => none)
        rw [beq_false_of_ne d]
    · rw [if_neg c, if_neg c, if_neg (fun h => c h.1)]
      rfl

theorem lastT_fishers (k k' : Key) (f : Str) (l : List (Str × M)) :
    lastT (l.map (fun p => (Act.fisher k p.1 p.2 : Act M T))) k' f = none := by
  induction l with
  | nil => rfl
  | cons p l ih => show (lastT (l.map _) k' f).or none = _; rw [ih]; rfl

theorem makes_fishers (k k' : Key) (l : List (Str × M)) :
    makes (l.map (fun p => (Act.fisher k p.1 p.2 : Act M T))) k' = false := by
  induction l with
  | nil => rfl
  | cons p l ih => show (false || makes (l.map _) k') = _; rw [ih]; rfl

theorem lastF_tables (k k' : Key) (f : Str) (l : List (Str × T)) :
    lastF (l.map (fun p => (Act.table k p.1 p.2 : Act M T))) k' f = none := by
  induction l with
  | nil => rfl
  | cons p l ih => show (lastF (l.map _) k' f).or none = _; rw [ih]; rfl

theorem lastT_tables (k k' : Key) (f : Str) (l : List (Str × T)) :
    lastT (l.map (fun p => (Act.table k p.1 p.2 : Act M T))) k' f = if k' = k then l.reverse.lookup f else none := by
  induction l with
  | nil => show none = _; split <;> rfl
  | cons p l ih =>
    show (lastT (l.map _) k' f).or (if k' = k ∧ f = p.1 then some p.2 else none) = _
    rw [ih, List.reverse_cons, List.lookup_append]
    by_cases c : k' = k
    · rw [if_pos c, if_pos c]
      congr 1
      by_cases d : f = p.1
      · rw [if_pos ⟨c, d⟩, d]
        show _ = (match p.1 == p.1 with | true => some p.2 | false => none)
        rw [beq_self_eq_true]
      · rw [if_neg (fun h => d h.2)]
        show _ = (match f == p.1 with | true => some p.2 | false => none)
        rw [beq_false_of_ne d]
    · rw [if_neg c, if_neg c, if_neg (fun h => c h.1)]
      rfl

theorem makes_tables (k k' : Key) (l : List (Str × T)) :
    makes (l.map (fun p => (Act.table k p.1 p.2 : Act M T))) k' = false := by
  induction l with
  | nil => rfl
  | cons p l ih => show (false || makes (l.map _) k') = _; rw [ih]; rfl

theorem tableFiles_nodup : tableFiles.Nodup := by decide +kernel

theorem lookup_tables (r : Res M T) (f : Str) :
    (tableFiles.zip [r.marg, r.marg, r.rel, r.rel]).lookup f = tableOf r f := by
  show List.lookup f [("marginalized_errors_test_analysis.xlsx".toList, r.marg),
    ("marginalized_errors_test_analysis.csv".toList, r.marg),
    ("relative_marginalized_errors_test_analysis.xlsx".toList, r.rel),
    ("relative_marginalized_errors_test_analysis.csv".toList, r.rel)] = _
  unfold tableOf
  generalize "marginalized_errors_test_analysis.xlsx".toList = a
  generalize "marginalized_errors_test_analysis.csv".toList = b
  generalize "relative_marginalized_errors_test_analysis.xlsx".toList = c
  generalize "relative_marginalized_errors_test_analysis.csv".toList = d
  have step (x : Str) (v : T) (l : List (Str × T)) : List.lookup f ((x, v) :: l) = if f = x then some v else l.lookup f := by
    by_cases h : f = x
    · rw [if_pos h, h, List.lookup_cons_self]
    · rw [if_neg h, List.lookup_cons, beq_false_of_ne h]
  rw [step, step, step, step]
  split_ifs <;> first | rfl | (exfalso; tauto)

theorem zip_tables_nodup (r : Res M T) : ((tableFiles.zip [r.marg, r.marg, r.rel, r.rel]).map (·.1)).Nodup := tableFiles_nodup

theorem lastF_key {res : Key → Option (Res M T)} {k : Key} {r : Res M T} (h : res k = some r)
    (hn : (r.fishers.map (·.1)).Nodup) (k' : Key) (f : Str) :
    lastF (keyActs res k) k' f = if k' = k then r.fishers.lookup f else none := by
  rw [keyActs_some h]
  show (lastF (_ ++ _) k' f).or none = _
  rw [Option.or_none, lastF_append, lastF_tables, Option.none_or, lastF_fishers, PyDict.lookup_reverse _ hn]

theorem lastT_key {res : Key → Option (Res M T)} {k : Key} {r : Res M T} (h : res k = some r) (k' : Key) (f : Str) :
    lastT (keyActs res k) k' f = if k' = k then tableOf r f else none := by
  rw [keyActs_some h]
  show (lastT (_ ++ _) k' f).or none = _
  rw [Option.or_none, lastT_append, lastT_fishers, Option.or_none, lastT_tables,
    PyDict.lookup_reverse _ (zip_tables_nodup r), lookup_tables]

theorem makes_key {res : Key → Option (Res M T)} {k : Key} {r : Res M T} (h : res k = some r) (k' : Key) :
    makes (keyActs res k) k' = decide (k' = k) := by
  rw [keyActs_some h]
  show (decide (k' = k) || makes (_ ++ _) k') = _
  rw [makes_append, makes_fishers, makes_tables]
  exact Bool.or_false _

/-- What each file gets. -/
theorem acts_spec {res : Key → Option (Res M T)} {r : Key → Res M T} (ks : List Key) (hks : ks.Nodup)
    (h : ∀ k ∈ ks, res k = some (r k) ∧ ((r k).fishers.map (·.1)).Nodup) (k : Key) :
    (∀ f, lastF (acts res ks) k f = if k ∈ ks then (r k).fishers.lookup f else none) ∧
    (∀ f, lastT (acts res ks) k f = if k ∈ ks then tableOf (r k) f else none) ∧
    makes (acts res ks) k = decide (k ∈ ks) := by
  induction ks with
  | nil => exact ⟨fun f => (if_neg (nomatch ·)).symm, fun f => (if_neg (nomatch ·)).symm, rfl⟩
  | cons k0 ks ih =>
    obtain ⟨hnot, hnd⟩ := List.nodup_cons.1 hks
    obtain ⟨iF, iT, iM⟩ := ih hnd fun x hx => h x (List.mem_cons_of_mem _ hx)
    obtain ⟨h0, h0n⟩ := h k0 List.mem_cons_self
    have e : acts res (k0 :: ks) = keyActs res k0 ++ acts res ks := List.flatMap_cons
    rw [e]
    by_cases c : k = k0
    · subst c
      refine ⟨fun f => ?_, fun f => ?_, ?_⟩
      · rw [lastF_append, iF, if_neg hnot, Option.none_or, lastF_key h0 h0n, if_pos rfl, if_pos List.mem_cons_self]
      · rw [lastT_append, iT, if_neg hnot, Option.none_or, lastT_key h0, if_pos rfl, if_pos List.mem_cons_self]
      · rw [makes_append, makes_key h0, decide_eq_true rfl, Bool.true_or, decide_eq_true List.mem_cons_self]
    · have m : k ∈ k0 :: ks ↔ k ∈ ks := ⟨fun h => (List.mem_cons.1 h).resolve_left c, List.mem_cons_of_mem _⟩
      refine ⟨fun f => ?_, fun f => ?_, ?_⟩
      · rw [lastF_append, iF, lastF_key h0 h0n, if_neg c, Option.or_none]
        exact if_congr m.symm rfl rfl
      · rw [lastT_append, iT, lastT_key h0, if_neg c, Option.or_none]
        exact if_congr m.symm rfl rfl
      · rw [makes_append, makes_key h0, decide_eq_false c, Bool.false_or, iM]
        exact decide_eq_decide.2 m.symm

theorem keyActs_noFail {res : Key → Option (Res M T)} {k : Key} {r : Res M T} (h : res k = some r) : NoFail (keyActs res k) := by
  intro a ha
  rw [keyActs_some h] at ha
  rcases List.mem_cons.1 ha with rfl | ha
  · exact nofun
  · rcases List.mem_append.1 ha with ha | ha
    · obtain ⟨_, _, rfl⟩ := List.mem_map.1 ha
      exact nofun
    · obtain ⟨_, _, rfl⟩ := List.mem_map.1 ha
      exact nofun

theorem acts_noFail {res : Key → Option (Res M T)} (ks : List Key) (h : ∀ k ∈ ks, (res k).isSome) : NoFail (acts res ks) := by
  intro a ha
  obtain ⟨k, hk, ha⟩ := List.mem_flatMap.1 ha
  obtain ⟨r, hr⟩ := Option.isSome_iff_exists.1 (h k hk)
  exact keyActs_noFail hr a ha

theorem written_acts {res : Key → Option (Res M T)} {r : Key → Res M T} (h : Proper res r) (t : Tree M T) :
    written t (acts res keys) = over t r := by
  ext k f x
  · show (makes _ k || t.made k) = (decide (k ∈ keys) || t.made k)
    rw [(acts_spec keys keys_nodup h k).2.2]
  · show ((match lastF (acts res keys) k f with | some m => some (File.full m) | none => t.fishers k f) = some x) ↔
      ((if k ∈ keys then (match (r k).fishers.lookup f with | some m => some (File.full m) | none => t.fishers k f)
        else t.fishers k f) = some x)
    rw [(acts_spec keys keys_nodup h k).1]
    by_cases hk : k ∈ keys
    · rw [if_pos hk, if_pos hk]
    · rw [if_neg hk, if_neg hk]
  · show ((match lastT (acts res keys) k f with | some m => some (File.full m) | none => t.tables k f) = some x) ↔
      ((if k ∈ keys then (match tableOf (r k) f with | some m => some (File.full m) | none => t.tables k f)
        else t.tables k f) = some x)
    rw [(acts_spec keys keys_nodup h k).2.1]
    by_cases hk : k ∈ keys
    · rw [if_pos hk, if_pos hk]
    · rw [if_neg hk, if_neg hk]

/-! ### With overwriting -/

/-- With overwriting the program succeeds whatever is there, and each of its files has the new result. -/
theorem overwritten {res : Key → Option (Res M T)} {r : Key → Res M T} (h : Proper res r) (t : Tree M T) :
    create true res t = (over t r, true) := by
  unfold create
  rw [final_true _ _ (acts_noFail keys fun k hk => by rw [(h k hk).1]; rfl), written_acts h]

/-- So after it the directory has the new results and nothing else exactly if there was no other file before. -/
theorem exactly_iff {res : Key → Option (Res M T)} {r : Key → Res M T} (h : Proper res r) (t : Tree M T) :
    Exactly (create true res t).1 r ↔
      ∀ k ∈ keys, (∀ f, f ∉ (r k).fishers.map (·.1) → t.fishers k f = none) ∧ ∀ f, f ∉ tableFiles → t.tables k f = none := by
  rw [overwritten h]
  have hT (k : Key) (f : Str) : tableOf (r k) f = none ↔ f ∉ tableFiles := by
    rw [← lookup_tables, PyDict.lookup_none_iff]
    exact Iff.rfl
  refine forall_congr' fun k => forall_congr' fun hk => ?_
  constructor
  · rintro ⟨_, hF, hTab⟩
    refine ⟨fun f hf => ?_, fun f hf => ?_⟩
    · have := hF f
      change (if k ∈ keys then (match (r k).fishers.lookup f with | some m => some (File.full m) | none => t.fishers k f)
        else t.fishers k f) = _ at this
      rw [if_pos hk, (PyDict.lookup_none_iff _ _).2 hf] at this
      exact this
    · have := hTab f
      change (if k ∈ keys then (match tableOf (r k) f with | some m => some (File.full m) | none => t.tables k f)
        else t.tables k f) = _ at this
      rw [if_pos hk, (hT k f).2 hf] at this
      exact this
  · rintro ⟨hF, hTab⟩
    refine ⟨?_, fun f => ?_, fun f => ?_⟩
    · show (decide (k ∈ keys) || _) = true
      rw [decide_eq_true hk]; rfl
    · show (if k ∈ keys then (match (r k).fishers.lookup f with | some m => some (File.full m) | none => t.fishers k f)
        else t.fishers k f) = _
      rw [if_pos hk]
      cases e : (r k).fishers.lookup f with
      | some m => rfl
      | none => exact hF f ((PyDict.lookup_none_iff _ _).1 e)
    · show (if k ∈ keys then (match tableOf (r k) f with | some m => some (File.full m) | none => t.tables k f)
        else t.tables k f) = _
      rw [if_pos hk]
      cases e : tableOf (r k) f with
      | some m => rfl
      | none => exact hTab f ((hT k f).1 e)

theorem over_states {res : Key → Option (Res M T)} {r : Key → Res M T} (h : Proper res r) {ow : Bool} {t t' : Tree M T}
    (hs : t' ∈ states ow t (acts res keys)) : over t' r = over t r := by
  rw [← written_acts h, ← written_acts h, written_states hs]

/-- After any number of starts for the same results, each finished, failed or stopped anywhere, with or without overwriting, one
run with overwriting gives what a single one would have given. -/
theorem repaired {res : Key → Option (Res M T)} {r : Key → Res M T} (h : Proper res r) {t t' : Tree M T}
    {hist : List (Start M T)} (hl : Later t hist t') (hr : ∀ s ∈ hist, s.res = res) : create true res t' = (over t r, true) := by
  rw [overwritten h]
  congr 1
  induction hl with
  | refl => rfl
  | step s hl hs ih =>
    rw [hr s (List.mem_append_right _ (List.mem_singleton.2 rfl))] at hs
    rw [over_states h hs]
    exact ih fun x hx => hr x (List.mem_append_left _ hx)

/-- A matrix of another run, which the present one does not write, stays beside the new results, and with it all that reads the
directory. -/
theorem stale {res : Key → Option (Res M T)} {r : Key → Res M T} (h : Proper res r) (t : Tree M T) {k : Key} {f : Str}
    (hf : f ∉ (r k).fishers.map (·.1)) : (create true res t).1.fishers k f = t.fishers k f := by
  rw [overwritten h]
  show (if k ∈ keys then (match (r k).fishers.lookup f with | some m => some (File.full m) | none => t.fishers k f)
    else t.fishers k f) = _
  rw [(PyDict.lookup_none_iff _ _).2 hf]
  split <;> rfl

theorem final_append {ow : Bool} {l1 l2 : List (Act M T)} {t : Tree M T} (h1 : (final ow t l1).2 = true) :
    final ow t (l1 ++ l2) = final ow (final ow t l1).1 l2 := by
  induction l1 generalizing t with
  | nil => rfl
  | cons a l ih =>
    unfold final at h1
    show (match exec ow t a with | none => (t, false) | some t' => final ow t' (l ++ l2)) = _
    conv_rhs => rw [show final ow t (a :: l) = (match exec ow t a with | none => (t, false) | some t' => final ow t' l) from rfl]
    cases e : exec ow t a with
    | none => rw [e] at h1; cases h1
    | some t1 => rw [e] at h1; exact ih h1

theorem acts_split (res : Key → Option (Res M T)) {k : Key} (hk : k ∈ keys) :
    ∃ a b, keys = a ++ k :: b ∧ k ∉ a ∧ k ∉ b ∧ acts res keys = acts res a ++ (keyActs res k ++ acts res b) := by
  obtain ⟨a, b, e⟩ := List.append_of_mem hk
  have hn := keys_nodup
  rw [e] at hn
  refine ⟨a, b, e, fun h => ?_, ?_, ?_⟩
  · exact (List.nodup_append.1 hn).2.2 k h k List.mem_cons_self rfl
  · exact (List.nodup_cons.1 (List.nodup_append.1 hn).2.1).1
  · rw [e]
    unfold acts
    rw [List.flatMap_append, List.flatMap_cons]

/-- With overwriting the program can be stopped so that a directory has all the new matrices beside the tables from before. -/
theorem mixed {res : Key → Option (Res M T)} {r : Key → Res M T} (h : Proper res r) (t : Tree M T) {k : Key} (hk : k ∈ keys) :
    ∃ t' ∈ states true t (acts res keys), (∀ f, t'.fishers k f = (over t r).fishers k f) ∧ ∀ f, t'.tables k f = t.tables k f := by
  obtain ⟨a, b, e, ha, hb, hacts⟩ := acts_split res hk
  have hP : ∀ x ∈ a, res x = some (r x) ∧ ((r x).fishers.map (·.1)).Nodup := fun x hx =>
    h x (by rw [e]; exact List.mem_append_left _ hx)
  have hna : a.Nodup := by
    have hn := keys_nodup
    rw [e] at hn
    exact (List.nodup_append.1 hn).1
  obtain ⟨hres, hnd⟩ := h k hk
  let l1 : List (Act M T) := acts res a ++ (.mkdir k :: (r k).fishers.map fun p => Act.fisher k p.1 p.2)
  have hl1 : NoFail l1 := by
    intro x hx
    rcases List.mem_append.1 hx with hx | hx
    · exact acts_noFail a (fun y hy => by rw [(hP y hy).1]; rfl) x hx
    · rcases List.mem_cons.1 hx with rfl | hx
      · exact nofun
      · obtain ⟨_, _, rfl⟩ := List.mem_map.1 hx
        exact nofun
  have hfin := final_true t l1 hl1
  refine ⟨written t l1, ?_, fun f => ?_, fun f => ?_⟩
  · rw [hacts, keyActs_some hres, List.cons_append, List.append_assoc, ← List.cons_append, ← List.append_assoc]
    refine states_append (l1 := l1) (by rw [hfin]) ?_
    rw [hfin]
    exact states_self _ _ _
  · show (match lastF l1 k f with | some m => some (File.full m) | none => t.fishers k f) =
      (if k ∈ keys then (match (r k).fishers.lookup f with | some m => some (File.full m) | none => t.fishers k f)
        else t.fishers k f)
    rw [if_pos hk]
    have : lastF l1 k f = (r k).fishers.lookup f := by
      show lastF (acts res a ++ _) k f = _
      rw [lastF_append, (acts_spec a hna hP k).1, if_neg ha, Option.or_none]
      show (lastF (List.map _ _) k f).or none = _
      rw [Option.or_none, lastF_fishers, if_pos rfl, PyDict.lookup_reverse _ hnd]
    rw [this]
  · show (match lastT l1 k f with | some m => some (File.full m) | none => t.tables k f) = t.tables k f
    have : lastT l1 k f = none := by
      show lastT (acts res a ++ _) k f = _
      rw [lastT_append, (acts_spec a hna hP k).2.1, if_neg ha, Option.or_none]
      show (lastT (List.map _ _) k f).or none = _
      rw [Option.or_none, lastT_fishers]
    rw [this]

/-- While a matrix is overwritten there is a moment without it. -/
theorem deleted_first {res : Key → Option (Res M T)} {r : Key → Res M T} (h : Proper res r) {t : Tree M T} {k : Key} (hk : k ∈ keys)
    {f : Str} (hf : f ∈ (r k).fishers.map (·.1)) (hs : (t.fishers k f).isSome) :
    ∃ t' ∈ states true t (acts res keys), t'.fishers k f = none := by
  obtain ⟨a, b, e, ha, hb, hacts⟩ := acts_split res hk
  have hP : ∀ x ∈ a, res x = some (r x) ∧ ((r x).fishers.map (·.1)).Nodup := fun x hx =>
    h x (by rw [e]; exact List.mem_append_left _ hx)
  have hna : a.Nodup := by
    have hn := keys_nodup
    rw [e] at hn
    exact (List.nodup_append.1 hn).1
  obtain ⟨hres, hnd⟩ := h k hk
  obtain ⟨⟨f', m⟩, hm, rfl⟩ := List.mem_map.1 hf
  obtain ⟨u, v, huv⟩ := List.append_of_mem hm
  have hfu : f' ∉ u.map (·.1) := by
    rw [huv, List.map_append, List.map_cons] at hnd
    exact fun hx => (List.nodup_append.1 hnd).2.2 f' hx f' List.mem_cons_self rfl
  let l1 : List (Act M T) := acts res a ++ (.mkdir k :: u.map fun p => Act.fisher k p.1 p.2)
  have hl1 : NoFail l1 := by
    intro x hx
    rcases List.mem_append.1 hx with hx | hx
    · exact acts_noFail a (fun y hy => by rw [(hP y hy).1]; rfl) x hx
    · rcases List.mem_cons.1 hx with rfl | hx
      · exact nofun
      · obtain ⟨_, _, rfl⟩ := List.mem_map.1 hx
        exact nofun
  have hfin := final_true t l1 hl1
  have hlast : lastF l1 k f' = none := by
    show lastF (acts res a ++ _) k f' = _
    rw [lastF_append, (acts_spec a hna hP k).1, if_neg ha, Option.or_none]
    show (lastF (List.map _ _) k f').or none = _
    rw [Option.or_none, lastF_fishers, if_pos rfl, PyDict.lookup_none_iff, List.map_reverse, List.mem_reverse]
    exact hfu
  have hsome : ((written t l1).fishers k f').isSome := by
    show (match lastF l1 k f' with | some m => some (File.full m) | none => t.fishers k f').isSome = true
    rw [hlast]
    exact hs
  refine ⟨(written t l1).putF k f' none, ?_, if_pos ⟨rfl, rfl⟩⟩
  have e2 : acts res keys = l1 ++ (Act.fisher k f' m :: (v.map (fun p => Act.fisher k p.1 p.2) ++
      ((tableFiles.zip [(r k).marg, (r k).marg, (r k).rel, (r k).rel]).map (fun p => Act.table k p.1 p.2) ++ acts res b))) := by
    rw [hacts, keyActs_some hres, huv]
    simp only [l1, List.map_append, List.map_cons, List.append_assoc, List.cons_append]
  rw [e2]
  refine states_append (l1 := l1) (by rw [hfin]) ?_
  rw [hfin]
  refine List.mem_cons_of_mem _ (List.mem_append_left _ ?_)
  show _ ∈ (if ((written t l1).fishers k f').isSome then
      (if true = true then [(written t l1).putF k f' none, (written t l1).putF k f' (some .begun)] else [])
      else [(written t l1).putF k f' (some .begun)])
  rw [if_pos hsome, if_pos rfl]
  exact List.mem_cons_self

/-- Wherever the program is stopped, a file of a matrix is as before, or it is one of the files to be written and has its new
content, is begun, or, with overwriting, is missing. -/
theorem stopped_matrix {res : Key → Option (Res M T)} {ow : Bool} {t t' : Tree M T} (h : t' ∈ states ow t (acts res keys)) (k : Key)
    (f : Str) : t'.fishers k f = t.fishers k f ∨
      ∃ r m, k ∈ keys ∧ res k = some r ∧ (f, m) ∈ r.fishers ∧
        (t'.fishers k f = some (.full m) ∨ t'.fishers k f = some .begun ∨ ow = true ∧ t'.fishers k f = none) := by
  have key : t'.fishers k f = t.fishers k f ∨ ∃ m, Act.fisher k f m ∈ acts res keys ∧
      (t'.fishers k f = some (.full m) ∨ t'.fishers k f = some .begun ∨ ow = true ∧ t'.fishers k f = none) := by
    refine states_ind (P := fun t l t' => t'.fishers k f = t.fishers k f ∨ ∃ m, Act.fisher k f m ∈ l ∧
      (t'.fishers k f = some (.full m) ∨ t'.fishers k f = some .begun ∨ ow = true ∧ t'.fishers k f = none)) ?_ ?_ ?_ _ t t' h
    · exact fun _ _ => .inl rfl
    · intro t a l t' hm
      rcases mid_fishers hm k f with h | ⟨⟨m, rfl⟩, ho, h⟩
      · exact .inl h
      · refine .inr ⟨m, List.mem_cons_self, ?_⟩
        rcases h with ⟨hs, h⟩ | h
        · refine .inr (.inr ⟨ho.resolve_right fun hn => ?_, h⟩)
          rw [hn] at hs
          cases hs
        · exact .inr (.inl h)
    · intro t a l t1 t' he ih
      rcases ih with ih | ⟨m, hm, ih⟩
      · rcases exec_fishers he k f with h | ⟨m, rfl, h⟩
        · exact .inl (ih.trans h)
        · exact .inr ⟨m, List.mem_cons_self, .inl (ih.trans h)⟩
      · exact .inr ⟨m, List.mem_cons_of_mem _ hm, ih⟩
  rcases key with h | ⟨m, hm, h⟩
  · exact .inl h
  · obtain ⟨k', hk', hm⟩ := List.mem_flatMap.1 hm
    cases hr : res k' with
    | none =>
      unfold keyActs at hm
      rw [hr] at hm
      cases (List.mem_singleton.1 hm)
    | some r =>
      rw [keyActs_some hr] at hm
      rcases List.mem_cons.1 hm with hm | hm
      · cases hm
      · rcases List.mem_append.1 hm with hm | hm
        · obtain ⟨p, hp, e⟩ := List.mem_map.1 hm
          cases e
          exact .inr ⟨r, p.2, hk', hr, hp, h⟩
        · obtain ⟨p, hp, e⟩ := List.mem_map.1 hm
          cases e

/-! ### Without overwriting -/

/-- Without overwriting no file that is there is changed or lost, over any number of starts, with any results, stopped anywhere. -/
theorem kept {t t' : Tree M T} {hist : List (Start M T)} (hl : Later t hist t') (ho : ∀ s ∈ hist, s.ow = false) (k : Key) (f : Str) :
    (∀ c, t.fishers k f = some c → t'.fishers k f = some c) ∧ ∀ c, t.tables k f = some c → t'.tables k f = some c := by
  induction hl with
  | refl => exact ⟨fun _ h => h, fun _ h => h⟩
  | @step t1 t2 h s hl hs ih =>
    have hs' : s.ow = false := ho s (List.mem_append_right _ (List.mem_singleton.2 rfl))
    rw [hs'] at hs
    obtain ⟨iF, iT⟩ := ih fun x hx => ho x (List.mem_append_left _ hx)
    have key : (∀ c, t1.fishers k f = some c → t2.fishers k f = some c) ∧ ∀ c, t1.tables k f = some c → t2.tables k f = some c := by
      refine states_ind (P := fun t l t' => (∀ c, t.fishers k f = some c → t'.fishers k f = some c) ∧
        ∀ c, t.tables k f = some c → t'.tables k f = some c) ?_ ?_ ?_ _ t1 t2 hs
      · exact fun _ _ => ⟨fun _ h => h, fun _ h => h⟩
      · intro t a l t' hm
        refine ⟨fun c hc => ?_, fun c hc => ?_⟩
        · rcases mid_fishers hm k f with h | ⟨_, ho, _⟩
          · exact h.trans hc
          · rcases ho with h | h
            · cases h
            · rw [hc] at h; cases h
        · rcases mid_tables hm k f with h | ⟨_, ho, _⟩
          · exact h.trans hc
          · rcases ho with h | h
            · cases h
            · rw [hc] at h; cases h
      · intro t a l t1 t' he ih
        refine ⟨fun c hc => ih.1 c ?_, fun c hc => ih.2 c ?_⟩
        · rcases exec_fishers he k f with h | ⟨m, rfl, h⟩
          · exact h.trans hc
          · change (if (t.fishers k f).isSome ∧ false = false then none else some (t.putF k f (some (.full m)))) = some t1 at he
            rw [hc, if_pos ⟨rfl, rfl⟩] at he
            cases he
        · rcases exec_tables he k f with h | ⟨m, rfl, h⟩
          · exact h.trans hc
          · change (if (t.tables k f).isSome ∧ false = false then some t else some (t.putT k f (some (.full m)))) = some t1 at he
            rw [hc, if_pos ⟨rfl, rfl⟩] at he
            cases he
            exact hc
    exact ⟨fun c hc => key.1 c (iF c hc), fun c hc => key.2 c (iT c hc)⟩

/-- The files of matrices that are written, in order. -/
def cells (l : List (Act M T)) : List (Key × Str) := l.filterMap fun a => match a with
  | .fisher k f _ => some (k, f)
  | _ => none

theorem final_false_iff (t : Tree M T) (l : List (Act M T)) :
    (final false t l).2 = true ↔ NoFail l ∧ (cells l).Nodup ∧ ∀ c ∈ cells l, t.fishers c.1 c.2 = none := by
  induction l generalizing t with
  | nil => exact ⟨fun _ => ⟨fun _ h => (nomatch h), List.nodup_nil, fun _ h => (nomatch h)⟩, fun _ => rfl⟩
  | cons a l ih =>
    have hcons : NoFail (a :: l) ↔ a ≠ .fail ∧ NoFail l := by
      constructor
      · exact fun h => ⟨h a List.mem_cons_self, fun b hb => h b (List.mem_cons_of_mem _ hb)⟩
      · intro h b hb
        rcases List.mem_cons.1 hb with rfl | hb
        · exact h.1
        · exact h.2 b hb
    rw [hcons]
    cases a with
    | fail => exact ⟨fun h => (nomatch h), fun h => absurd rfl h.1.1⟩
    | mkdir k =>
      show (final false { t with made := _ } l).2 = true ↔ (_ ∧ NoFail l) ∧ (cells l).Nodup ∧ ∀ c ∈ cells l, t.fishers c.1 c.2 = none
      rw [ih]
      exact ⟨fun h => ⟨⟨nofun, h.1⟩, h.2⟩, fun h => ⟨h.1.2, h.2⟩⟩
    | table k f x =>
      have : ∃ t1, exec false t (Act.table k f x : Act M T) = some t1 ∧ t1.fishers = t.fishers := by
        show ∃ t1, (if (t.tables k f).isSome ∧ false = false then some t else some (t.putT k f (some (.full x)))) = some t1 ∧ _
        split
        · exact ⟨t, rfl, rfl⟩
        · exact ⟨_, rfl, rfl⟩
      obtain ⟨t1, h1, h2⟩ := this
      show (match exec false t (Act.table k f x : Act M T) with | none => (t, false) | some t' => final false t' l).2 = true ↔
        (_ ∧ NoFail l) ∧ (cells l).Nodup ∧ ∀ c ∈ cells l, t.fishers c.1 c.2 = none
      rw [h1]
      dsimp only
      rw [ih, h2]
      exact ⟨fun h => ⟨⟨nofun, h.1⟩, h.2⟩, fun h => ⟨h.1.2, h.2⟩⟩
    | fisher k f m =>
      show (match (if (t.fishers k f).isSome ∧ false = false then none else some (t.putF k f (some (.full m)))) with
        | none => (t, false) | some t' => final false t' l).2 = true ↔
        (_ ∧ NoFail l) ∧ ((k, f) :: cells l).Nodup ∧ ∀ c ∈ (k, f) :: cells l, t.fishers c.1 c.2 = none
      by_cases hs : (t.fishers k f).isSome
      · rw [if_pos ⟨hs, rfl⟩]
        refine ⟨fun h => (nomatch h), fun h => ?_⟩
        rw [h.2.2 (k, f) List.mem_cons_self] at hs
        cases hs
      · rw [if_neg fun h => hs h.1]
        dsimp only
        rw [ih]
        have hnone := Option.not_isSome_iff_eq_none.1 hs
        constructor
        · rintro ⟨h1, h2, h3⟩
          have hnot : (k, f) ∉ cells l := by
            intro hm
            have := h3 (k, f) hm
            change (if k = k ∧ f = f then _ else _) = none at this
            rw [if_pos ⟨rfl, rfl⟩] at this
            cases this
          refine ⟨⟨nofun, h1⟩, List.nodup_cons.2 ⟨hnot, h2⟩, fun c hc => ?_⟩
          rcases List.mem_cons.1 hc with rfl | hc'
          · exact hnone
          · have := h3 c hc'
            change (if c.1 = k ∧ c.2 = f then _ else t.fishers c.1 c.2) = none at this
            rw [if_neg] at this
            · exact this
            · rintro ⟨rfl, rfl⟩
              exact hnot hc'
        · rintro ⟨⟨_, h1⟩, h2, h3⟩
          obtain ⟨hnot, h2⟩ := List.nodup_cons.1 h2
          refine ⟨h1, h2, fun c hc => ?_⟩
          show (if c.1 = k ∧ c.2 = f then _ else t.fishers c.1 c.2) = none
          rw [if_neg]
          · exact h3 c (List.mem_cons_of_mem _ hc)
          · rintro ⟨rfl, rfl⟩
            exact hnot hc

theorem cells_append (a b : List (Act M T)) : cells (a ++ b) = cells a ++ cells b := List.filterMap_append

theorem cells_key {res : Key → Option (Res M T)} {k : Key} {r : Res M T} (h : res k = some r) :
    cells (keyActs res k) = r.fishers.map fun p => (k, p.1) := by
  have h1 : ∀ l : List (Str × M), cells (l.map (fun p => (Act.fisher k p.1 p.2 : Act M T))) = l.map fun p => (k, p.1) := by
    intro l
    induction l with
    | nil => rfl
    | cons p l ih => show (k, p.1) :: cells (l.map _) = _; rw [ih]; rfl
  have h2 : ∀ l : List (Str × T), cells (l.map (fun p => (Act.table k p.1 p.2 : Act M T))) = [] := by
    intro l
    induction l with
    | nil => rfl
    | cons p l ih => show cells (l.map _) = _; rw [ih]
  rw [keyActs_some h]
  show cells (_ ++ _) = _
  rw [cells_append, h1, h2, List.append_nil]

theorem cells_acts {res : Key → Option (Res M T)} {r : Key → Res M T} (ks : List Key) (h : ∀ k ∈ ks, res k = some (r k)) :
    cells (acts res ks) = ks.flatMap fun k => (r k).fishers.map fun p => (k, p.1) := by
  induction ks with
  | nil => rfl
  | cons k ks ih =>
    rw [show acts res (k :: ks) = keyActs res k ++ acts res ks from List.flatMap_cons, cells_append,
      cells_key (h k List.mem_cons_self), ih fun x hx => h x (List.mem_cons_of_mem _ hx), List.flatMap_cons]

theorem cells_nodup_iff {r : Key → Res M T} (ks : List Key) (hks : ks.Nodup) :
    (ks.flatMap fun k => (r k).fishers.map fun p => (k, p.1)).Nodup ↔ ∀ k ∈ ks, ((r k).fishers.map (·.1)).Nodup := by
  have hinj (k : Key) : ((r k).fishers.map fun p => (k, p.1)).Nodup ↔ ((r k).fishers.map (·.1)).Nodup := by
    rw [show ((r k).fishers.map fun p => (k, p.1)) = ((r k).fishers.map (·.1)).map (Prod.mk k) by rw [List.map_map]; rfl]
    exact List.nodup_map_iff fun a b h => (Prod.mk.inj h).2
  induction ks with
  | nil => exact ⟨fun _ _ h => (nomatch h), fun _ => List.nodup_nil⟩
  | cons k ks ih =>
    obtain ⟨hnot, hks⟩ := List.nodup_cons.1 hks
    rw [List.flatMap_cons, List.nodup_append, hinj, List.forall_mem_cons]
    refine ⟨fun h => ⟨h.1, (ih hks).1 h.2.1⟩, fun h => ⟨h.1, (ih hks).2 h.2, ?_⟩⟩
    intro a ha b hb e
    obtain ⟨p, _, rfl⟩ := List.mem_map.1 ha
    obtain ⟨k', hk', hb⟩ := List.mem_flatMap.1 hb
    obtain ⟨q, _, rfl⟩ := List.mem_map.1 hb
    rw [(Prod.mk.inj e).1] at hnot
    exact hnot hk'

/-- Without overwriting the program comes to its end exactly if everything can be computed, each matrix has a file of its own and
none of these files is there. -/
theorem succeeds_iff (res : Key → Option (Res M T)) (t : Tree M T) :
    (create false res t).2 = true ↔ ∃ r, Proper res r ∧ ∀ k ∈ keys, ∀ f ∈ (r k).fishers.map (·.1), t.fishers k f = none := by
  unfold create
  rw [final_false_iff]
  constructor
  · rintro ⟨h1, h2, h3⟩
    have hsome : ∀ k ∈ keys, ∃ r, res k = some r := by
      intro k hk
      cases e : res k with
      | some r => exact ⟨r, rfl⟩
      | none =>
        refine absurd rfl (h1 .fail (List.mem_flatMap.2 ⟨k, hk, ?_⟩))
        unfold keyActs
        rw [e]
        exact List.mem_cons_self
    have hne : ∃ k, k ∈ keys := ⟨_, List.mem_cons_self⟩
    obtain ⟨k0, hk0⟩ := hne
    obtain ⟨r0, _⟩ := hsome k0 hk0
    let r : Key → Res M T := fun k => (res k).getD r0
    have hr : ∀ k ∈ keys, res k = some (r k) := by
      intro k hk
      obtain ⟨x, hx⟩ := hsome k hk
      show _ = some ((res k).getD r0)
      rw [hx]; rfl
    rw [cells_acts keys hr] at h2 h3
    refine ⟨r, fun k hk => ⟨hr k hk, (cells_nodup_iff keys keys_nodup).1 h2 k hk⟩, fun k hk f hf => ?_⟩
    obtain ⟨p, hp, rfl⟩ := List.mem_map.1 hf
    exact h3 (k, p.1) (List.mem_flatMap.2 ⟨k, hk, List.mem_map.2 ⟨p, hp, rfl⟩⟩)
  · rintro ⟨r, hr, hf⟩
    refine ⟨acts_noFail keys fun k hk => by rw [(hr k hk).1]; rfl, ?_, ?_⟩
    · rw [cells_acts keys fun k hk => (hr k hk).1, cells_nodup_iff keys keys_nodup]
      exact fun k hk => (hr k hk).2
    · rw [cells_acts keys fun k hk => (hr k hk).1]
      intro c hc
      obtain ⟨k, hk, hc⟩ := List.mem_flatMap.1 hc
      obtain ⟨p, hp, rfl⟩ := List.mem_map.1 hc
      exact hf k hk p.1 (List.mem_map.2 ⟨p, hp, rfl⟩)

/-- So results of which a single matrix was begun are never completed without overwriting, however often the program is started,
unless the matrix gets another name. -/
theorem never_completed {res : Key → Option (Res M T)} {r : Key → Res M T} (h : Proper res r) {t t' : Tree M T} {k : Key} (hk : k ∈ keys)
    {f : Str} (hf : f ∈ (r k).fishers.map (·.1)) (hs : (t.fishers k f).isSome) {hist : List (Start M T)} (hl : Later t hist t')
    (ho : ∀ s ∈ hist, s.ow = false) : (create false res t').2 = false := by
  obtain ⟨c, hc⟩ := Option.isSome_iff_exists.1 hs
  have hc' := (kept hl ho k f).1 c hc
  refine Bool.eq_false_iff.2 fun h2 => ?_
  obtain ⟨r', hr', hn⟩ := (succeeds_iff res t').1 h2
  have e : r' k = r k := Option.some.inj ((hr' k hk).1.symm.trans (h k hk).1)
  have := hn k hk f (by rw [e]; exact hf)
  rw [hc'] at this
  cases this

/-- The table written first to a file. -/
def firstT : List (Act M T) → Key → Str → Option T
  | [], _, _ => none
  | a :: as, k, f => (match a with
    | .table k' f' x => if k = k' ∧ f = f' then some x else none
    | _ => none).or (firstT as k f)

theorem firstT_append (a b : List (Act M T)) (k : Key) (f : Str) : firstT (a ++ b) k f = (firstT a k f).or (firstT b k f) := by
  induction a with
  | nil => rfl
  | cons x a ih =>
    show Option.or _ (firstT (a ++ b) k f) = (Option.or _ (firstT a k f)).or (firstT b k f)
    rw [ih, Option.or_assoc]

theorem firstT_key {res : Key → Option (Res M T)} {k : Key} {r : Res M T} (h : res k = some r) (k' : Key) (f : Str) :
    firstT (keyActs res k) k' f = if k' = k then tableOf r f else none := by
  have h1 : ∀ l : List (Str × M), firstT (l.map (fun p => (Act.fisher k p.1 p.2 : Act M T))) k' f = none := by
    intro l
    induction l with
    | nil => rfl
    | cons p l ih => show Option.or none (firstT (l.map _) k' f) = _; rw [ih]; rfl
  have h2 : ∀ l : List (Str × T), firstT (l.map (fun p => (Act.table k p.1 p.2 : Act M T))) k' f =
      if k' = k then l.lookup f else none := by
    intro l
    induction l with
    | nil => show none = _; split <;> rfl
    | cons p l ih =>
      show Option.or (if k' = k ∧ f = p.1 then some p.2 else none) (firstT (l.map _) k' f) = _
      rw [ih]
      by_cases c : k' = k
      · rw [if_pos c, if_pos c]
        by_cases d : f = p.1
        · rw [if_pos ⟨c, d⟩, d, show p = (p.1, p.2) from rfl, List.lookup_cons_self]; rfl
        · rw [if_neg (fun h => d h.2), List.lookup_cons, beq_false_of_ne d]; rfl
      · rw [if_neg c, if_neg c, if_neg (fun h => c h.1)]; rfl
  rw [keyActs_some h]
  show Option.or none (firstT (_ ++ _) k' f) = _
  rw [Option.none_or, firstT_append, h1, Option.none_or, h2, lookup_tables]

theorem firstT_acts {res : Key → Option (Res M T)} {r : Key → Res M T} (ks : List Key)
    (h : ∀ k ∈ ks, res k = some (r k)) (k : Key) (f : Str) :
    firstT (acts res ks) k f = if k ∈ ks then tableOf (r k) f else none := by
  induction ks with
  | nil => exact (if_neg (nomatch ·)).symm
  | cons k0 ks ih =>
    rw [show acts res (k0 :: ks) = keyActs res k0 ++ acts res ks from List.flatMap_cons, firstT_append,
      firstT_key (h k0 List.mem_cons_self), ih fun x hx => h x (List.mem_cons_of_mem _ hx)]
    by_cases c : k = k0
    · subst c
      rw [if_pos rfl, if_pos List.mem_cons_self]
      by_cases d : k ∈ ks
      · rw [if_pos d, Option.or_self]
      · rw [if_neg d, Option.or_none]
    · rw [if_neg c, Option.none_or]
      exact if_congr ⟨List.mem_cons_of_mem _, fun h => (List.mem_cons.1 h).resolve_left c⟩ rfl rfl

theorem final_false_tables (t : Tree M T) (l : List (Act M T)) (h : (final false t l).2 = true) (k : Key) (f : Str) :
    (final false t l).1.tables k f = (t.tables k f).or ((firstT l k f).map .full) := by
  induction l generalizing t with
  | nil => show t.tables k f = (t.tables k f).or none; rw [Option.or_none]
  | cons a l ih =>
    unfold final at h ⊢
    cases e : exec false t a with
    | none => rw [e] at h; cases h
    | some t1 =>
      rw [e] at h
      dsimp only at h ⊢
      rw [ih t1 h]
      cases a with
      | fail => cases e
      | mkdir k' => cases e; rfl
      | fisher k' f' m =>
        change (if (t.fishers k' f').isSome ∧ false = false then none else some (t.putF k' f' (some (.full m)))) = some t1 at e
        split at e <;> cases e
        rfl
      | table k' f' x =>
        change (if (t.tables k' f').isSome ∧ false = false then some t else some (t.putT k' f' (some (.full x)))) = some t1 at e
        show _ = (t.tables k f).or ((Option.or (if k = k' ∧ f = f' then some x else none) (firstT l k f)).map .full)
        split at e
        · rename_i hs
          cases e
          by_cases c : k = k' ∧ f = f'
          · obtain ⟨rfl, rfl⟩ := c
            obtain ⟨y, hy⟩ := Option.isSome_iff_exists.1 hs.1
            rw [hy]; rfl
          · rw [if_neg c]; rfl
        · rename_i hs
          cases e
          show (if k = k' ∧ f = f' then some (File.full x) else t.tables k f).or _ = _
          by_cases c : k = k' ∧ f = f'
          · rw [if_pos c, if_pos c]
            obtain ⟨rfl, rfl⟩ := c
            rw [Option.not_isSome_iff_eq_none.1 fun h => hs ⟨h, rfl⟩]; rfl
          · rw [if_neg c, if_neg c]; rfl

theorem final_false_fishers (t : Tree M T) (l : List (Act M T)) (h : (final false t l).2 = true) (k : Key) (f : Str) :
    (final false t l).1.fishers k f = (written t l).fishers k f := by
  show _ = (match lastF l k f with | some m => some (File.full m) | none => t.fishers k f)
  induction l generalizing t with
  | nil => rfl
  | cons a l ih =>
    unfold final at h ⊢
    cases e : exec false t a with
    | none => rw [e] at h; cases h
    | some t1 =>
      rw [e] at h
      dsimp only at h ⊢
      rw [ih t1 h]
      cases a with
      | fail => cases e
      | mkdir k' =>
        cases e
        show _ = (match (lastF l k f).or none with | some m => some (File.full m) | none => t.fishers k f)
        rw [Option.or_none]
      | fisher k' f' m =>
        change (if (t.fishers k' f').isSome ∧ false = false then none else some (t.putF k' f' (some (.full m)))) = some t1 at e
        split at e <;> cases e
        show (match lastF l k f with | some m => some (File.full m) | none => if k = k' ∧ f = f' then some (File.full m) else t.fishers k f)
          = (match (lastF l k f).or (if k = k' ∧ f = f' then some m else none) with
            | some m => some (File.full m) | none => t.fishers k f)
        cases lastF l k f with
        | some y => rfl
        | none =>
          by_cases c : k = k' ∧ f = f'
          · rw [if_pos c, if_pos c]; rfl
          · rw [if_neg c, if_neg c]; rfl
      | table k' f' x =>
        change (if (t.tables k' f').isSome ∧ false = false then some t else some (t.putT k' f' (some (.full x)))) = some t1 at e
        show _ = (match (lastF l k f).or none with | some m => some (File.full m) | none => t.fishers k f)
        rw [Option.or_none]
        split at e <;> cases e <;> rfl

/-- What a run without overwriting leaves that comes to its end: all the new matrices; of the tables those that were there already
are kept, although they may belong to other matrices. -/
theorem tables_kept {res : Key → Option (Res M T)} {r : Key → Res M T} (h : Proper res r) {t : Tree M T}
    (hok : (create false res t).2 = true) (k : Key) (f : Str) :
    (create false res t).1.fishers k f = (over t r).fishers k f ∧
    (create false res t).1.tables k f = (t.tables k f).or ((over t r).tables k f) := by
  refine ⟨?_, ?_⟩
  · unfold create
    rw [final_false_fishers t _ hok, written_acts h]
  · unfold create
    rw [final_false_tables t _ hok, firstT_acts keys fun k hk => (h k hk).1]
    show _ = (t.tables k f).or (if k ∈ keys then (match tableOf (r k) f with | some x => some (File.full x) | none => t.tables k f)
      else t.tables k f)
    by_cases hk : k ∈ keys
    · rw [if_pos hk, if_pos hk]
      cases tableOf (r k) f with
      | some x => rfl
      | none => show (t.tables k f).or none = _; rw [Option.or_none, Option.or_self]
    · rw [if_neg hk, if_neg hk]
      show (t.tables k f).or none = _
      rw [Option.or_none, Option.or_self]

/-- In a directory without files both ways give the results and nothing else. -/
theorem first_run {res : Key → Option (Res M T)} {r : Key → Res M T} (h : Proper res r) {t : Tree M T} (ow : Bool)
    (he : ∀ k ∈ keys, ∀ f, t.fishers k f = none ∧ t.tables k f = none) :
    (create ow res t).2 = true ∧ ∀ k ∈ keys, ∀ f, (create ow res t).1.fishers k f = ((r k).fishers.lookup f).map .full ∧
      (create ow res t).1.tables k f = (tableOf (r k) f).map .full := by
  have hF : ∀ k ∈ keys, ∀ f, (over t r).fishers k f = ((r k).fishers.lookup f).map .full := by
    intro k hk f
    show (if k ∈ keys then (match (r k).fishers.lookup f with | some m => some (File.full m) | none => t.fishers k f)
      else t.fishers k f) = _
    rw [if_pos hk, (he k hk f).1]
    cases (r k).fishers.lookup f <;> rfl
  have hT : ∀ k ∈ keys, ∀ f, (over t r).tables k f = (tableOf (r k) f).map .full := by
    intro k hk f
    show (if k ∈ keys then (match tableOf (r k) f with | some m => some (File.full m) | none => t.tables k f)
      else t.tables k f) = _
    rw [if_pos hk, (he k hk f).2]
    cases tableOf (r k) f <;> rfl
  cases ow with
  | true =>
    rw [overwritten h]
    exact ⟨rfl, fun k hk f => ⟨hF k hk f, hT k hk f⟩⟩
  | false =>
    have hok : (create false res t).2 = true := (succeeds_iff res t).2 ⟨r, h, fun k hk f _ => (he k hk f).1⟩
    refine ⟨hok, fun k hk f => ?_⟩
    obtain ⟨h1, h2⟩ := tables_kept h hok k f
    rw [h1, h2, (he k hk f).2, Option.none_or]
    exact ⟨hF k hk f, hT k hk f⟩

/-! ### A case -/

section Case

/-- The results of a case: one or two matrices. -/
def r1 : Res Nat Nat := ⟨[("fisher_a.hdf5".toList, 1)], 10, 11⟩
def r2 : Res Nat Nat := ⟨[("fisher_b.hdf5".toList, 2), ("fisher_c.hdf5".toList, 3)], 20, 21⟩
def nothing : Tree Nat Nat := ⟨fun _ => false, fun _ _ => none, fun _ _ => none⟩
def kk : Key := ("LCDM".toList, "marg_after".toList)

theorem proper1 : Proper (fun _ => some r1) (fun _ => r1) := fun _ _ => ⟨rfl, (by decide +kernel : (r1.fishers.map (·.1)).Nodup)⟩
theorem proper2 : Proper (fun _ => some r2) (fun _ => r2) := fun _ _ => ⟨rfl, (by decide +kernel : (r2.fishers.map (·.1)).Nodup)⟩

example : (create false (fun _ => some r1) nothing).2 = true ∧
    (create false (fun _ => some r1) (create false (fun _ => some r1) nothing).1).2 = false ∧
    (create true (fun _ => some r2) (create false (fun _ => some r1) nothing).1).2 = true ∧
    (create true (fun _ => some r2) (create false (fun _ => some r1) nothing).1).1.fishers kk "fisher_a.hdf5".toList = some (.full 1) ∧
    (create true (fun _ => some r2) (create false (fun _ => some r1) nothing).1).1.fishers kk "fisher_b.hdf5".toList = some (.full 2) ∧
    (create false (fun _ => some r2) (create false (fun _ => some r1) nothing).1).2 = true ∧
    (create false (fun _ => some r2) (create false (fun _ => some r1) nothing).1).1.tables kk
      "marginalized_errors_test_analysis.csv".toList = some (.full 10) := by decide +kernel

example : kk ∈ keys ∧ "fisher_a.hdf5".toList ∈ r1.fishers.map (·.1) := by decide +kernel

example : ∃ t', Later nothing [⟨false, fun _ => some r1⟩] t' ∧ (t'.fishers kk "fisher_a.hdf5".toList).isSome :=
  ⟨(create false (fun _ => some r1) nothing).1, .step (h := []) ⟨false, fun _ => some r1⟩ (.refl _) (final_mem_states _ _ _),
    by decide +kernel⟩

/-- New matrices beside tables of another run, without any message but a warning. -/
example : ¬ Exactly (create false (fun _ => some r2) (create false (fun _ => some r1) nothing).1).1 (fun _ => r2) := by
  intro h
  have := (h kk (by decide +kernel)).2.2 "marginalized_errors_test_analysis.csv".toList
  revert this
  decide +kernel

end Case

end Seyfert.FFiles
