import Verif.Spec.FisherInputs
import Verif.Lemmas.PyDict
import Verif.Props.DeltaCl

/-!
Lemmas for `Props/FisherInputs.lean`.
-/

namespace Seyfert.Inputs

open Ells Cov

variable {P K : Type} [DecidableEq P] [Field K] [LinearOrder K]

/-- A block without the results of an evaluation. -/
def core (b : Block P K) : Block P K := { b with noise := none, delta := none }

theorem core_eq {a b : Block P K} (h : core a = core b) : a = { b with noise := a.noise, delta := a.delta } := by
  obtain ⟨a1, a2, a3, a4, a5, a6, a7, a8, a9⟩ := a
  obtain ⟨b1, b2, b3, b4, b5, b6, b7, b8, b9⟩ := b
  simp only [core, Block.mk.injEq] at h
  simp only [Block.mk.injEq]
  tauto

/-! ### Loops -/

/-- Two dictionaries with the same keys in the same order and related values. -/
inductive Rel {A B C : Type} (R : A → B → C → Prop) : List (A × B) → List (A × C) → Prop where
  | nil : Rel R [] []
  | cons {k b c l l'} : R k b c → Rel R l l' → Rel R ((k, b) :: l) ((k, c) :: l')

theorem Rel.keys {A B C : Type} {R : A → B → C → Prop} {l : List (A × B)} {l' : List (A × C)} (h : Rel R l l') :
    l'.map (·.1) = l.map (·.1) := by
  induction h with
  | nil => rfl
  | cons _ _ ih => simp [ih]

theorem Rel.mem {A B C : Type} {R : A → B → C → Prop} {l : List (A × B)} {l' : List (A × C)} (h : Rel R l l') :
    ∀ q ∈ l', ∃ b, (q.1, b) ∈ l ∧ R q.1 b q.2 := by
  induction h with
  | nil => simp
  | cons hr _ ih =>
    intro q hq
    rcases List.mem_cons.mp hq with rfl | hq
    · exact ⟨_, List.mem_cons_self, hr⟩
    · obtain ⟨b, hb, hR⟩ := ih q hq
      exact ⟨b, List.mem_cons_of_mem _ hb, hR⟩

theorem Rel.lookup {A B C : Type} [DecidableEq A] [BEq A] [LawfulBEq A] {R : A → B → C → Prop} {l : List (A × B)} {l' : List (A × C)}
    (h : Rel R l l') (k : A) :
    (l.lookup k = none ∧ l'.lookup k = none) ∨
      ∃ b c, l.lookup k = some b ∧ l'.lookup k = some c ∧ R k b c := by
  induction h with
  | nil => exact Or.inl ⟨rfl, rfl⟩
  | @cons a b c l l' hr _ ih =>
    by_cases e : k = a
    · subst e
      exact Or.inr ⟨b, c, by simp, by simp, hr⟩
    · have e' : (k == a) = false := by simpa using e
      simp only [List.lookup_cons, e']
      exact ih

theorem noiseLoop_ok {file : List ((P × P) × (Nat → Nat → K))} {l l' : List ((P × P) × Block P K)}
    (h : noiseLoop file l = .ok l') :
    Rel (fun k b b' => ∃ f, file.lookup k = some f ∧ b' = loadNoise f b) l l' := by
  induction l generalizing l' with
  | nil => cases h; exact .nil
  | cons p l ih =>
    obtain ⟨k, b⟩ := p
    unfold noiseLoop at h
    cases hf : file.lookup k with
    | none => rw [hf] at h; cases h
    | some f =>
      rw [hf] at h
      simp only at h
      cases hl : noiseLoop file l with
      | error e => rw [hl] at h; cases h
      | ok r =>
        rw [hl] at h
        cases h
        exact .cons ⟨f, hf, rfl⟩ (ih hl)

theorem noiseLoop_total {file : List ((P × P) × (Nat → Nat → K))} {l : List ((P × P) × Block P K)}
    (h : ∀ p ∈ l, (file.lookup p.1).isSome) : ∃ l', noiseLoop file l = .ok l' := by
  induction l with
  | nil => exact ⟨_, rfl⟩
  | cons p l ih =>
    obtain ⟨k, b⟩ := p
    obtain ⟨f, hf⟩ := Option.isSome_iff_exists.mp (h _ List.mem_cons_self)
    obtain ⟨r, hr⟩ := ih (fun p hp => h p (List.mem_cons_of_mem _ hp))
    refine ⟨(k, loadNoise f b) :: r, ?_⟩
    unfold noiseLoop
    simp only at hf
    rw [hf]
    simp only
    rw [hr]

theorem noiseLoop_missing {file : List ((P × P) × (Nat → Nat → K))} {l : List ((P × P) × Block P K)}
    (h : ∃ p ∈ l, file.lookup p.1 = none) : noiseLoop file l = .error .keyError := by
  induction l with
  | nil => simp at h
  | cons p l ih =>
    obtain ⟨k, b⟩ := p
    unfold noiseLoop
    cases hf : file.lookup k with
    | none => rfl
    | some f =>
      simp only
      obtain ⟨q, hq, hn⟩ := h
      rcases List.mem_cons.mp hq with rfl | hq
      · simp only at hn; rw [hf] at hn; cases hn
      · rw [ih ⟨q, hq, hn⟩]

/-- Loading the same file again changes nothing. -/
theorem noiseLoop_twice {file : List ((P × P) × (Nat → Nat → K))} {l l' : List ((P × P) × Block P K)}
    (h : noiseLoop file l = .ok l') : noiseLoop file l' = .ok l' := by
  have H := noiseLoop_ok h
  clear h
  induction H with
  | nil => rfl
  | @cons k b c l l' hr _ ih =>
    obtain ⟨f, hf, rfl⟩ := hr
    unfold noiseLoop
    rw [hf]
    simp only
    rw [ih]
    rfl

theorem evalLoop_ok {sq : K → K} {sing : List (Nat → Nat → K) → Nat → Bool} {g : Option (Cfg P K)}
    {f : Option K} {l l' : List ((P × P) × Block P K)} (h : evalLoop sq sing g f l = .ok l') :
    Rel (fun _ b b' => evalBlock sq sing g f b = .ok b') l l' := by
  induction l generalizing l' with
  | nil => cases h; exact .nil
  | cons p l ih =>
    obtain ⟨k, b⟩ := p
    unfold evalLoop at h
    cases hf : evalBlock sq sing g f b with
    | error e => rw [hf] at h; cases h
    | ok b' =>
      rw [hf] at h
      simp only at h
      cases hl : evalLoop sq sing g f l with
      | error e => rw [hl] at h; cases h
      | ok r =>
        rw [hl] at h
        cases h
        exact .cons hf (ih hl)

theorem evalLoop_total {sq : K → K} {sing : List (Nat → Nat → K) → Nat → Bool} {g : Option (Cfg P K)}
    {f : Option K} {l : List ((P × P) × Block P K)}
    (h : ∀ p ∈ l, ∃ b', evalBlock sq sing g f p.2 = .ok b') : ∃ l', evalLoop sq sing g f l = .ok l' := by
  induction l with
  | nil => exact ⟨_, rfl⟩
  | cons p l ih =>
    obtain ⟨k, b⟩ := p
    obtain ⟨b', hb⟩ := h _ List.mem_cons_self
    obtain ⟨r, hr⟩ := ih (fun p hp => h p (List.mem_cons_of_mem _ hp))
    refine ⟨(k, b') :: r, ?_⟩
    unfold evalLoop
    simp only at hb
    rw [hb]
    simp only
    rw [hr]

/-! ### One block -/

theorem evalBlock_ok {sq : K → K} {sing : List (Nat → Nat → K) → Nat → Bool} {g : Option (Cfg P K)}
    {f : Option K} {b b' : Block P K} (h : evalBlock sq sing g f b = .ok b') :
    ∃ shape x fs, noiseFor g b = .ok (shape, x) ∧ skyFor g f = .ok fs ∧
      x.length = b.c.length ∧ b.widths.length = b.c.length ∧
      b' = { b with noise := some x, delta := some (List.zipWith (fun w f i j => sq (1 / (w * fs)) * f i j) b.widths (addStacks b.c x)) } := by
  unfold evalBlock at h
  cases hn : noiseFor g b with
  | error e => rw [hn] at h; cases h
  | ok sx =>
    obtain ⟨shape, x⟩ := sx
    rw [hn] at h
    simp only at h
    cases hs : skyFor g f with
    | error e => rw [hs] at h; cases h
    | ok fs =>
      rw [hs] at h
      simp only at h
      split at h
      · next hh =>
        split at h
        · cases h
        · cases h
          exact ⟨shape, x, fs, rfl, rfl, hh.2.1, hh.2.2, rfl⟩
      · cases h

theorem evalBlock_core {sq : K → K} {sing : List (Nat → Nat → K) → Nat → Bool} {g : Option (Cfg P K)}
    {f : Option K} {b b' : Block P K} (h : evalBlock sq sing g f b = .ok b') : core b' = core b := by
  obtain ⟨_, x, fs, _, _, _, _, rfl⟩ := evalBlock_ok h
  rfl

theorem evalBlock_delta {sq : K → K} {sing : List (Nat → Nat → K) → Nat → Bool} {g : Option (Cfg P K)}
    {f : Option K} {b b' : Block P K} (h : evalBlock sq sing g f b = .ok b') : b'.delta.isSome := by
  obtain ⟨_, x, fs, _, _, _, _, rfl⟩ := evalBlock_ok h
  rfl

/-- With a noise that is there, only the spectrum, the noise and the sky fraction matter. -/
theorem evalBlock_congr {sq : K → K} {sing : List (Nat → Nat → K) → Nat → Bool} {g g' : Option (Cfg P K)}
    {f f' : Option K} {b b' : Block P K} {x : List (Nat → Nat → K)} (hc : core b = core b')
    (h1 : b.noise = some x) (h2 : b'.noise = some x) (hs : skyFor g f = skyFor g' f') :
    evalBlock sq sing g f b = evalBlock sq sing g' f' b' := by
  have e := core_eq hc
  rw [h1] at e
  rw [e]
  unfold evalBlock noiseFor
  simp only [h2, hs]

theorem entryAt_zip (sq : K → K) (fs : K) (ws : List K) (c x : List (Nat → Nat → K)) (N : Nat → Nat → K)
    (hx : x.length = c.length) (hw : ws.length = c.length) (hN : ∀ y ∈ x, y = N) (l : Nat) (w : K)
    (hl : ws[l]? = some w) (i j : Nat) :
    entryAt (List.zipWith (fun w f i j => sq (1 / (w * fs)) * f i j) ws (addStacks c x)) l i j
      = sq (1 / (w * fs)) * (entryAt c l i j + N i j) := by
  have hlt : l < ws.length := (List.getElem?_eq_some_iff.mp hl).1
  have hc : l < c.length := by omega
  have hx' : l < x.length := by omega
  have e1 : c[l]? = some c[l] := List.getElem?_eq_getElem hc
  have e2 : x[l]? = some x[l] := List.getElem?_eq_getElem hx'
  have e3 : x[l] = N := hN _ (List.getElem_mem hx')
  unfold entryAt addStacks
  rw [List.getElem?_zipWith, hl, List.getElem?_zipWith, e1, e2, e3]

theorem evalBlock_normalised {sq : K → K} {sing : List (Nat → Nat → K) → Nat → Bool} {g : Option (Cfg P K)}
    {f : Option K} {b b' : Block P K} {k : P × P} {t : Cl K} {fs : K} {N : Nat → Nat → K}
    (hc : core b = fromCl k t) (hs : skyFor g f = .ok fs)
    (hN : ∀ shape x, noiseFor g b = .ok (shape, x) → ∀ y ∈ x, y = N)
    (h : evalBlock sq sing g f b = .ok b') : Normalised sq b' k t fs N := by
  obtain ⟨shape, x, fs', hx, hs', hl, hw, rfl⟩ := evalBlock_ok h
  rw [hs] at hs'
  cases hs'
  have e : b = { fromCl k t with noise := b.noise, delta := b.delta } := core_eq (b := fromCl k t) (by rw [hc]; rfl)
  have e1 : b.c = t.arr := by rw [e]; rfl
  have e2 : b.widths = t.widths := by rw [e]; rfl
  have e3 : b.p1 = k.1 := by rw [e]; rfl
  have e4 : b.p2 = k.2 := by rw [e]; rfl
  have e5 : b.ells = t.ells := by rw [e]; rfl
  have e6 : b.n = t.n := by rw [e]; rfl
  have e7 : b.m = t.m := by rw [e]; rfl
  rw [e1] at hl hw
  rw [e2] at hw
  refine ⟨⟨e3, e4⟩, ⟨e5, e2⟩, ⟨e6, e7⟩, e1, hw, ⟨x, rfl, hl, hN _ _ hx⟩, ⟨_, rfl, ?_, ?_⟩⟩
  · simp only [e1, e2, addStacks, List.length_zipWith, hl, hw, min_self]
  · intro l w hlw i j
    simp only [e1, e2]
    exact entryAt_zip sq fs t.widths t.arr x N hl hw (hN _ _ hx) l w hlw i j

/-! ### Covariances depend on what the store answers only -/

theorem covBlock_congr {s s' : Store P K} (h : ∀ a b, s.get a b = s'.get a b) (AB CD : P × P) :
    covBlock s AB CD = covBlock s' AB CD := by
  unfold covBlock covBlockFrom
  simp only [h]

theorem covLoop_congr {s s' : Store P K} (h : ∀ a b, s.get a b = s'.get a b) (d : Blocks P K)
    (l : List ((P × P) × (P × P) × Bool)) : Cov.evalLoop s d l = Cov.evalLoop s' d l := by
  induction l generalizing d with
  | nil => rfl
  | cons x l ih =>
    obtain ⟨AB, CD, u⟩ := x
    unfold Cov.evalLoop evalStep
    simp only [covBlock_congr h, ih]

theorem covariance_congr {s s' : Store P K} (h : ∀ k, s.lookup k = s'.lookup k) (dv : List (P × P)) :
    covariance s dv = covariance s' dv := by
  have hg : ∀ a b, s.get a b = s'.get a b := fun a b => by
    unfold Store.get
    simp only [h]
  unfold covariance evalAllBlocks
  rw [covLoop_congr hg]

theorem storeOf_ok {l : List ((P × P) × Block P K)} {s : Store P K} (h : storeOf l = .ok s) :
    Rel (fun _ b t => ∃ d, b.delta = some d ∧ t = ⟨b.ells, b.n, b.m, d⟩) l s := by
  induction l generalizing s with
  | nil => cases h; exact .nil
  | cons p l ih =>
    obtain ⟨k, b⟩ := p
    unfold storeOf at h
    cases hd : b.delta with
    | none => rw [hd] at h; cases h
    | some d =>
      rw [hd] at h
      simp only at h
      cases hl : storeOf l with
      | error e => rw [hl] at h; cases h
      | ok r =>
        rw [hl] at h
        cases h
        exact .cons ⟨d, hd, rfl⟩ (ih hl)

theorem storeOf_total {l : List ((P × P) × Block P K)} (h : ∀ p ∈ l, p.2.delta.isSome) :
    ∃ s, storeOf l = .ok s := by
  induction l with
  | nil => exact ⟨_, rfl⟩
  | cons p l ih =>
    obtain ⟨k, b⟩ := p
    obtain ⟨d, hd⟩ := Option.isSome_iff_exists.mp (h _ List.mem_cons_self)
    obtain ⟨r, hr⟩ := ih (fun p hp => h p (List.mem_cons_of_mem _ hp))
    refine ⟨(k, ⟨b.ells, b.n, b.m, d⟩) :: r, ?_⟩
    unfold storeOf
    simp only at hd
    rw [hd]
    simp only
    rw [hr]

theorem storeOf_lookup {l l' : List ((P × P) × Block P K)} {s s' : Store P K} (h : storeOf l = .ok s)
    (h' : storeOf l' = .ok s') (e : ∀ k, l.lookup k = l'.lookup k) (k : P × P) : s.lookup k = s'.lookup k := by
  rcases (storeOf_ok h).lookup k with ⟨a, b⟩ | ⟨x, t, a, b, d, hd, rfl⟩ <;>
    rcases (storeOf_ok h').lookup k with ⟨a', b'⟩ | ⟨x', t', a', b', d', hd', rfl⟩
  · rw [b, b']
  · rw [e, a'] at a; cases a
  · rw [e, a'] at a; cases a
  · rw [e, a'] at a
    cases a
    rw [hd] at hd'
    cases hd'
    rw [b, b']

end Seyfert.Inputs
