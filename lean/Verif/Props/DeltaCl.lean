import Verif.Model.DeltaCl
import Verif.Lemmas.PyStr
import Verif.Props.Covariance
import Mathlib.Tactic.FieldSimp
import Mathlib.Tactic.Ring

/-!
C52: shot noise, normalisation and joint blocks.
-/

set_option linter.unusedSectionVars false

namespace Seyfert.Cov

open Ells

variable {P K : Type} [DecidableEq P] [Field K] [LinearOrder K]

/-! ### Noise -/

/-- The shot noise of a pair of bins: nothing between different probes or different bins, else the
value of the bin, reduced for spectroscopic galaxies if that is configured. -/
def noiseSpec (cfg : NoiseCfg P K) (p q : P) (i j : Nat) : K :=
  if p = q ∧ i = j then
    (cfg.shot p).getD i 0 * (if p = cfg.spec ∧ cfg.reduced = true then cfg.nSpec / cfg.nPhot else 1)
  else 0

theorem computeNoise_eq (cfg : NoiseCfg P K) (b : Block P K) :
    (computeNoise cfg b).2 = b.c.map (fun _ i j => noiseSpec cfg b.p1 b.p2 i j) := by
  unfold computeNoise noiseSpec
  by_cases h : b.p1 = b.p2
  · rw [if_neg (not_not.mpr h)]
    apply List.map_congr_left
    intro _ _
    funext i j
    by_cases hij : i = j
    · simp only [diagOf, h, hij, if_true, and_self]
    · simp only [diagOf, h, hij, if_false, and_false, zero_mul]
  · rw [if_pos h]
    apply List.map_congr_left
    intro _ _
    funext i j
    simp [h]

/-- C52. Shot noise: the same matrix at every multipole of the spectrum; zero between different probes
and off the diagonal. -/
theorem noise_spec (cfg : NoiseCfg P K) (b : Block P K) :
    (computeNoise cfg b).2.length = b.c.length ∧
    (∀ f ∈ (computeNoise cfg b).2, ∀ i j, f i j = noiseSpec cfg b.p1 b.p2 i j) ∧
    (b.p1 ≠ b.p2 → ∀ f ∈ (computeNoise cfg b).2, ∀ i j, f i j = 0) ∧
    (∀ f ∈ (computeNoise cfg b).2, ∀ i j, i ≠ j → f i j = 0) := by
  rw [computeNoise_eq]
  refine ⟨by simp, ?_, ?_, ?_⟩
  · intro f hf i j
    obtain ⟨_, _, rfl⟩ := List.mem_map.mp hf
    rfl
  · intro h f hf i j
    obtain ⟨_, _, rfl⟩ := List.mem_map.mp hf
    simp [noiseSpec, h]
  · intro f hf i j h
    obtain ⟨_, _, rfl⟩ := List.mem_map.mp hf
    simp [noiseSpec, h]

/-! ### Normalisation -/

/-- The noise that `evaluate` uses. -/
theorem evaluate_ok {sq : K → K} {sing : List (Nat → Nat → K) → Nat → Bool} {cfg : NoiseCfg P K}
    {fSky : K} {b b' : Block P K} (h : evaluate sq sing cfg fSky b = .ok b') :
    ∃ noise d, b' = { b with noise := some noise, delta := some d } ∧
      noise = (match b.noise with | some x => x | none => (computeNoise cfg b).2) ∧
      noise.length = b.c.length ∧ b.widths.length = b.c.length ∧
      d = List.zipWith (fun w f i j => sq (1 / (w * fSky)) * f i j) b.widths
        (addStacks b.c noise) := by
  unfold evaluate at h
  cases hn : b.noise with
  | none =>
    rw [hn] at h
    simp only at h
    split at h
    · next hc =>
      split at h
      · cases h
      · refine ⟨_, _, (Except.ok.inj h).symm, rfl, hc.2.1, hc.2.2, rfl⟩
    · cases h
  | some x =>
    rw [hn] at h
    simp only at h
    split at h
    · next hc =>
      split at h
      · cases h
      · refine ⟨_, _, (Except.ok.inj h).symm, rfl, hc.2.1, hc.2.2, rfl⟩
    · cases h

/-- C52. A fresh block that is evaluated holds, at the multipole number `l`, the spectrum plus its shot
noise, times the square root of `1 / (Δℓ f_sky)`; the spectrum itself is kept. -/
theorem evaluate_spec {sq : K → K} {sing : List (Nat → Nat → K) → Nat → Bool} {cfg : NoiseCfg P K}
    {fSky : K} {b b' : Block P K} (hb : b.noise = none)
    (h : evaluate sq sing cfg fSky b = .ok b') :
    b'.c = b.c ∧ b'.ells = b.ells ∧ ∃ d, b'.delta = some d ∧ d.length = b.c.length ∧
      ∀ (l : Nat) (w : K) (f : Nat → Nat → K), b.widths[l]? = some w → b.c[l]? = some f →
        ∀ i j, entryAt d l i j = sq (1 / (w * fSky)) * (f i j + noiseSpec cfg b.p1 b.p2 i j) := by
  obtain ⟨noise, d, rfl, hn, h1, h2, rfl⟩ := evaluate_ok h
  rw [hb] at hn
  simp only at hn
  rw [computeNoise_eq] at hn
  subst hn
  refine ⟨rfl, rfl, _, rfl, by simp [addStacks, h2], ?_⟩
  intro l w f hw hf i j
  unfold entryAt
  rw [List.getElem?_zipWith, hw]
  unfold addStacks
  rw [List.getElem?_zipWith, hf, List.getElem?_map, hf]
  rfl

/-- C52. A fresh block is evaluated without error whenever the arrays fit and, for an auto-correlation,
no normalised matrix is singular. -/
theorem evaluate_total {sq : K → K} {sing : List (Nat → Nat → K) → Nat → Bool} {cfg : NoiseCfg P K}
    {fSky : K} {b : Block P K} (hb : b.noise = none) (hw : b.widths.length = b.c.length)
    (ha : b.p1 = b.p2 → b.n = b.m ∧ (cfg.shot b.p1).length = b.n ∧
      sing (List.zipWith (fun w f i j => sq (1 / (w * fSky)) * (f i j + noiseSpec cfg b.p1 b.p2 i j))
        b.widths b.c) b.n = false) :
    ∃ b', evaluate sq sing cfg fSky b = .ok b' := by
  unfold evaluate
  rw [hb]
  simp only
  have hs : (computeNoise cfg b).1 = (b.n, b.m) := by
    unfold computeNoise
    by_cases h : b.p1 = b.p2
    · rw [if_neg (not_not.mpr h)]
      obtain ⟨h1, h2, _⟩ := ha h
      simp only [h2, ← h1]
    · rw [if_pos h]
  rw [if_pos ⟨hs, (noise_spec cfg b).1, hw⟩, if_neg]
  · exact ⟨_, rfl⟩
  · rintro ⟨h, h' | h'⟩
    · exact h' (ha h).1
    · have he : List.zipWith (fun w f i j => sq (1 / (w * fSky)) * f i j) b.widths
          (addStacks b.c (computeNoise cfg b).2) = List.zipWith (fun w f i j =>
            sq (1 / (w * fSky)) * (f i j + noiseSpec cfg b.p1 b.p2 i j)) b.widths b.c := by
        rw [computeNoise_eq]
        apply List.ext_getElem
        · simp [addStacks]
        · intro l _ _; simp [addStacks]
      rw [he, (ha h).2.2] at h'; cases h'

/-- C52. The noise of a block is computed once: evaluating again, even under another configuration and
with another sky fraction, keeps the noise of the first time. -/
theorem evaluate_again {sq : K → K} {sing : List (Nat → Nat → K) → Nat → Bool}
    {cfg cfg' : NoiseCfg P K} {f f' : K} {b b' b'' : Block P K}
    (h : evaluate sq sing cfg f b = .ok b') (h' : evaluate sq sing cfg' f' b' = .ok b'') :
    b''.noise = b'.noise ∧
      (b.noise = none → b''.noise = some (b.c.map (fun _ i j => noiseSpec cfg b.p1 b.p2 i j))) := by
  obtain ⟨noise, d, rfl, hn, _⟩ := evaluate_ok h
  obtain ⟨noise', d', rfl, hn', _⟩ := evaluate_ok h'
  simp only at hn'
  subst hn'
  refine ⟨rfl, ?_⟩
  intro h0
  rw [h0] at hn
  simp only at hn
  rw [hn, computeNoise_eq]

/-- C52. Shot noise written to a file and loaded into a block of the same spectrum gives the same
normalised spectrum as computing it, whatever the configuration when it is loaded. -/
theorem noise_file_roundtrip {sq : K → K} {sing : List (Nat → Nat → K) → Nat → Bool}
    {cfg cfg' : NoiseCfg P K} {f : K} {b b' : Block P K} (hb : b.noise = none)
    (hne : b.c ≠ []) (hl : b.ells.length = b.c.length)
    (h : evaluate sq sing cfg f b = .ok b') :
    ∃ n, writeNoise b' = .ok n ∧ evaluate sq sing cfg' f (loadNoise n b) = .ok b' := by
  obtain ⟨noise, d, rfl, hn, h1, h2, hd⟩ := evaluate_ok h
  rw [hb] at hn
  simp only at hn
  rw [computeNoise_eq] at hn
  obtain ⟨c0, cs, hc⟩ := List.exists_cons_of_ne_nil hne
  refine ⟨fun i j => noiseSpec cfg b.p1 b.p2 i j, ?_, ?_⟩
  · unfold writeNoise
    rw [hn, hc]
    rfl
  · have hload : b.ells.map (fun _ i j => noiseSpec cfg b.p1 b.p2 i j) = noise := by
      rw [hn]
      apply List.ext_getElem
      · simp [hl]
      · intro i _ _; simp
    have hsing : ¬ (b.p1 = b.p2 ∧ (b.n ≠ b.m ∨ sing d b.n = true)) := by
      unfold evaluate at h
      rw [hb] at h
      simp only at h
      split at h
      · split at h
        · cases h
        · next hh =>
          rw [computeNoise_eq, ← hn, ← hd] at hh
          exact hh
      · cases h
    unfold evaluate loadNoise
    simp only
    rw [hload, if_pos ⟨trivial, h1, h2⟩, ← hd, if_neg hsing]

/-- C52. With the normalisation above, the covariance of two components is the usual Gaussian one:
products of spectra with noise, over `(2ℓ+1) Δℓ f_sky`. -/
theorem covariance_gaussian [IsStrictOrderedRing K] {sq : K → K} (hsq : ∀ x, 0 ≤ x → sq x * sq x = x)
    (C : P → P → K → Nat → Nat → K) (w : K → K) (fSky ℓ : K) (hw : 0 < w ℓ) (hf : 0 < fSky)
    (x y : (P × Nat) × (P × Nat)) :
    covSpec (fun a b ℓ i j => sq (1 / (w ℓ * fSky)) * C a b ℓ i j) ℓ x y
      = (C x.1.1 y.1.1 ℓ x.1.2 y.1.2 * C x.2.1 y.2.1 ℓ x.2.2 y.2.2
        + C x.1.1 y.2.1 ℓ x.1.2 y.2.2 * C x.2.1 y.1.1 ℓ x.2.2 y.1.2)
        / ((2 * ℓ + 1) * w ℓ * fSky) := by
  have h := hsq (1 / (w ℓ * fSky)) (by positivity)
  unfold covSpec
  rw [show ∀ a b c d e : K, (e * a * (e * b) + e * c * (e * d)) = (e * e) * (a * b + c * d) from
    fun a b c d e => by ring, h, mul_assoc (2 * ℓ + 1), one_div, div_eq_mul_inv, div_eq_mul_inv,
    mul_inv (2 * ℓ + 1)]
  ring

/-! ### Joint blocks -/

/-- Rows and columns of the joint matrix: the bins of the probes, probe after probe. -/
def binLayout (nb : P → Nat) (probes : List P) : List (P × Nat) :=
  probes.flatMap (fun p => (List.range (nb p)).map (fun i => (p, i)))

theorem mem_combosP {l : List P} {x : P × P} (h : x ∈ combosP l) : x.1 ∈ l ∧ x.2 ∈ l := by
  induction l with
  | nil => simp [combosP] at h
  | cons a l ih =>
    rw [combosP, List.mem_append] at h
    rcases h with h | h
    · obtain ⟨b, hb, rfl⟩ := List.mem_map.mp h
      exact ⟨List.mem_cons_self, hb⟩
    · exact ⟨List.mem_cons_of_mem _ (ih h).1, List.mem_cons_of_mem _ (ih h).2⟩

theorem combosP_all {l : List P} {a b : P} (ha : a ∈ l) (hb : b ∈ l) :
    (a, b) ∈ combosP l ∨ (b, a) ∈ combosP l := by
  induction l with
  | nil => simp at ha
  | cons c l ih =>
    simp only [combosP, List.mem_append, List.mem_map, Prod.mk.injEq]
    rcases List.mem_cons.mp ha with rfl | ha'
    · exact Or.inl (Or.inl ⟨b, hb, rfl, rfl⟩)
    · rcases List.mem_cons.mp hb with rfl | hb'
      · exact Or.inr (Or.inl ⟨a, ha, rfl, rfl⟩)
      · exact (ih ha' hb').imp Or.inr Or.inr

/-- The key found for a pair of probes. -/
def keyOf (s : Store P K) (p : P × P) : P × P := if (s.lookup p).isSome then p else (p.2, p.1)

theorem storedKey_eq {s : Store P K} {nb : P → Nat} {g : P → P → List K}
    {δ : P → P → K → Nat → Nat → K} (H : Holds s nb g δ) {p : P × P} (h : Has s p.1 p.2) :
    storedKey s p = .ok (keyOf s p, fullBlock nb g δ (keyOf s p).1 (keyOf s p).2) := by
  unfold storedKey keyOf
  cases h1 : s.lookup p with
  | some t => simp only [Option.isSome_some, if_true]; rw [H.stored p.1 p.2 t h1]
  | none =>
    rcases h with h | h
    · rw [show s.lookup (p.1, p.2) = none from h1] at h; cases h
    · obtain ⟨t, ht⟩ := Option.isSome_iff_exists.mp h
      simp only [ht, Option.isSome_none, Bool.false_eq_true, if_false]
      rw [H.stored _ _ _ ht]

theorem storedKey_none {s : Store P K} {p : P × P} (h : ¬ Has s p.1 p.2) :
    storedKey s p = .error .keyError := by
  have h1 : s.lookup p = none := Option.not_isSome_iff_eq_none.mp (fun e => h (Or.inl e))
  have h2 : s.lookup (p.2, p.1) = none := Option.not_isSome_iff_eq_none.mp (fun e => h (Or.inr e))
  unfold storedKey
  rw [h1, h2]

theorem isSome_lookup_of_mem {A B : Type} [BEq A] [LawfulBEq A] {l : List (A × B)} {x : A × B}
    (h : x ∈ l) : (l.lookup x.1).isSome := by
  induction l with
  | nil => simp at h
  | cons y l ih =>
    obtain ⟨a, b⟩ := y
    rw [List.lookup_cons]
    by_cases hx : x.1 == a
    · rw [hx]; rfl
    · rw [Bool.not_eq_true] at hx
      rw [hx]
      rcases List.mem_cons.mp h with rfl | h
      · simp at hx
      · exact ih h

/-- Assembling blocks whose sizes depend on their row and column only. -/
theorem npBlock_grid (ells : List K) (probes : List P) (nb : P → Nat) (δ : P → P → K → Nat → Nat → K)
    (hne : probes ≠ []) :
    ∃ M, npBlock ells (probes.map (fun p => probes.map (fun q =>
        (⟨ells, nb p, nb q, ells.map (δ p q)⟩ : Tomo K)))) = .ok M ∧ M.ells = ells ∧
      M.size = (binLayout nb probes).length ∧ M.arr.length = ells.length ∧
      ∀ (l : Nat) (ℓ : K) (R C : Nat) (x y : P × Nat), ells[l]? = some ℓ →
        (binLayout nb probes)[R]? = some x → (binLayout nb probes)[C]? = some y →
        entryAt M.arr l R C = δ x.1 y.1 ℓ x.2 y.2 := by
  set rows := probes.map (fun p => probes.map (fun q =>
        (⟨ells, nb p, nb q, ells.map (δ p q)⟩ : Tomo K))) with hrows
  obtain ⟨p₀, rest, hp⟩ := List.exists_cons_of_ne_nil hne
  have hheights : heights rows = probes.map nb := by
    unfold heights
    rw [hrows, List.map_map]
    apply List.map_congr_left
    intro p _
    simp only [Function.comp]
    rw [hp, List.map_cons, List.head?_cons]
    rfl
  have hwidths : blockWidths rows = probes.map nb := by
    unfold blockWidths
    have : rows.head? = some (probes.map (fun q =>
        (⟨ells, nb p₀, nb q, ells.map (δ p₀ q)⟩ : Tomo K))) := by
      rw [hrows, hp, List.map_cons, List.head?_cons]
    rw [this]
    simp only [Option.getD_some, List.map_map]
    rfl
  have hok : blockOk ells.length rows := by
    intro r hr
    rw [hrows] at hr
    obtain ⟨p, _, rfl⟩ := List.mem_map.mp hr
    refine ⟨?_, ?_⟩
    · intro t ht
      obtain ⟨q, _, rfl⟩ := List.mem_map.mp ht
      refine ⟨by simp, ?_⟩
      rw [hp, List.map_cons, List.head?_cons]
      rfl
    · rw [hwidths, List.map_map]
      rfl
  have hrne : rows ≠ [] := by rw [hrows, hp]; simp
  have hlen : (fun p => ((List.range (nb p)).map (fun i => (p, i))).length) = nb := by
    funext p; simp
  refine ⟨⟨ells, (heights rows).sum, (List.range ells.length).map (fun l R C =>
    npBlockEntry rows l R C)⟩, ?_, rfl, ?_, by simp, ?_⟩
  · unfold npBlock
    rw [if_neg hrne, if_pos hok]
  · show (heights rows).sum = _
    rw [hheights]
    unfold binLayout
    rw [List.length_flatMap, hlen]
  · intro l ℓ R C x y hl hx hy
    have hlt : l < ells.length := (List.getElem?_eq_some_iff.mp hl).1
    unfold binLayout at hx hy
    rw [flatMap_getElem?, hlen] at hx hy
    unfold entryAt
    rw [List.getElem?_map, List.getElem?_range hlt]
    simp only [Option.map_some]
    unfold npBlockEntry
    rw [hheights, hwidths]
    cases hR : locate (probes.map nb) R with
    | none => rw [hR] at hx; cases hx
    | some a =>
      cases hC : locate (probes.map nb) C with
      | none => rw [hC] at hy; cases hy
      | some b =>
        obtain ⟨a, i⟩ := a
        obtain ⟨b, j⟩ := b
        rw [hR] at hx
        rw [hC] at hy
        simp only at hx hy
        obtain ⟨p, hp', hx⟩ := Option.bind_eq_some_iff.mp hx
        obtain ⟨q, hq', hy⟩ := Option.bind_eq_some_iff.mp hy
        rw [List.getElem?_map] at hx hy
        obtain ⟨i', hi, rfl⟩ := Option.map_eq_some_iff.mp hx
        obtain ⟨j', hj, rfl⟩ := Option.map_eq_some_iff.mp hy
        obtain ⟨hi', rfl⟩ := List.getElem?_eq_some_iff.mp hi
        obtain ⟨hj', rfl⟩ := List.getElem?_eq_some_iff.mp hj
        simp only [List.getElem_range]
        have hb : blockAt rows a b = some ⟨ells, nb p, nb q, ells.map (δ p q)⟩ := by
          unfold blockAt
          rw [hrows, List.getElem?_map, hp']
          simp only [Option.map_some, Option.bind_some, List.getElem?_map, hq']
        rw [hb]
        simp only
        exact entryAt_map _ _ _ _ _ hl

/-- C52. The joint matrix of some probes whose spectra are all stored, in whatever orientation: it is
over the multipoles that the spectra of all the pairs have in common, the bins of a probe occupy its
own rows and columns, the entry of two bins is their spectrum, and the matrix is symmetric. -/
theorem xc_spec {s : Store P K} {nb : P → Nat} {g : P → P → List K}
    {δ : P → P → K → Nat → Nat → K} (H : Holds s nb g δ) {probes : List P} (hne : probes ≠ [])
    (hav : ∀ p ∈ probes, ∀ q ∈ probes, Has s p q) :
    ∃ M, xcMatrix s probes = .ok M ∧ M.size = (binLayout nb probes).length ∧
      M.ells.Pairwise (· < ·) ∧ (∀ ℓ, ℓ ∈ M.ells ↔ ∀ p ∈ probes, ∀ q ∈ probes, ℓ ∈ g p q) ∧
      M.arr.length = M.ells.length ∧
      (∀ (l : Nat) (ℓ : K) (R C : Nat) (x y : P × Nat), M.ells[l]? = some ℓ →
        (binLayout nb probes)[R]? = some x → (binLayout nb probes)[C]? = some y →
        entryAt M.arr l R C = δ x.1 y.1 ℓ x.2 y.2) ∧
      (∀ l R C, R < M.size → C < M.size → entryAt M.arr l R C = entryAt M.arr l C R) := by
  set sel := (combosP probes).map (fun p =>
    (keyOf s p, fullBlock nb g δ (keyOf s p).1 (keyOf s p).2)) with hsel
  have hsel' : (combosP probes).mapM (storedKey s) = .ok sel :=
    mapM_ok _ _ _ (fun p hp => storedKey_eq H (hav _ (mem_combosP hp).1 _ (mem_combosP hp).2))
  have hkey : ∀ p, keyOf s p = p ∨ keyOf s p = (p.2, p.1) := by
    intro p; unfold keyOf; split <;> simp
  have hHolds : Holds sel nb g δ := by
    refine ⟨?_, H.symm, H.gsymm, H.sorted⟩
    intro a b t ht
    obtain ⟨p, _, hp⟩ := List.mem_map.mp (mem_of_lookup' ht)
    simp only [Prod.mk.injEq] at hp
    rw [← hp.2, hp.1]
  have hHas : ∀ p ∈ probes, ∀ q ∈ probes, Has sel p q := by
    have key : ∀ x ∈ combosP probes, Has sel x.1 x.2 := by
      intro x hx
      have hm : (keyOf s x, fullBlock nb g δ (keyOf s x).1 (keyOf s x).2) ∈ sel :=
        List.mem_map.mpr ⟨x, hx, rfl⟩
      have := isSome_lookup_of_mem hm
      simp only at this
      rcases hkey x with h | h
      · rw [h] at this; exact Or.inl this
      · rw [h] at this; exact Or.inr this
    intro p hp q hq
    rcases combosP_all hp hq with h | h
    · exact key _ h
    · exact (key _ h).symm
  have hselne : sel ≠ [] := by
    obtain ⟨p, rest, rfl⟩ := List.exists_cons_of_ne_nil hne
    rw [hsel, combosP]; simp
  obtain ⟨ells, he, hes, hem⟩ := commonElls_spec (fun k : P × P => g k.1 k.2) hselne
    (by
      intro p hp
      obtain ⟨x, _, rfl⟩ := List.mem_map.mp hp
      rfl) (fun p _ => H.sorted _ _)
  have hem' : ∀ ℓ, ℓ ∈ ells ↔ ∀ p ∈ probes, ∀ q ∈ probes, ℓ ∈ g p q := by
    intro ℓ
    rw [hem]
    constructor
    · intro h p hp q hq
      have key : ∀ x ∈ combosP probes, ℓ ∈ g x.1 x.2 := by
        intro x hx
        have := h _ (List.mem_map.mpr ⟨x, hx, rfl⟩)
        simp only at this
        rcases hkey x with h | h
        · rw [h] at this; exact this
        · rw [h, H.gsymm] at this; exact this
      rcases combosP_all hp hq with h | h
      · exact key _ h
      · have := key _ h; rw [H.gsymm] at this; exact this
    · intro h p hp
      obtain ⟨x, hx, rfl⟩ := List.mem_map.mp hp
      obtain ⟨h1, h2⟩ := mem_combosP hx
      simp only
      rcases hkey x with e | e <;> rw [e]
      · exact h _ h1 _ h2
      · exact h _ h2 _ h1
  have hrows : probes.mapM (fun p => probes.mapM (fun q => xcBlock ells sel p q))
      = .ok (probes.map (fun p => probes.map (fun q =>
        (⟨ells, nb p, nb q, ells.map (δ p q)⟩ : Tomo K)))) := by
    apply mapM_ok
    intro p hp
    apply mapM_ok
    intro q hq
    unfold xcBlock
    rw [get_eq hHolds (hHas p hp q hq)]
    simp only [fullBlock]
    rw [mask_eq (H.sorted p q) hes (fun x hx => (hem' x).mp hx p hp q hq)]
  obtain ⟨M, hM, hMe, hMs, hMa, hent⟩ := npBlock_grid ells probes nb δ hne
  refine ⟨M, ?_, hMs, by rw [hMe]; exact hes, by rw [hMe]; exact hem', by rw [hMe]; exact hMa,
    by rw [hMe]; exact hent, ?_⟩
  · unfold xcMatrix
    rw [hsel']
    simp only
    rw [he]
    simp only
    rw [hrows]
    exact hM
  · intro l R C hR hC
    by_cases hl : l < ells.length
    · rw [hMs] at hR hC
      rw [hent l _ R C _ _ (List.getElem?_eq_getElem hl) (List.getElem?_eq_getElem hR)
          (List.getElem?_eq_getElem hC),
        hent l _ C R _ _ (List.getElem?_eq_getElem hl) (List.getElem?_eq_getElem hC)
          (List.getElem?_eq_getElem hR)]
      exact H.symm _ _ _ _ _
    · unfold entryAt
      rw [List.getElem?_eq_none (by omega)]

/-- C52. If the spectrum of some pair is stored in neither orientation the joint matrix is refused. -/
theorem xc_needs_all {s : Store P K} {probes : List P} {M : CovMat K}
    (h : xcMatrix s probes = .ok M) : ∀ p ∈ probes, ∀ q ∈ probes, Has s p q := by
  have key : ∀ (l : List (P × P)) (r : List ((P × P) × Tomo K)), l.mapM (storedKey s) = .ok r →
      ∀ x ∈ l, Has s x.1 x.2 := by
    intro l
    induction l with
    | nil => intro r _ x hx; simp at hx
    | cons a l ih =>
      intro r hr x hx
      rw [List.mapM_cons] at hr
      by_cases ha : Has s a.1 a.2
      · rcases List.mem_cons.mp hx with rfl | hx
        · exact ha
        · cases h1 : storedKey s a with
          | error e => rw [h1] at hr; cases hr
          | ok y =>
            cases h2 : l.mapM (storedKey s) with
            | error e => rw [h1, h2] at hr; cases hr
            | ok ys => exact ih ys h2 x hx
      · rw [storedKey_none ha] at hr; cases hr
  unfold xcMatrix at h
  cases hs : (combosP probes).mapM (storedKey s) with
  | error e => rw [hs] at h; cases h
  | ok sel =>
    intro p hp q hq
    rcases combosP_all hp hq with hc | hc
    · exact key _ _ hs _ hc
    · exact (key _ _ hs _ hc).symm

/-! ### Names of joint blocks -/

/-- C52. The name of a set of probes determines the probes, in order: for any list of names without
`+` none of which is `XC`. -/
theorem xcName_roundtrip (probes : List Str) (h : ∀ p ∈ probes, '+' ∉ p)
    (hx : "XC".toList ∉ probes) : probesFromName (xcName probes) = probes := by
  have hXC : '+' ∉ "XC".toList := by decide
  have hmany : probesFromName (joinStr ['+'] (probes ++ ["XC".toList])) = probes := by
    unfold probesFromName
    rw [splitChar_join]
    · rw [List.erase_append_right _ hx, List.erase_cons_head, List.append_nil]
    · simp
    · intro p hp
      rcases List.mem_append.mp hp with hp | hp
      · exact h p hp
      · rw [List.mem_singleton.mp hp]; exact hXC
  match probes, h, hx, hmany with
  | [], _, _, hm => exact hm
  | [p], h, hx, _ =>
    show probesFromName p = [p]
    unfold probesFromName
    rw [splitChar_no_sep _ _ (h p (by simp)), List.erase_of_not_mem hx]
  | _ :: _ :: _, _, _, hm => exact hm

theorem pairs2_eq (l : List P) : ∀ a b : P, (a, b) ∈ pairs2 l ↔ [a, b].Sublist l := by
  intro a b
  induction l with
  | nil => simp [pairs2]
  | cons c l ih =>
    rw [pairs2, List.mem_append, ih, List.mem_map]
    constructor
    · rintro (⟨d, hd, he⟩ | h)
      · cases he
        exact (List.singleton_sublist.mpr hd).cons_cons _
      · exact h.cons c
    · intro h
      cases h with
      | cons _ h => exact Or.inr h
      | cons_cons _ h => exact Or.inl ⟨b, List.singleton_sublist.mp h, rfl⟩

/-- C52. Which joint matrices are built for the present probes: none for a single probe, otherwise
that of all the probes and those of every two of them, in their order. -/
theorem xcSets_spec (probes x : List P) : x ∈ xcSets probes ↔
    2 ≤ probes.length ∧ (x = probes ∨ (x.length = 2 ∧ x.Sublist probes)) := by
  unfold xcSets
  by_cases h1 : probes.length > 1
  · rw [if_pos h1, List.mem_cons]
    simp only [show 2 ≤ probes.length from h1, true_and]
    apply or_congr_right'
    intro hne
    by_cases h2 : probes.length > 2
    · rw [if_pos h2, List.mem_map]
      constructor
      · rintro ⟨⟨a, b⟩, hab, rfl⟩
        exact ⟨rfl, (pairs2_eq _ _ _).mp hab⟩
      · rintro ⟨hl, hs⟩
        obtain ⟨a, b, rfl⟩ := List.length_eq_two.mp hl
        exact ⟨(a, b), (pairs2_eq _ _ _).mpr hs, rfl⟩
    · rw [if_neg h2]
      simp only [List.not_mem_nil, false_iff, not_and]
      intro hl hs
      exact hne (hs.eq_of_length (by omega))
  · rw [if_neg h1]
    simp only [List.not_mem_nil, false_iff, not_and]
    intro h; omega

/-! Examples -/

def exNoiseCfg : NoiseCfg Bool ℚ := ⟨fun b => if b then [1, 2] else [3], false, true, 1, 2⟩
def exBlk : Block Bool ℚ :=
  { p1 := true, p2 := true, ells := [1, 2], widths := [1, 1], n := 2, m := 2,
    c := [fun i j => if i = j then 4 else 1, fun i j => if i = j then 5 else 1] }

example : ∃ b', evaluate (fun x => x) (fun _ _ => false) exNoiseCfg 1 exBlk = .ok b' :=
  evaluate_total rfl rfl (fun _ => ⟨rfl, rfl, rfl⟩)

example : noiseSpec exNoiseCfg true true 1 1 = 2 ∧ noiseSpec exNoiseCfg false false 0 0 = 3 / 2 := by
  constructor <;> simp [noiseSpec, exNoiseCfg] <;> norm_num

example : ∃ M, xcMatrix exStore [true, false] = .ok M ∧ M.size = 3 :=
  let ⟨M, h, h', _⟩ := xc_spec exHolds (probes := [true, false]) (by simp)
    (fun p _ q _ => by
      cases p <;> cases q <;> first | exact Or.inl rfl | exact Or.inr rfl)
  ⟨M, h, h'.trans (by decide)⟩

example : probesFromName (xcName ["Lensing".toList, "Void".toList]) = ["Lensing".toList, "Void".toList] :=
  xcName_roundtrip _ (by decide) (by decide)

end Seyfert.Cov
