import Verif.Lemmas.Gui
import Verif.Lemmas.PyStr

/-!
C122: the configuration file saved from the window gives back the forecast that is on the screen.

`Shows num s v`: the texts on the screen `s` stand for the numbers `v`.  `shown disk s v` are the parameters on the screen
(specification).
-/

namespace Seyfert.Gui

open Param (Par Args construct Coll)
open Keys (Probe)
open FLoad (lastOf Forecast)

set_option maxRecDepth 10000

/-! ### Saving -/

section
variable {K : Type}

/-- C122. The configuration is saved exactly if the sky fraction, the values and step factors of the table and the
alignment parameters are numbers and the flags of the table are `true` or `false`.  The displacements are not looked
at, nor is what is in the tabs. -/
theorem saves_iff (num : Str → Option K) (a d w : J K) (s : Screen K) :
    (∃ j, save num a d w s.window = .ok j) ↔ ∃ v, Shows num s v := by
  simp only [save_file]
  constructor
  · rintro ⟨j, v, hv, _⟩; exact ⟨v, hv⟩
  · rintro ⟨v, hv⟩; exact ⟨_, v, hv, rfl⟩

theorem flag_unique {t : Str} {a b : Bool} (ha : IsFlag t a) (hb : IsFlag t b) : a = b := by
  have h1 := (strToBool_ok t a).mpr ha
  rw [(strToBool_ok t b).mpr hb] at h1
  exact (Option.some.inj h1).symm

/-- The texts on the screen stand for at most one set of numbers. -/
theorem shows_unique {num : Str → Option K} {s : Screen K} {v v' : Values K} (h : Shows num s v) (h' : Shows num s v') :
    v = v' := by
  obtain ⟨a1, a2, a3, a4, a5, a6, a7⟩ := h
  obtain ⟨b1, b2, b3, b4, b5, b6, b7⟩ := h'
  have rows : ∀ l l' : List (Row × RowValues K), l.map (·.1) = l'.map (·.1) → (∀ p ∈ l, RowShows num p.1 p.2) →
      (∀ p ∈ l', RowShows num p.1 p.2) → l = l' := by
    intro l
    induction l with
    | nil =>
      intro l' h _ _
      cases l' with
      | nil => rfl
      | cons _ _ => cases h
    | cons p l ih =>
      intro l' h h1 h2
      cases l' with
      | nil => cases h
      | cons q l' =>
        rw [List.map_cons, List.map_cons] at h
        injection h with hp hl
        have e := ih l' hl (fun x hx => h1 x (List.mem_cons_of_mem _ hx)) (fun x hx => h2 x (List.mem_cons_of_mem _ hx))
        subst e
        obtain ⟨r, x⟩ := p
        obtain ⟨r', y⟩ := q
        simp only at hp
        subst hp
        obtain ⟨c1, c2, c3⟩ := h1 (r, x) List.mem_cons_self
        obtain ⟨d1, d2, d3⟩ := h2 (r, y) List.mem_cons_self
        simp only at c1 c2 c3 d1 d2 d3
        rw [c1] at d1
        rw [c3] at d3
        have := flag_unique c2 d2
        obtain ⟨x1, x2, x3⟩ := x
        obtain ⟨y1, y2, y3⟩ := y
        simp only at d1 d3 this
        obtain rfl := Option.some.inj d1
        obtain rfl := Option.some.inj d3
        subst this
        rfl
  obtain ⟨f, r, w, x, y, z⟩ := v
  obtain ⟨f', r', w', x', y', z'⟩ := v'
  simp only at a1 a2 a3 a4 a5 a6 a7 b1 b2 b3 b4 b5 b6 b7
  rw [a1] at b1; rw [a4] at b4; rw [a5] at b5; rw [a6] at b6; rw [a7] at b7
  obtain rfl := Option.some.inj b1
  obtain rfl := Option.some.inj b4
  obtain rfl := Option.some.inj b5
  obtain rfl := Option.some.inj b6
  obtain rfl := Option.some.inj b7
  obtain rfl := rows r r' (a2.trans b2.symm) a3 b3
  rfl

theorem spec_lookup (long : Str) (t : Tab K) (bias : List (Str × J K)) (x y : J K)
    (h : bias.lookup "specific_settings".toList = none) :
    item (tabDict long t bias x y) "specific_settings".toList = .ok x := by
  have e : (ellDict t).lookup "specific_settings".toList = none := by
    unfold ellDict
    split
    · rfl
    · split <;> rfl
  have l : (tabDict long t bias x y).lookup "specific_settings".toList = some x := by
    unfold tabDict
    rw [List.lookup_append, List.lookup_append, List.lookup_append, List.lookup_append, e, h]
    rfl
  unfold item
  rw [l]

/-- What is in the file for the sky fraction and the settings particular to the probes. -/
theorem settings_saved {num : Str → Option K} {a d w : J K} {s : Screen K} {j : List (Str × J K)} {v : Values K}
    (hs : save num a d w s.window = .ok j) (hv : Shows num s v) :
    fSky j = .ok (.num v.fSky) ∧
    setting j "WL".toList "include_IA".toList = .ok (.bool (decide (s.ia ≠ 0))) ∧
    setting j "GCsp".toList "compute_gcsp_cl_offdiag".toList = .ok (.bool (decide (s.offdiag ≠ 0))) ∧
    setting j "V".toList "void_kcut_invMpc".toList = .ok (.num s.kcut) ∧
    setting j "V".toList "void_kcut_width_invMpc".toList = .ok (.num s.kcutWidth) := by
  obtain ⟨v', hv', rfl⟩ := (save_file num a d w s j).mp hs
  obtain rfl := shows_unique hv hv'
  have get : ∀ (n k : Str) (p : List (Str × J K)) (x : List (Str × J K)),
      item (probesDict s v) n = .ok (.obj p) → item p "specific_settings".toList = .ok (.obj x) →
      setting (fileOf (metaOf a d w) s v) n k = item x k := by
    intro n k p x h1 h2
    have e : setting (fileOf (metaOf a d w) s v) n k = (item (probesDict s v) n >>= fun q => objOf q >>= fun p =>
      item p "specific_settings".toList >>= fun q => objOf q >>= fun x => item x k) := rfl
    rw [e, h1]
    change (item p "specific_settings".toList >>= fun q => objOf q >>= fun x => item x k) = _
    rw [h2]
    rfl
  refine ⟨rfl, ?_, ?_, ?_, ?_⟩
  · rw [get "WL".toList _ (wlDict s (alignDicts s v)) _ rfl (spec_lookup _ _ _ _ _ rfl)]; rfl
  · rw [get "GCsp".toList _ (spDict s) _ rfl (spec_lookup _ _ _ _ _ rfl)]; rfl
  · rw [get "V".toList _ (vdDict s) _ rfl (spec_lookup _ _ _ _ _ rfl)]; rfl
  · rw [get "V".toList _ (vdDict s) _ rfl (spec_lookup _ _ _ _ _ rfl)]; rfl

/-- C122, the other side: no option of `synthetic_opts` can be had from a saved file (scenario, number of
spectroscopic bins, reduced shot noise). -/
theorem synthetic_missing {num : Str → Option K} {a d w : J K} {s : Screen K} {j : List (Str × J K)}
    (hs : save num a d w s.window = .ok j) (k : Str) : synthetic j k = .error .keyError := by
  obtain ⟨v, _, rfl⟩ := (save_file num a d w s j).mp hs
  rfl

/-- A screen with other states of the four boxes "ExternalMultipolesFile". -/
def Screen.withBoxes (s : Screen K) (a b c d : Nat) : Screen K :=
  { s with wl := { s.wl with useFile := a }, vd := { s.vd with useFile := b }, ph := { s.ph with useFile := c },
           sp := { s.sp with useFile := d } }

/-- C122, the other side: the boxes "ExternalMultipolesFile" have no effect.  The name of the file is used as long as
it stands in the field, ticked or not. -/
theorem external_box_ignored (num : Str → Option K) (a d w : J K) (s : Screen K) (n1 n2 n3 n4 : Nat)
    (j : List (Str × J K)) :
    save num a d w (s.withBoxes n1 n2 n3 n4).window = .ok j ↔ save num a d w s.window = .ok j := by
  rw [save_file, save_file]
  exact Iff.rfl

/-! ### The name of the file -/

theorem name_core (n : Str)
    (h : ∀ x y, (if ".json".toList ∈ suffixes n then n else n ++ ".json".toList) ≠ x ++ ".json.".toList ++ y) :
    ∃ r, (if ".json".toList ∈ suffixes n then n else n ++ ".json".toList) = r ++ ".json".toList := by
  by_cases hm : ".json".toList ∈ suffixes n
  · rw [if_pos hm] at h ⊢
    unfold suffixes at hm
    split at hm
    · cases hm
    · obtain ⟨m, hm, e⟩ := List.mem_map.mp hm
      have e' : m = "json".toList := (List.cons.inj e).2
      subst e'
      obtain ⟨u, t, hut⟩ := List.append_of_mem hm
      have hsplit : ∃ p pt, splitChar '.' (n.dropWhile (· == '.')) = p :: pt ∧ pt = u ++ "json".toList :: t := by
        cases hq : splitChar '.' (n.dropWhile (· == '.')) with
        | nil => rw [hq] at hut; simp at hut
        | cons p pt => rw [hq] at hut; exact ⟨p, pt, rfl, hut⟩
      obtain ⟨p, pt, h1, h2⟩ := hsplit
      have hj := join_splitChar '.' (n.dropWhile (· == '.'))
      rw [h1, h2] at hj
      have cut : ∀ (l : List Str) (q : Str) (r : List Str), l ≠ [] → joinStr ['.'] (l ++ q :: r) =
          joinStr ['.'] l ++ '.' :: joinStr ['.'] (q :: r) := by
        intro l q r hl
        induction l with
        | nil => exact absurd rfl hl
        | cons x l ih =>
          cases l with
          | nil => simp [joinStr]
          | cons y l =>
            have := ih (by simp)
            simp only [List.cons_append] at this ⊢
            rw [joinStr_cons_cons, this, joinStr_cons_cons]
            simp
      rw [← List.cons_append, cut (p :: u) _ t (by simp)] at hj
      have hn := List.takeWhile_append_dropWhile (p := (· == '.')) (l := n)
      rw [← hj] at hn
      cases t with
      | nil =>
        refine ⟨n.takeWhile (· == '.') ++ joinStr ['.'] (p :: u), ?_⟩
        conv_lhs => rw [← hn]
        rw [List.append_assoc]
        rfl
      | cons y t =>
        exfalso
        apply h (n.takeWhile (· == '.') ++ joinStr ['.'] (p :: u)) (joinStr ['.'] (y :: t))
        rw [joinStr_cons_cons] at hn
        conv_lhs => rw [← hn]
        have : (".json.".toList : Str) = '.' :: ("json".toList ++ ['.']) := by decide +kernel
        rw [this]
        simp
  · rw [if_neg hm] at h ⊢
    exact ⟨n, rfl⟩

/-- C122. The name of the file ends with `.json` if `json` does not stand between two dots in it; and it begins with
what is entered. -/
theorem name_ends_partial (stamp : Option Str) (name : Str)
    (h : ∀ x y, saveName stamp name ≠ x ++ ".json.".toList ++ y) :
    (∃ r, saveName stamp name = r ++ ".json".toList) ∧ name <+: saveName stamp name := by
  have pre : ∀ n, n <+: (if ".json".toList ∈ suffixes n then n else n ++ ".json".toList) := by
    intro n
    split
    · exact List.prefix_rfl
    · exact List.prefix_append _ _
  cases stamp with
  | none => exact ⟨name_core name h, pre name⟩
  | some t => exact ⟨name_core (name ++ '_' :: t) h, (List.prefix_append _ _).trans (pre (name ++ '_' :: t))⟩

/-- C122, the other side: with `json` between two dots the name is left as it is, without the extension. -/
theorem name_without_extension : saveName none "run.json.bak".toList = "run.json.bak".toList ∧
    saveName (some "1.0_today".toList) "run.json".toList = "run.json_1.0_today.json".toList ∧
    saveName none "run.json".toList = "run.json".toList ∧ saveName none "run".toList = "run.json".toList := by
  decide +kernel

end

/-! ### Reading the file -/

section
variable {K : Type} [Field K] [LinearOrder K]

theorem listed_rows (l : List (Row × RowValues K)) :
    FLoad.listed (l.map (fun p => rowArgs p.1 p.2)) = l.map (fun p => (p.1.name, cosmoPar p.1 p.2)) := by
  induction l with
  | nil => rfl
  | cons p l ih =>
    rw [List.map_cons, List.map_cons, ← ih]
    rfl

theorem listed_align (s : Screen K) (v : Values K) : FLoad.listed (alignArgs s v) = alignPars s v := rfl

theorem present_psOf (disk : Disk K) (s : Screen K) (v : Values K) (e : FLoad.Err) (hvd : s.vd.present = 0) :
    FLoad.on (psOf disk s v e) = (FLoad.on ((psOf disk s v e).take 3)) := by
  have : (entryOf (decide (s.vd.present ≠ 0)) (.error e) [] none none [] : FLoad.PDict K).present = false := by
    rw [(entryOf_present _ _ _ _ _ _).1, hvd]; rfl
  unfold FLoad.on psOf
  simp only [List.take, List.filter_cons, this, List.filter_nil]
  rfl

theorem readable_iff (disk : Disk K) (isFile : Str → Bool) (s : Screen K) (v : Values K) (e : FLoad.Err) (base : List K) :
    FLoad.Readable isFile (jsonOf disk s v e base) (psOf disk s v e) ↔
      s.vd.present = 0 ∧ ∀ q ∈ s.ticked, ∃ g, tabGrid disk q.2 = .ok g := by
  have mem : ∀ q : Probe × Tab K, q ∈ s.ticked ↔ q ∈ s.tabs ∧ q.2.present ≠ 0 := by
    intro q; unfold Screen.ticked; rw [List.mem_filter]; simp
  constructor
  · rintro ⟨_, _, h⟩
    have g : ∀ q ∈ psOf disk s v e, q.2.present = true → ∃ g, q.2.grid = .ok g :=
      fun q hq hp => (h q (List.mem_filter.mpr ⟨hq, hp⟩)).1
    constructor
    · by_contra hv
      obtain ⟨g, hg⟩ := g (.void, entryOf (decide (s.vd.present ≠ 0)) (.error e) [] none none [])
        (by unfold psOf; simp) (by rw [(entryOf_present _ _ _ _ _ _).1]; simpa using hv)
      rw [(entryOf_present _ _ _ _ _ _).2.1] at hg
      cases hg
    · intro q hq
      obtain ⟨ht, hp⟩ := (mem q).mp hq
      unfold Screen.tabs at ht
      rcases List.mem_cons.mp ht with rfl | ht
      · obtain ⟨x, hx⟩ := g (.lensing, _) List.mem_cons_self (by rw [(entryOf_present _ _ _ _ _ _).1]; simpa using hp)
        rw [(entryOf_present _ _ _ _ _ _).2.1] at hx
        exact ⟨x, hx⟩
      · rcases List.mem_cons.mp ht with rfl | ht
        · obtain ⟨x, hx⟩ := g (.photo, _) (List.mem_cons_of_mem _ List.mem_cons_self)
            (by rw [(entryOf_present _ _ _ _ _ _).1]; simpa using hp)
          rw [(entryOf_present _ _ _ _ _ _).2.1] at hx
          exact ⟨x, hx⟩
        · rcases List.mem_cons.mp ht with rfl | ht
          · obtain ⟨x, hx⟩ := g (.spectro, _) (List.mem_cons_of_mem _ (List.mem_cons_of_mem _ List.mem_cons_self))
              (by rw [(entryOf_present _ _ _ _ _ _).1]; simpa using hp)
            rw [(entryOf_present _ _ _ _ _ _).2.1] at hx
            exact ⟨x, hx⟩
          · cases ht
  · rintro ⟨hvd, hg⟩
    have grid : ∀ (p : Probe) (t : Tab K), (p, t) ∈ s.tabs → decide (t.present ≠ 0) = true →
        ∃ g, tabGrid disk t = .ok g := fun p t h1 h2 => hg (p, t) ((mem _).mpr ⟨h1, by simpa using h2⟩)
    refine ⟨?_, ?_, ?_⟩
    · intro t ht; cases ht
    · intro a ha
      obtain ⟨p, _, rfl⟩ := List.mem_map.mp ha
      exact ⟨_, construct_row p.1 p.2⟩
    · intro q hq
      obtain ⟨hq, hp⟩ := List.mem_filter.mp hq
      have cases4 : q = (psOf disk s v e)[0]'(by simp [psOf]) ∨ q = (psOf disk s v e)[1]'(by simp [psOf]) ∨
          q = (psOf disk s v e)[2]'(by simp [psOf]) ∨ q = (psOf disk s v e)[3]'(by simp [psOf]) := by
        unfold psOf at hq ⊢
        rcases List.mem_cons.mp hq with h | hq
        · exact .inl h
        · rcases List.mem_cons.mp hq with h | hq
          · exact .inr (.inl h)
          · rcases List.mem_cons.mp hq with h | hq
            · exact .inr (.inr (.inl h))
            · exact .inr (.inr (.inr (List.mem_singleton.mp hq)))
      rcases cases4 with rfl | rfl | rfl | rfl
      · change (entryOf _ _ _ _ _ _).present = true at hp
        rw [(entryOf_present _ _ _ _ _ _).1] at hp
        refine ⟨?_, ?_⟩
        · obtain ⟨g, hg⟩ := grid .lensing s.wl List.mem_cons_self hp
          exact ⟨g, by change (entryOf _ _ _ _ _ _).grid = _; rw [(entryOf_present _ _ _ _ _ _).2.1, hg]⟩
        · intro a ha
          change a ∈ ((entryOf _ _ _ _ _ _).extra).getD [] at ha
          rw [(entryOf_present _ _ _ _ _ _).2.2] at ha
          change a ∈ alignArgs s v at ha
          unfold alignArgs at ha
          rcases List.mem_cons.mp ha with rfl | ha
          · exact ⟨_, construct_nuis _ _ _⟩
          · rcases List.mem_cons.mp ha with rfl | ha
            · exact ⟨_, construct_nuis _ _ _⟩
            · rcases List.mem_cons.mp ha with rfl | ha
              · exact ⟨_, construct_nuis _ _ _⟩
              · rw [List.mem_singleton.mp ha]
                exact ⟨_, construct_nuis _ _ _⟩
      · change (entryOf _ _ _ _ _ _).present = true at hp
        rw [(entryOf_present _ _ _ _ _ _).1] at hp
        refine ⟨?_, ?_⟩
        · obtain ⟨g, hg⟩ := grid .photo s.ph (List.mem_cons_of_mem _ List.mem_cons_self) hp
          exact ⟨g, by change (entryOf _ _ _ _ _ _).grid = _; rw [(entryOf_present _ _ _ _ _ _).2.1, hg]⟩
        · intro a ha
          change a ∈ ((entryOf _ _ _ _ _ _).extra).getD [] at ha
          rw [(entryOf_present _ _ _ _ _ _).2.2] at ha
          cases ha
      · change (entryOf _ _ _ _ _ _).present = true at hp
        rw [(entryOf_present _ _ _ _ _ _).1] at hp
        refine ⟨?_, ?_⟩
        · obtain ⟨g, hg⟩ := grid .spectro s.sp (List.mem_cons_of_mem _ (List.mem_cons_of_mem _ List.mem_cons_self)) hp
          exact ⟨g, by change (entryOf _ _ _ _ _ _).grid = _; rw [(entryOf_present _ _ _ _ _ _).2.1, hg]⟩
        · intro a ha
          change a ∈ ((entryOf _ _ _ _ _ _).extra).getD [] at ha
          rw [(entryOf_present _ _ _ _ _ _).2.2] at ha
          cases ha
      · change (entryOf _ _ _ _ _ _).present = true at hp
        rw [(entryOf_present _ _ _ _ _ _).1, hvd] at hp
        exact absurd hp (by decide)

/-- What is declared in the file read is what is on the screen. -/
theorem declared_shown (disk : Disk K) (s : Screen K) (v : Values K) (e : FLoad.Err) (base : List K)
    (hvd : s.vd.present = 0) (hg : ∀ q ∈ s.ticked, ∃ g, tabGrid disk q.2 = .ok g) :
    FLoad.declared (jsonOf disk s v e base) (psOf disk s v e) = shown disk s v := by
  have mem : ∀ q : Probe × Tab K, q ∈ s.tabs → q.2.present ≠ 0 → ∃ g, tabGrid disk q.2 = .ok g := by
    intro q h1 h2; exact hg q (List.mem_filter.mpr ⟨h1, by simpa using h2⟩)
  have one : ∀ (p : Probe) (t : Tab K) (b : Dict Str K) (m : Option Bool) (d : Option Str) (ex : List (Args K))
      (r : List (Probe × FLoad.PDict K)), (p, t) ∈ s.tabs →
      (FLoad.on ((p, entryOf (decide (t.present ≠ 0)) (tabGrid disk t) b m d ex) :: r)).flatMap FLoad.probeDeclared =
      (if t.present ≠ 0 then FLoad.probeDeclared (p, ⟨true, tabGrid disk t, b, m, d, some ex⟩) else []) ++
        (FLoad.on r).flatMap FLoad.probeDeclared := by
    intro p t b m d ex r ht
    unfold FLoad.on
    rw [List.filter_cons, (entryOf_present _ _ _ _ _ _).1]
    by_cases hp : t.present ≠ 0
    · obtain ⟨g, hg⟩ := mem (p, t) ht hp
      have hd : decide (t.present ≠ 0) = true := decide_eq_true hp
      simp only [hd, if_true, hg]
      rw [if_pos hp, List.flatMap_cons]
      rfl
    · have hd : decide (t.present ≠ 0) = false := decide_eq_false hp
      simp only [hd]
      rw [if_neg hp]
      rfl
  unfold FLoad.declared shown
  rw [present_psOf disk s v e hvd]
  change FLoad.listed (v.rows.map (fun p => rowArgs p.1 p.2)) ++ (FLoad.on [_, _, _]).flatMap FLoad.probeDeclared = _
  rw [listed_rows, one .lensing s.wl _ _ _ _ _ List.mem_cons_self,
    one .photo s.ph _ _ _ _ _ (List.mem_cons_of_mem _ List.mem_cons_self),
    one .spectro s.sp _ _ _ _ _ (List.mem_cons_of_mem _ (List.mem_cons_of_mem _ List.mem_cons_self)), List.append_assoc,
    List.append_assoc]
  congr 1
  congr 1
  congr 1
  · have : FLoad.probeDeclared ((.photo, ⟨true, tabGrid disk s.ph, disk.bias s.phBias, some (decide (s.phMarg ≠ 0)),
        some s.phDiff, some []⟩) : Probe × FLoad.PDict K) = biasOf disk .photo s.phBias s.phMarg s.phDiff ++ [] := rfl
    rw [this, List.append_nil]
  · have : FLoad.probeDeclared ((.spectro, ⟨true, tabGrid disk s.sp, disk.bias s.spBias, some (decide (s.spMarg ≠ 0)),
        some s.spDiff, some []⟩) : Probe × FLoad.PDict K) = biasOf disk .spectro s.spBias s.spMarg s.spDiff ++ [] := rfl
    rw [this, List.append_nil]
    exact List.append_nil _

/-- Loading a saved file is loading what was read of it. -/
theorem load_file (num : Str → Option K) (disk : Disk K) (isFile : Str → Bool) (info : J K) (s : Screen K)
    (v : Values K) : ∃ e, ∀ r, load num disk isFile (fileOf info s v) = .ok r ↔
      ∃ base, Displacements num s base ∧ FLoad.load isFile (jsonOf disk s v e base) FLoad.fresh = .ok r := by
  obtain ⟨e, he⟩ := readFile_iff num disk info s v
  refine ⟨e, fun r => ?_⟩
  unfold load
  rw [bind_ok]
  constructor
  · rintro ⟨j, hj, h⟩
    obtain ⟨base, hb, rfl⟩ := (he j).mp hj
    refine ⟨base, hb, ?_⟩
    cases hl : FLoad.load isFile (jsonOf disk s v e base) FLoad.fresh with
    | error x => rw [hl] at h; cases h
    | ok x => rw [hl] at h; cases h; rfl
  · rintro ⟨base, hb, h⟩
    refine ⟨_, (he _).mpr ⟨base, hb, rfl⟩, ?_⟩
    rw [h]
    rfl

/-- C122. A saved file is read exactly if the displacements are numbers, the tab `Void` is not ticked, and the
multipoles of the ticked tabs can be had. -/
theorem reads_iff {num : Str → Option K} {a d w : J K} {s : Screen K} {j : List (Str × J K)} (disk : Disk K)
    (isFile : Str → Bool) (hs : save num a d w s.window = .ok j) :
    (∃ r, load num disk isFile j = .ok r) ↔ (∃ base, Displacements num s base) ∧ s.vd.present = 0 ∧
      ∀ q ∈ s.ticked, ∃ g, tabGrid disk q.2 = .ok g := by
  obtain ⟨v, _, rfl⟩ := (save_file num a d w s j).mp hs
  obtain ⟨e, he⟩ := load_file num disk isFile (metaOf a d w) s v
  simp only [he]
  constructor
  · rintro ⟨r, base, hb, h⟩
    exact ⟨⟨base, hb⟩, (readable_iff disk isFile s v e base).mp
      ((FLoad.load_ok_iff isFile (lists_json disk s v e base)).mp ⟨r, h⟩)⟩
  · rintro ⟨⟨base, hb⟩, h⟩
    obtain ⟨r, hr⟩ := (FLoad.load_ok_iff isFile (lists_json disk s v e base)).mpr
      ((readable_iff disk isFile s v e base).mpr h)
    exact ⟨r, base, hb, hr⟩

/-- C122. The round trip.  The forecast read from the file saved has the probes of the ticked tabs in the order lensing,
photometric, spectroscopic, with the multipoles shown, and all combinations of them; no shot noise file; the flatness and
the displacements shown; and under each name the last parameter of that name on the screen. -/
theorem round_trip {num : Str → Option K} {a d w : J K} {s : Screen K} {j : List (Str × J K)} {disk : Disk K}
    {isFile : Str → Bool} {v : Values K} {c : Coll K} {f : Forecast K} (hs : save num a d w s.window = .ok j)
    (hv : Shows num s v) (hl : load num disk isFile j = .ok (c, f)) :
    f.cfgs.map (·.1) = s.ticked.map (fun q => q.1.name .long) ∧
    f.combos = Config.combosWR (s.ticked.map (fun q => q.1.name .long)) ∧ f.shot = none ∧
    (∀ q ∈ s.ticked, ∃ p, f.cfgs.lookup (q.1.name .long) = some p ∧ tabGrid disk q.2 = .ok (p.centers, p.widths)) ∧
    c.flat = some (decide (s.flat ≠ 0)) ∧
    (∀ base, Displacements num s base → c.disps = some ((base.map (fun x => -x) ++ base).insertionSort (· ≤ ·)) ∧
      c.steps = some (Param.stepNumbers base.length)) ∧
    (∀ k, c.pars.lookup k = lastOf (shown disk s v) k) ∧ (c.pars.map (·.1)).Nodup ∧
    (((shown disk s v).map (·.1)).Nodup → c.pars = shown disk s v) := by
  obtain ⟨_, hvd, hgrid⟩ := (reads_iff disk isFile hs).mp ⟨_, hl⟩
  obtain ⟨v', hv', rfl⟩ := (save_file num a d w s j).mp hs
  obtain rfl := shows_unique hv hv'
  obtain ⟨e, he⟩ := load_file num disk isFile (metaOf a d w) s v
  obtain ⟨base, hb, h⟩ := (he _).mp hl
  have L := lists_json disk s v e base
  have hd := declared_shown disk s v e base hvd hgrid
  have onTicked : (FLoad.on (psOf disk s v e)).map (fun q => (q.1, q.2.grid)) =
      s.ticked.map (fun q => (q.1, tabGrid disk q.2)) := by
    rw [present_psOf disk s v e hvd]
    have one : ∀ (p : Probe) (t : Tab K) (b : Dict Str K) (m : Option Bool) (d : Option Str) (ex : List (Args K))
        (r : List (Probe × FLoad.PDict K)) (r' : List (Probe × Tab K)),
        (FLoad.on r).map (fun q => (q.1, q.2.grid)) =
          (r'.filter (fun q => decide (q.2.present ≠ 0))).map (fun q => (q.1, tabGrid disk q.2)) →
        (FLoad.on ((p, entryOf (decide (t.present ≠ 0)) (tabGrid disk t) b m d ex) :: r)).map (fun q => (q.1, q.2.grid)) =
          (((p, t) :: r').filter (fun q => decide (q.2.present ≠ 0))).map (fun q => (q.1, tabGrid disk q.2)) := by
      intro p t b m d ex r r' ih
      unfold FLoad.on at ih ⊢
      rw [List.filter_cons, List.filter_cons, (entryOf_present _ _ _ _ _ _).1]
      by_cases hp : t.present ≠ 0
      · have hd : decide (t.present ≠ 0) = true := decide_eq_true hp
        simp only [hd, if_true]
        rw [List.map_cons, List.map_cons, ih, (entryOf_present _ _ _ _ _ _).2.1]
      · have hd : decide (t.present ≠ 0) = false := decide_eq_false hp
        simp only [hd]
        exact ih
    exact one _ _ _ _ _ _ _ _ (one _ _ _ _ _ _ _ _ (one _ _ _ _ _ _ _ _ rfl))
  have onNames : (FLoad.on (psOf disk s v e)).map (fun q => q.1.name .long) = s.ticked.map (fun q => q.1.name .long) := by
    have := congrArg (List.map (fun x : Probe × Except FLoad.Err (List K × List K) => x.1.name .long)) onTicked
    rw [List.map_map, List.map_map] at this
    exact this
  obtain ⟨p1, p2, p3, p4⟩ := FLoad.load_probes L h
  obtain ⟨s1, s2, s3⟩ := FLoad.load_steps L h
  obtain ⟨l1, l2⟩ := FLoad.load_lookup L h
  rw [onNames] at p1 p2
  refine ⟨p1, p2, p3, ?_, s1, ?_, ?_, l2, ?_⟩
  · intro q hq
    have : (q.1, tabGrid disk q.2) ∈ (FLoad.on (psOf disk s v e)).map (fun q => (q.1, q.2.grid)) := by
      rw [onTicked]; exact List.mem_map.mpr ⟨q, hq, rfl⟩
    obtain ⟨x, hx, ex⟩ := List.mem_map.mp this
    obtain ⟨p, hp, hg⟩ := p4 x hx
    injection ex with e1 e2
    rw [e1] at hp
    rw [e2] at hg
    exact ⟨p, hp, hg⟩
  · intro base' hb'
    have : base' = base := by
      unfold Displacements at hb hb'
      rw [hb] at hb'
      exact (List.map_injective_iff.mpr (Option.some_injective K) hb').symm
    rw [this]
    exact ⟨s2, s3⟩
  · intro k
    rw [l1, hd]
  · intro hn
    rw [FLoad.load_exact L h (by rw [hd]; exact hn), hd]

/-- C122, the other side: with the tab `Void` ticked, what is saved cannot be read. -/
theorem void_never_loads {num : Str → Option K} {a d w : J K} {s : Screen K} {j : List (Str × J K)} (disk : Disk K)
    (isFile : Str → Bool) (hs : save num a d w s.window = .ok j) (hvd : s.vd.present ≠ 0) (r : Coll K × Forecast K) :
    load num disk isFile j ≠ .ok r := fun h => hvd ((reads_iff disk isFile hs).mp ⟨r, h⟩).2.1

theorem item_nuisFor {c : Coll K} (hn : (c.pars.map (·.1)).Nodup) {probe k : Str} {x : Param.Par K} :
    item (FLoad.nuisFor c probe) k = .ok x ↔
      (k, x) ∈ c.pars ∧ x.kind = .nuisance ∧ x.probe = some probe := by
  have hn' : ((FLoad.nuisFor c probe).map (·.1)).Nodup := List.Nodup.sublist (List.filter_sublist.map _) hn
  have h : item (FLoad.nuisFor c probe) k = .ok x ↔ List.lookup k (FLoad.nuisFor c probe) = some x := by
    unfold item
    split
    · rename_i v hv
      rw [hv]
      constructor
      · intro h; cases h; rfl
      · intro h; cases h; rfl
    · rename_i hv
      rw [hv]
      constructor <;> intro h <;> cases h
  have h2 : List.lookup k (FLoad.nuisFor c probe) = some x ↔ (k, x) ∈ FLoad.nuisFor c probe :=
    ⟨fun h => PyDict.mem_of_lookup h, fun h => PyDict.lookup_of_mem (p := (k, x)) _ hn' h⟩
  rw [h, h2]
  unfold FLoad.nuisFor
  rw [List.mem_filter, Bool.and_eq_true, decide_eq_true_eq, decide_eq_true_eq]

/-- The weight function of lensing takes the values of the four parameters of that name that are filed under `Lensing`,
and can be computed exactly if all are there. -/
theorem alignment_iff {c : Coll K} (hn : (c.pars.map (·.1)).Nodup) (r : K × K × K × K) :
    alignment c = .ok r ↔ ∃ a b e f : Param.Par K,
      (("aIA".toList, a) ∈ c.pars ∧ a.kind = .nuisance ∧ a.probe = some "Lensing".toList) ∧
      (("cIA".toList, b) ∈ c.pars ∧ b.kind = .nuisance ∧ b.probe = some "Lensing".toList) ∧
      (("etaIA".toList, e) ∈ c.pars ∧ e.kind = .nuisance ∧ e.probe = some "Lensing".toList) ∧
      (("betaIA".toList, f) ∈ c.pars ∧ f.kind = .nuisance ∧ f.probe = some "Lensing".toList) ∧
      r = (a.current, b.current, e.current, f.current) := by
  simp only [← item_nuisFor hn]
  unfold alignment
  dsimp only
  generalize item (FLoad.nuisFor c "Lensing".toList) "aIA".toList = x1
  generalize item (FLoad.nuisFor c "Lensing".toList) "cIA".toList = x2
  generalize item (FLoad.nuisFor c "Lensing".toList) "etaIA".toList = x3
  generalize item (FLoad.nuisFor c "Lensing".toList) "betaIA".toList = x4
  constructor
  · intro h
    match x1, x2, x3, x4, h with
    | .ok a, .ok b, .ok e, .ok f, h => cases h; exact ⟨a, b, e, f, rfl, rfl, rfl, rfl, rfl⟩
    | .error _, _, _, _, h => cases h
    | .ok _, .error _, _, _, h => cases h
    | .ok _, .ok _, .error _, _, h => cases h
    | .ok _, .ok _, .ok _, .error _, h => cases h
  · rintro ⟨a, b, e, f, rfl, rfl, rfl, rfl, rfl⟩
    rfl

/-- C122, the other side: the forecast read has no nuisance parameter of lensing, so the weight function of lensing
cannot be computed with intrinsic alignment, which is ticked unless the user unticks it. -/
theorem alignment_missing {num : Str → Option K} {a d w : J K} {s : Screen K} {j : List (Str × J K)} {disk : Disk K}
    {isFile : Str → Bool} {c : Coll K} {f : Forecast K} (hs : save num a d w s.window = .ok j)
    (hl : load num disk isFile j = .ok (c, f)) :
    FLoad.nuisFor c "Lensing".toList = [] ∧ alignment c = .error .keyError := by
  have ne1 : some "WL".toList ≠ some "Lensing".toList := by decide +kernel
  have ne2 : ∀ p : Probe, p ≠ .lensing → some (p.name .long) ≠ some "Lensing".toList := by decide +kernel
  obtain ⟨v, hv⟩ := (saves_iff num a d w s).mp ⟨j, hs⟩
  obtain ⟨_, _, _, _, _, _, hp, hn, _⟩ := round_trip hs hv hl
  have key : FLoad.nuisFor c "Lensing".toList = [] := by
    unfold FLoad.nuisFor
    rw [List.filter_eq_nil_iff]
    rintro ⟨k, x⟩ hx
    have hk := PyDict.lookup_of_mem (p := (k, x)) c.pars hn hx
    rw [hp k] at hk
    have hm := List.mem_reverse.mp (PyDict.mem_of_lookup hk)
    have out : x.kind = .nuisance → x.probe ≠ some "Lensing".toList := by
      unfold shown at hm
      rcases List.mem_append.mp hm with hm | hm
      · rcases List.mem_append.mp hm with hm | hm
        · rcases List.mem_append.mp hm with hm | hm
          · obtain ⟨q, _, e⟩ := List.mem_map.mp hm
            injection e with _ e
            subst e
            intro h; cases h
          · split at hm
            · unfold alignPars at hm
              have : x.probe = some "WL".toList := by
                rcases List.mem_cons.mp hm with e | hm
                · injection e with _ e; subst e; rfl
                · rcases List.mem_cons.mp hm with e | hm
                  · injection e with _ e; subst e; rfl
                  · rcases List.mem_cons.mp hm with e | hm
                    · injection e with _ e; subst e; rfl
                    · injection List.mem_singleton.mp hm with _ e; subst e; rfl
              rw [this]
              exact fun _ => ne1
            · cases hm
        · split at hm
          · obtain ⟨q, _, e⟩ := List.mem_map.mp hm
            injection e with _ e
            subst e
            exact fun _ => ne2 .photo (by decide)
          · cases hm
      · split at hm
        · obtain ⟨q, _, e⟩ := List.mem_map.mp hm
          injection e with _ e
          subst e
          exact fun _ => ne2 .spectro (by decide)
        · cases hm
    intro h
    obtain ⟨h1, h2⟩ := Bool.and_eq_true_iff.mp h
    exact out (of_decide_eq_true h1) (of_decide_eq_true h2)
  refine ⟨key, ?_⟩
  unfold alignment
  rw [key]
  rfl

/-- C122. Author, date and version do not matter for what is read. -/
theorem metadata_irrelevant {num : Str → Option K} {a d w a' d' w' : J K} {s : Screen K} {j j' : List (Str × J K)}
    (disk : Disk K) (isFile : Str → Bool) (hs : save num a d w s.window = .ok j)
    (hs' : save num a' d' w' s.window = .ok j') : load num disk isFile j = load num disk isFile j' := by
  obtain ⟨v, hv, rfl⟩ := (save_file num a d w s j).mp hs
  obtain ⟨v', hv', rfl⟩ := (save_file num a' d' w' s j').mp hs'
  obtain rfl := shows_unique hv hv'
  have : readFile num disk (fileOf (metaOf a d w) s v) = readFile num disk (fileOf (metaOf a' d' w') s v) := rfl
  unfold load
  rw [this]

end

/-! ### An example -/

/-- Numbers of the example: digits only. -/
def exNum (s : Str) : Option ℚ := (parseNat s).map (fun n => (n : ℚ))

def exTab (present : Nat) (file : Str) : Tab ℚ := ⟨present, 0, file, 10, 5000, 2, 100, "nz.h5".toList⟩

/-- Lensing with limits and photometric galaxies with a file of multipoles, whose box is not ticked. -/
def exScreen : Screen ℚ where
  fSky := "1".toList
  model := "CPL".toList
  flat := 2
  cosmo := [⟨"h".toList, "67".toList, "True".toList, "None".toList, "1".toList, "SteM".toList⟩,
    ⟨"Omm".toList, "32".toList, "false".toList, "None".toList, "1".toList, "SteM".toList⟩]
  stem := ["1".toList, "2".toList]
  wl := exTab 2 []
  ia := 2
  aIA := "1".toList
  cIA := "2".toList
  etaIA := "3".toList
  betaIA := "4".toList
  vd := exTab 0 []
  vdBias := []
  vdMarg := 0
  kcut := 1
  kcutWidth := 1
  ph := exTab 2 "ells.txt".toList
  phBias := "b.h5".toList
  phMarg := 2
  phDiff := "SteM".toList
  sp := exTab 0 []
  spBias := []
  spMarg := 0
  spDiff := "SteM".toList
  offdiag := 0

def exValues : Values ℚ where
  fSky := 1
  rows := [(⟨"h".toList, "67".toList, "True".toList, "None".toList, "1".toList, "SteM".toList⟩, ⟨67, true, 1⟩),
    (⟨"Omm".toList, "32".toList, "false".toList, "None".toList, "1".toList, "SteM".toList⟩, ⟨32, false, 1⟩)]
  aIA := 1
  cIA := 2
  etaIA := 3
  betaIA := 4

def exDisk : Disk ℚ := ⟨fun _ => .ok ([20], [1]), fun a b _ _ => .ok ([a, b], [1, 1]), fun _ => [("bgph0".toList, 1)]⟩

theorem exShows : Shows exNum exScreen exValues := by
  refine ⟨by decide +kernel, rfl, ?_, by decide +kernel, by decide +kernel, by decide +kernel, by decide +kernel⟩
  unfold RowShows IsFlag
  decide +kernel

example : ∃ j, save exNum .null .null .null exScreen.window = .ok j :=
  (saves_iff exNum .null .null .null exScreen).mpr ⟨_, exShows⟩

example : ∃ j r, save exNum .null .null .null exScreen.window = .ok j ∧ load exNum exDisk (fun _ => false) j = .ok r := by
  obtain ⟨j, hj⟩ := (saves_iff exNum .null .null .null exScreen).mpr ⟨_, exShows⟩
  obtain ⟨r, hr⟩ := (reads_iff exDisk (fun _ => false) hj).mpr ⟨⟨[1, 2], by unfold Displacements; decide +kernel⟩, rfl, by
    intro q hq
    obtain ⟨h, _⟩ := List.mem_filter.mp hq
    rcases List.mem_cons.mp h with rfl | h
    · exact ⟨_, rfl⟩
    · rcases List.mem_cons.mp h with rfl | h
      · exact ⟨_, rfl⟩
      · rw [List.mem_singleton.mp h]; exact ⟨_, rfl⟩⟩
  exact ⟨j, r, hj, hr⟩

example : ((shown exDisk exScreen exValues).map (·.1)).Nodup := by decide +kernel

/-- The names of the parameters on this screen, and which are varied. -/
example : (shown exDisk exScreen exValues).map (fun p => (p.1, p.2.free)) = [("h".toList, true), ("Omm".toList, false),
    ("aIA".toList, true), ("cIA".toList, false), ("etaIA".toList, true), ("betaIA".toList, true), ("bgph0".toList, true)] := by
  decide +kernel

/-- C122, the other side: a text that is no number among the displacements is saved, and cannot be read. -/
theorem displacements_unchecked : ∃ (s : Screen ℚ) (j : List (Str × J ℚ)),
    save exNum .null .null .null s.window = .ok j ∧
      ∀ (disk : Disk ℚ) (isFile : Str → Bool) (r : Coll ℚ × Forecast ℚ), load exNum disk isFile j ≠ .ok r := by
  obtain ⟨j, hj⟩ := (saves_iff exNum .null .null .null { exScreen with stem := ["x".toList] }).mpr ⟨exValues, exShows⟩
  refine ⟨_, j, hj, fun disk isFile r hr => ?_⟩
  obtain ⟨⟨base, hb⟩, _⟩ := (reads_iff disk isFile hj).mp ⟨r, hr⟩
  have e : [exNum "x".toList] = base.map some := hb
  have n : exNum "x".toList = none := by decide +kernel
  rw [n] at e
  cases base with
  | nil => cases e
  | cons a b => cases e

end Seyfert.Gui
