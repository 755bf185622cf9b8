import Verif.Spec.DensityMaker
import Verif.Lemmas.StoredDict
import Verif.Lemmas.PyDict

/-! Properties of the program which makes the files of redshift densities, and of their use. -/

namespace Seyfert.DMake
open H5 (Path File)
open Stored (Val Dens N runOps saveDens densOps readDens view byName)

variable {A : Type}

theorem bind_ok {ε α β : Type} {x : Except ε α} {f : α → Except ε β} {b : β} :
    x.bind f = .ok b ↔ ∃ a, x = .ok a ∧ f a = .ok b := by
  cases x with
  | error e => exact ⟨nofun, fun ⟨_, h, _⟩ => nomatch h⟩
  | ok a => exact ⟨fun h => ⟨a, rfl, h⟩, fun ⟨_, h, h'⟩ => by cases h; exact h'⟩

theorem array_ok {d : Dict Str A} {n : Str} {a : A} : array d n = .ok a ↔ d.lookup n = some a := by
  unfold array
  cases d.lookup n with
  | none => exact ⟨nofun, nofun⟩
  | some b => exact ⟨fun h => by cases h; rfl, fun h => by cases h; rfl⟩

theorem readSky_ok {py : Py A} {t : Str} {v : Option A} : readSky py t = .ok v ↔ Sky py t v := by
  unfold readSky Sky
  cases h : py.float t with
  | some a =>
    dsimp only
    constructor
    · intro h; cases h; exact .inl ⟨a, rfl, rfl⟩
    · rintro (⟨b, hb, rfl⟩ | ⟨hb, _⟩)
      · cases hb; rfl
      · cases hb
  | none =>
    dsimp only
    cases h' : py.eval t with
    | none =>
      constructor
      · nofun
      · rintro (⟨b, hb, _⟩ | ⟨_, hb⟩)
        · cases hb
        · cases hb
    | some w =>
      constructor
      · intro h; cases h; exact .inr ⟨rfl, rfl⟩
      · rintro (⟨b, hb, _⟩ | ⟨_, hb⟩)
        · cases hb
        · cases hb; rfl

theorem twentieth : (5 / 100 : ℚ) = 1 / 20 := by decide +kernel

theorem sorted_response (r : Fractions A) :
    byName [("f_out".toList, r.fOut), ("z_o".toList, r.zO), ("z_b".toList, r.zB), ("sigma_o".toList, r.sigmaO),
      ("sigma_b".toList, r.sigmaB), ("c_o".toList, r.cO), ("c_b".toList, r.cB)] = r.dict := by
  rfl

theorem names_nodup : (["f_out".toList, "z_o".toList, "z_b".toList, "sigma_o".toList, "sigma_b".toList, "c_o".toList,
    "c_b".toList] : List Str).Nodup := by decide +kernel

/-- The instruments of the program are those of the specification, in another order. -/
theorem lookup_response (py : Py A) (t : Str) :
    match (responses py).lookup t with
    | none => instrument py t = none
    | some r => ∃ x, instrument py t = some x ∧ byName r = x.dict ∧ (r.map (·.1)).Nodup := by
  unfold responses instrument
  rw [twentieth]
  by_cases h1 : t = "phz".toList
  · subst h1
    exact ⟨_, rfl, rfl, names_nodup⟩
  · by_cases h2 : t = "spz".toList
    · subst h2
      exact ⟨_, rfl, rfl, names_nodup⟩
    · have e1 : (t == "phz".toList) = false := by simpa using h1
      have e2 : (t == "spz".toList) = false := by simpa using h2
      simp only [List.lookup, e1, e2]
      rw [if_neg h1, if_neg h2]

theorem mem_long (p : Str) : p ∈ longNames ↔
    p ∈ ["Lensing".toList, "PhotometricGalaxy".toList, "SpectroscopicGalaxy".toList, "Void".toList] := by
  unfold longNames
  simp only [List.mem_cons, List.not_mem_nil, or_false]
  tauto

/-- What the program builds is what the arguments describe. -/
theorem build_ok {py : Py A} {a : Args A} {d : Dens A} (h : build py a = .ok d) :
    Describes py a d.kept ∧ d.kept.fSky = d.fSky ∧ (d.fSky.isSome → d.Complete) ∧ d.domain.isSome ∧ d.edges.isSome ∧
      d.probe = a.probe ∧ d.fromInput = some a.hasNiz := by
  unfold build at h
  by_cases hp : a.probe ∈ longNames
  · rw [if_pos hp] at h
    cases ha : a.archive with
    | none => rw [ha] at h; cases h
    | some arch =>
      rw [ha] at h
      dsimp only at h
      obtain ⟨fs, h1, h⟩ := bind_ok.1 h
      obtain ⟨z, h2, h⟩ := bind_ok.1 h
      obtain ⟨e, h3, h⟩ := bind_ok.1 h
      cases hn : a.hasNiz with
      | true =>
        rw [hn, if_pos rfl] at h
        obtain ⟨n, h4, h⟩ := bind_ok.1 h
        cases h
        refine ⟨⟨(mem_long _).1 hp, arch, z, e, fs, n, ha, array_ok.1 h2, array_ok.1 h3, readSky_ok.1 h1,
          .inl ⟨hn, array_ok.1 h4, rfl⟩⟩, rfl, fun hf => ⟨rfl, rfl, rfl, hf, fun _ => rfl, fun h => absurd rfl h⟩, rfl, rfl,
          rfl, rfl⟩
      | false =>
        rw [hn, if_neg (by decide)] at h
        obtain ⟨n, h4, h⟩ := bind_ok.1 h
        have hr := lookup_response py a.response
        cases hl : (responses py).lookup a.response with
        | none => rw [hl] at h; cases h
        | some r =>
          rw [hl] at h hr
          obtain ⟨x, hx, hk, hd⟩ := hr
          cases h
          refine ⟨⟨(mem_long _).1 hp, arch, z, e, fs, n, ha, array_ok.1 h2, array_ok.1 h3, readSky_ok.1 h1,
            .inr ⟨hn, array_ok.1 h4, x, hx, ?_⟩⟩, rfl, fun hf => ⟨rfl, rfl, rfl, hf, nofun, fun _ => ⟨rfl, hd⟩⟩, rfl, rfl,
            rfl, rfl⟩
          unfold Stored.Dens.kept
          rw [if_neg (by simp)]
          simp only [hk]
  · rw [if_neg hp] at h; cases h

/-- The program builds whatever is described. -/
theorem build_describes {py : Py A} {a : Args A} {d : Dens A} (h : Describes py a d) :
    ∃ d', build py a = .ok d' ∧ d'.kept = d := by
  obtain ⟨hp, arch, z, e, fs, n, ha, hz, he, hs, h⟩ := h
  rcases h with ⟨hn, hl, rfl⟩ | ⟨hn, hl, r, hr, rfl⟩
  · refine ⟨{ probe := a.probe, fromInput := some true, domain := some z, edges := some e, fSky := fs, nIz := some n }, ?_, rfl⟩
    unfold build
    rw [if_pos ((mem_long _).2 hp), ha, hn]
    dsimp only
    rw [readSky_ok.2 hs, array_ok.2 hz, array_ok.2 he, array_ok.2 hl]
    rfl
  · have hx := lookup_response py a.response
    cases hk : (responses py).lookup a.response with
    | none => rw [hk] at hx; rw [hx] at hr; cases hr
    | some x =>
      rw [hk] at hx
      obtain ⟨y, hy, hb, _⟩ := hx
      rw [hr] at hy; cases hy
      refine ⟨{ probe := a.probe, fromInput := some false, domain := some z, edges := some e, fSky := fs, dN := some n,
                response := x }, ?_, ?_⟩
      · unfold build
        rw [if_pos ((mem_long _).2 hp), ha, hn]
        dsimp only
        rw [readSky_ok.2 hs, array_ok.2 hz, array_ok.2 he, array_ok.2 hl, hk]
        rfl
      · unfold Stored.Dens.kept
        rw [if_neg (by simp)]
        simp only [hb]

theorem outName_eq (a : Args A) : outName a = target a := by
  unfold outName target
  cases a.outfile <;> rfl

theorem saveDens_run (f : File (Val A)) (d : Dens A) : runOps f (saveDens [] d) = runOps f (densOps [] d) := by
  unfold saveDens
  exact Stored.runOps_cons_ok (g := f) (by simp [Stored.step, H5.File.has]) _

theorem save_eq (fs : Files A) (out : Str) (d : Dens A) : save fs out d =
    (match (runOps ((fs.lookup out).getD File.empty) (densOps [] d)).1 with
      | .ok () => .ok ()
      | .error e => .error (.saving e),
     PyDict.set fs out (runOps ((fs.lookup out).getD File.empty) (densOps [] d)).2) := by
  unfold save
  rw [saveDens_run]
  rfl

theorem fromFile_ok {fs : Files A} {p : Str} {d : Dens A} :
    fromFile fs p = .ok d ↔ ∃ f, fs.lookup p = some f ∧ readDens (view f []) = .ok d := by
  unfold fromFile
  cases fs.lookup p with
  | none => exact ⟨nofun, fun ⟨_, h, _⟩ => nomatch h⟩
  | some f =>
    dsimp only
    cases h : readDens (view f []) with
    | error e =>
      constructor
      · intro h; cases h
      · rintro ⟨g, hg, h'⟩; cases hg; rw [h] at h'; cases h'
    | ok d' =>
      constructor
      · intro h'; cases h'; exact ⟨f, rfl, h⟩
      · rintro ⟨g, hg, h'⟩; cases hg; rw [h] at h'; cases h'; rfl

theorem lookup_other {fs : Files A} {k p : Str} {f : File (Val A)} (h : p ≠ k) :
    (PyDict.set fs k f).lookup p = fs.lookup p := by
  rw [PyDict.lookup_set, if_neg h]

theorem lookup_same {fs : Files A} {k : Str} {f : File (Val A)} : (PyDict.set fs k f).lookup k = some f := by
  rw [PyDict.lookup_set, if_pos rfl]

/-- A density which is described, with a sky fraction, is written to a new file from which it is read as it was described;
no other file changes. -/
theorem made {py : Py A} {fs : Files A} {a : Args A} {d : Dens A} (h : Describes py a d) (hs : d.fSky.isSome)
    (hn : fs.lookup (target a) = none) : ∃ fs', main py fs a = (.ok (), fs') ∧ fromFile fs' (target a) = .ok d ∧
      ∀ p, p ≠ target a → fs'.lookup p = fs.lookup p := by
  obtain ⟨d', hb, rfl⟩ := build_describes h
  obtain ⟨_, e1, hc, _⟩ := build_ok hb
  rw [e1] at hs
  obtain ⟨g, hg, hr, _⟩ := Stored.dens_file (hc hs)
  refine ⟨PyDict.set fs (target a) g, ?_, fromFile_ok.2 ⟨g, lookup_same, hr⟩, fun p hp => lookup_other hp⟩
  unfold main
  rw [hb]
  dsimp only
  rw [save_eq, outName_eq, hn, Option.getD_none, hg]

/-- What is not described is refused, and nothing is written. -/
theorem refused {py : Py A} {fs : Files A} {a : Args A} (h : ¬ ∃ d, Describes py a d) :
    ∃ e, main py fs a = (.error e, fs) := by
  unfold main
  cases hb : build py a with
  | error e => exact ⟨e, rfl⟩
  | ok d => exact absurd ⟨_, (build_ok hb).1⟩ h

/-! ### The file is there already -/

/-- The file was begun: it says whether the density is given bin by bin. -/
def Begun (fs : Files A) (p : Str) : Prop := ∃ f, fs.lookup p = some f ∧ [N .hasNiz] ∈ f.data.map (·.1)

theorem step_begun {f g : File (Val A)} {o : Stored.Op (Val A)} {p : Path} (hp : p ∈ f.data.map (·.1))
    (h : Stored.step f o = .ok g) : p ∈ g.data.map (·.1) := by
  cases o with
  | enter q =>
    simp only [Stored.step] at h
    split at h
    · cases h; exact hp
    · simp only [Stored.mkGroup] at h
      split at h
      · cases h
      · cases h; exact hp
  | group q =>
    simp only [Stored.step] at h
    split at h
    · cases h
    · simp only [Stored.mkGroup] at h
      split at h
      · cases h
      · cases h; exact hp
  | put q v =>
    simp only [Stored.step] at h
    split at h
    · cases h
    · split at h
      · cases h
      · cases h
        simp only [List.map_append, List.mem_append]
        exact .inl hp
  | att q n v => cases h; exact hp
  | fail e => cases h

theorem run_begun {p : Path} : ∀ (ops : List (Stored.Op (Val A))) (f : File (Val A)), p ∈ f.data.map (·.1) →
    p ∈ (runOps f ops).2.data.map (·.1) := by
  intro ops
  induction ops with
  | nil => intro f h; exact h
  | cons o ops ih =>
    intro f h
    unfold Stored.runOps
    cases hs : Stored.step f o with
    | error e => exact h
    | ok g => exact ih g (step_begun h hs)

/-- Saving to a file begun: refused after the name of the probe has been written. -/
theorem save_begun {f : File (Val A)} {d : Dens A} {b : Bool} (h : [N .hasNiz] ∈ f.data.map (·.1)) (hb : d.fromInput = some b) :
    runOps f (densOps [] d) = (.error .exists_, f.setAttr [] (N .probe) (.str d.probe)) := by
  unfold Stored.densOps
  simp only [List.cons_append, List.nil_append, hb]
  rw [Stored.runOps_cons_ok (g := f.setAttr [] (N .probe) (.str d.probe)) rfl]
  have hn : (f.setAttr [] (N .probe) (.str d.probe)).has [N .hasNiz] = true := Stored.has_iff.2 (.inr (.inr h))
  simp only [Stored.runOps, Stored.step, hn, if_true]

theorem main_begun {py : Py A} {fs : Files A} {a : Args A} {d : Dens A} {f : File (Val A)} (hl : fs.lookup (target a) = some f)
    (h : [N .hasNiz] ∈ f.data.map (·.1)) (hb : build py a = .ok d) : main py fs a =
      (.error (.saving .exists_), PyDict.set fs (target a) (f.setAttr [] (N .probe) (.str d.probe))) := by
  unfold main
  rw [hb]
  dsimp only
  rw [save_eq, outName_eq, hl, Option.getD_some, save_begun h (build_ok hb).2.2.2.2.2.2]

/-- A file that was begun is never written to: every run for it fails. -/
theorem begun_refused {py : Py A} {fs : Files A} {a : Args A} (h : Begun fs (target a)) : ∃ e, (main py fs a).1 = .error e := by
  obtain ⟨f, hl, hf⟩ := h
  cases hb : build py a with
  | error e => exact ⟨e, by unfold main; rw [hb]⟩
  | ok d => exact ⟨_, by rw [main_begun hl hf hb]⟩

/-- The files of a run are the same at all paths but its own. -/
theorem main_other {py : Py A} {fs : Files A} {a : Args A} {p : Str} (h : p ≠ target a) :
    (main py fs a).2.lookup p = fs.lookup p := by
  unfold main
  cases hb : build py a with
  | error e => rfl
  | ok d =>
    dsimp only
    rw [save_eq, outName_eq]
    exact lookup_other h

theorem main_keeps_begun {py : Py A} {fs : Files A} {a : Args A} {p : Str} (h : Begun fs p) : Begun (main py fs a).2 p := by
  obtain ⟨f, hl, hf⟩ := h
  by_cases hp : p = target a
  · subst hp
    cases hb : build py a with
    | error e => exact ⟨f, by unfold main; rw [hb]; exact hl, hf⟩
    | ok d =>
      rw [main_begun hl hf hb]
      exact ⟨_, lookup_same, hf⟩
  · exact ⟨f, (main_other hp).trans hl, hf⟩

theorem view_setAttr (f : File (Val A)) (p : Str) :
    view (f.setAttr [] (N .probe) (.str p)) [] =
      { view f [] with att := (view (f.setAttr [] (N .probe) (.str p)) []).att } := rfl

theorem read_tail {v : Stored.View (Val A)} (d0 : Dens A) (p : Str) {d : Dens A}
    (h : (if d0.fromInput = some true then .ok d0
      else if v.has [N .response] then
        match Stored.readDict (fun n => v.num [N .response, n]) (v.kids [N .response]) with
        | .ok l => .ok { d0 with response := l }
        | .error e => .error e
      else .error .keyError : Except Stored.Err (Dens A)) = .ok d) :
    (if d0.fromInput = some true then .ok { d0 with probe := p }
      else if v.has [N .response] then
        match Stored.readDict (fun n => v.num [N .response, n]) (v.kids [N .response]) with
        | .ok l => .ok { d0 with probe := p, response := l }
        | .error e => .error e
      else .error .keyError : Except Stored.Err (Dens A)) = .ok { d with probe := p } := by
  by_cases hc : d0.fromInput = some true
  · rw [if_pos hc] at h ⊢; cases h; rfl
  · rw [if_neg hc] at h ⊢
    by_cases hr : v.has [N .response] = true
    · rw [if_pos hr] at h ⊢
      cases hd : Stored.readDict (fun n => v.num [N .response, n]) (v.kids [N .response]) with
      | error e => rw [hd] at h; cases h
      | ok l => rw [hd] at h; cases h; rfl
    · rw [if_neg hr] at h; cases h

/-- Only the name of the probe is read from the attributes. -/
theorem read_renamed {f : File (Val A)} {d : Dens A} (h : readDens (view f []) = .ok d) (p : Str) :
    readDens (view (f.setAttr [] (N .probe) (.str p)) []) = .ok { d with probe := p } := by
  have hs : (view (f.setAttr [] (N .probe) (.str p)) []).str (N .probe) = .ok p := by
    unfold Stored.View.str Stored.view H5.File.setAttr
    dsimp only
    rw [List.append_nil, PyDict.lookup_set, if_pos rfl]
  unfold Stored.readDens at h ⊢
  rw [hs]
  cases ho : (view f []).str (N .probe) with
  | error e => rw [ho] at h; cases h
  | ok q =>
    rw [ho] at h
    exact read_tail (v := view f []) (.mk q (match (view f []).data [N .hasNiz] with
        | some (.flag b) => some b
        | _ => none) ((view f []).field (N .zDomain)) ((view f []).field (N .zEdges)) ((view f []).field (N .fSky))
      ((view f []).field (N .surface)) ((view f []).field (N .nIz)) ((view f []).field (N .dN)) []
      ((view f []).field (N .zGrid)) ((view f []).field (N .normDensity))) p h

/-- Without a number as sky fraction the run fails half way: the file is there, with what comes before. -/
theorem fails_half {py : Py A} {fs : Files A} {a : Args A} {d : Dens A} (hb : build py a = .ok d) (hs : d.fSky = none)
    (hn : fs.lookup (target a) = none) : (main py fs a).1 = .error (.saving .typeError) := by
  obtain ⟨_, _, _, h1, h2, _, h3⟩ := build_ok hb
  obtain ⟨z, hz⟩ := Option.isSome_iff_exists.1 h1
  obtain ⟨e, he⟩ := Option.isSome_iff_exists.1 h2
  unfold main
  rw [hb]
  dsimp only
  rw [save_eq, outName_eq, hn, Option.getD_none]
  unfold Stored.densOps
  simp only [List.cons_append, List.nil_append, h3, hz, he, hs, Stored.putO]
  rfl

/-- A file made by the program is begun. -/
theorem made_begun {py : Py A} {fs : Files A} {a : Args A} {d : Dens A} (h : Describes py a d)
    (hn : fs.lookup (target a) = none) : Begun (main py fs a).2 (target a) := by
  obtain ⟨d', hb, rfl⟩ := build_describes h
  unfold main
  rw [hb]
  dsimp only
  rw [save_eq, outName_eq, hn, Option.getD_none]
  refine ⟨_, lookup_same, ?_⟩
  unfold Stored.densOps
  simp only [List.cons_append, List.nil_append, (build_ok hb).2.2.2.2.2.2]
  rw [Stored.runOps_cons_ok (g := File.empty.setAttr [] (N .probe) (.str d'.probe)) rfl]
  rw [Stored.runOps_cons_ok (g := { File.empty.setAttr [] (N .probe) (.str d'.probe) with
    groups := [], data := [([N .hasNiz], .flag a.hasNiz)] }) rfl]
  exact run_begun _ _ (List.mem_singleton.2 rfl)

/-- The program succeeds exactly when the arguments describe a density with a sky fraction, and, over any history of files
which the program may have made, the output is not there. -/
theorem made_iff {py : Py A} {fs : Files A} {a : Args A} (hb : ∀ p, fs.lookup p ≠ none → Begun fs p) :
    (main py fs a).1 = .ok () ↔ fs.lookup (target a) = none ∧ ∃ d, Describes py a d ∧ d.fSky.isSome := by
  constructor
  · intro h
    have hn : fs.lookup (target a) = none := by
      by_contra hc
      obtain ⟨e, he⟩ := begun_refused (py := py) (hb _ hc)
      rw [he] at h; cases h
    refine ⟨hn, ?_⟩
    by_contra hc
    cases hd : build py a with
    | error e => unfold main at h; rw [hd] at h; cases h
    | ok d =>
      obtain ⟨h1, h2, _⟩ := build_ok hd
      have hs : d.fSky = none := by
        cases hs : d.fSky with
        | none => rfl
        | some x => exact absurd ⟨_, h1, by rw [h2, hs]; rfl⟩ hc
      have := fails_half hd hs hn
      rw [this] at h; cases h
  · rintro ⟨hn, d, h, hs⟩
    obtain ⟨fs', h', _⟩ := made h hs hn
    rw [h']

/-- A second run for a file the program made is refused; all it does is to give the density of the file the probe of the second
run. -/
theorem renamed {py : Py A} {fs fs1 : Files A} {a b : Args A} {d e : Dens A} (hn : fs.lookup (target a) = none)
    (h1 : main py fs a = (.ok (), fs1)) (ha : Describes py a d) (hb : Describes py b e) (ht : target b = target a) :
    ∃ fs2, main py fs1 b = (.error (.saving .exists_), fs2) ∧ fromFile fs2 (target a) = .ok { d with probe := b.probe } ∧
      ∀ p, p ≠ target a → fs2.lookup p = fs1.lookup p := by
  have hs : d.fSky.isSome := by
    obtain ⟨d', hd, rfl⟩ := build_describes ha
    rw [(build_ok hd).2.1]
    cases hs : d'.fSky with
    | none => have := fails_half hd hs hn; rw [h1] at this; cases this
    | some x => rfl
  obtain ⟨fs', h', hr, _⟩ := made ha hs hn
  rw [h1] at h'; cases h'
  obtain ⟨f, hf, hfb⟩ := made_begun ha hn
  rw [h1] at hf
  obtain ⟨g, hg, hr⟩ := fromFile_ok.1 hr
  rw [show fs1.lookup (target a) = some f from hf] at hg; cases hg
  obtain ⟨e', he, _⟩ := build_describes hb
  rw [main_begun (ht ▸ hf) hfb he, (build_ok he).2.2.2.2.2.1, ht]
  exact ⟨_, rfl, fromFile_ok.2 ⟨_, lookup_same, read_renamed hr _⟩, fun p hp => lookup_other hp⟩

/-- Without a number as sky fraction the run fails after the file was begun: no later run can complete it, a density given bin by
bin is even read from it, without its table, and any other one is not. -/
theorem half_written {py : Py A} {fs : Files A} {a : Args A} {d : Dens A} (h : Describes py a d) (hs : d.fSky = none)
    (hn : fs.lookup (target a) = none) : ∃ fs', main py fs a = (.error (.saving .typeError), fs') ∧ Begun fs' (target a) ∧
      fromFile fs' (target a) = if a.hasNiz then .ok { d with nIz := none } else .error (.reading .keyError) := by
  have hb' := made_begun h hn
  obtain ⟨d', hb, rfl⟩ := build_describes h
  rw [(build_ok hb).2.1] at hs
  have hf := fails_half hb hs hn
  obtain ⟨_, _, _, h1, h2, h4, h3⟩ := build_ok hb
  obtain ⟨z, hz⟩ := Option.isSome_iff_exists.1 h1
  obtain ⟨e, he⟩ := Option.isSome_iff_exists.1 h2
  refine ⟨(main py fs a).2, Prod.ext hf rfl, hb', ?_⟩
  have key : (main py fs a).2.lookup (target a) = some { (File.empty : File (Val A)).setAttr [] (N .probe) (.str d'.probe) with data := [([N .hasNiz], .flag a.hasNiz), ([N .zDomain], .num z), ([N .zEdges], .num e)] } := by
    unfold main
    rw [hb]
    dsimp only
    rw [save_eq, outName_eq, hn, Option.getD_none, lookup_same]
    unfold Stored.densOps
    simp only [List.cons_append, List.nil_append, h3, hz, he, hs, Stored.putO]
    rfl
  unfold fromFile
  rw [key]
  dsimp only
  obtain ⟨_, arch, z', e', fsk, n, ha, hz', he', hsk, hd⟩ := h
  rcases hd with ⟨hn', _, hd⟩ | ⟨hn', _⟩
  · rw [hn', if_pos rfl, hd]
    have q1 : z' = z := by
      have : d'.kept.domain = some z' := by rw [hd]
      have q : d'.kept.domain = d'.domain := by unfold Stored.Dens.kept; split <;> rfl
      rw [q, hz] at this; cases this; rfl
    have q2 : e' = e := by
      have : d'.kept.edges = some e' := by rw [hd]
      have q : d'.kept.edges = d'.edges := by unfold Stored.Dens.kept; split <;> rfl
      rw [q, he] at this; cases this; rfl
    have q3 : fsk = none := by
      have : d'.kept.fSky = fsk := by rw [hd]
      rw [← this, (build_ok hb).2.1, hs]
    rw [q1, q2, q3, ← h4]
    rfl
  · rw [hn', if_neg (by decide)]
    rfl

/-! ### Histories -/

/-- Runs one after the other. -/
def runs (py : Py A) (fs : Files A) (as : List (Args A)) : Files A := as.foldl (fun fs a => (main py fs a).2) fs

/-- Whatever the program was run for before, every file it made is begun, so that `made_iff` applies. -/
theorem runs_begun {py : Py A} (as : List (Args A)) : ∀ {fs : Files A}, (∀ p, fs.lookup p ≠ none → Begun fs p) →
    ∀ p, (runs py fs as).lookup p ≠ none → Begun (runs py fs as) p := by
  induction as with
  | nil => intro fs h; exact h
  | cons a as ih =>
    intro fs h
    refine ih (fs := (main py fs a).2) fun p hp => ?_
    by_cases hl : fs.lookup p = none
    · by_cases ht : p = target a
      · subst ht
        cases hb : build py a with
        | error e => unfold main at hp; rw [hb] at hp; exact absurd hl hp
        | ok d => exact made_begun (build_ok hb).1 hl
      · rw [main_other ht] at hp; exact absurd hl hp
    · exact main_keeps_begun (h p hl)

/-- A path that was once begun can never be written by any later run. -/
theorem never_again {py : Py A} (as : List (Args A)) : ∀ {fs : Files A} {p : Str}, Begun fs p → ∀ a, target a = p →
    ∃ e, (main py (runs py fs as) a).1 = .error e := by
  induction as with
  | nil => intro fs p h a ha; subst ha; exact begun_refused h
  | cons b as ih => intro fs p h a ha; exact ih (main_keeps_begun h) a ha

theorem runs_keep {py : Py A} (as : List (Args A)) : ∀ {fs : Files A} {p : Str} {d : Dens A}, Begun fs p →
    fromFile fs p = .ok d → ∃ q, fromFile (runs py fs as) p = .ok { d with probe := q } ∧
      (q = d.probe ∨ ∃ b ∈ as, target b = p ∧ q = b.probe) := by
  induction as with
  | nil => intro fs p d _ h; exact ⟨d.probe, h, .inl rfl⟩
  | cons b as ih =>
    intro fs p d hb h
    have hstep : fromFile (main py fs b).2 p = .ok d ∨ (target b = p ∧ fromFile (main py fs b).2 p = .ok { d with probe := b.probe }) := by
      by_cases hp : p = target b
      · cases hd : build py b with
        | error e => left; unfold main; rw [hd]; exact h
        | ok d' =>
          right
          obtain ⟨f, hf, hfb⟩ := hb
          obtain ⟨g, hg, hr⟩ := fromFile_ok.1 h
          rw [hf] at hg; cases hg
          subst hp
          rw [main_begun hf hfb hd, (build_ok hd).2.2.2.2.2.1]
          exact ⟨rfl, fromFile_ok.2 ⟨_, lookup_same, read_renamed hr _⟩⟩
      · left
        obtain ⟨g, hg, hr⟩ := fromFile_ok.1 h
        exact fromFile_ok.2 ⟨g, (main_other hp).trans hg, hr⟩
    rcases hstep with h' | ⟨ht, h'⟩
    · obtain ⟨q, h1, h2⟩ := ih (main_keeps_begun hb) h'
      refine ⟨q, h1, ?_⟩
      rcases h2 with h2 | ⟨c, hc, h2⟩
      · exact .inl h2
      · exact .inr ⟨c, List.mem_cons_of_mem _ hc, h2⟩
    · obtain ⟨q, h1, h2⟩ := ih (main_keeps_begun hb) h'
      refine ⟨q, h1, .inr ?_⟩
      rcases h2 with h2 | ⟨c, hc, h2⟩
      · exact ⟨b, List.mem_cons_self, ht, h2⟩
      · exact ⟨c, List.mem_cons_of_mem _ hc, h2⟩

/-- Over every history, the density of a path is the one of the first run that made it, but for the name of its probe, which may
be that of a later run refused. -/
theorem history_partial {py : Py A} {fs : Files A} {a : Args A} {d : Dens A} (h : Describes py a d) (hs : d.fSky.isSome)
    (pre post : List (Args A)) (hn : fs.lookup (target a) = none) (hp : ∀ b ∈ pre, target b ≠ target a) :
    ∃ q, fromFile (runs py fs (pre ++ a :: post)) (target a) = .ok { d with probe := q } ∧
      (q = a.probe ∨ ∃ b ∈ post, target b = target a ∧ q = b.probe) := by
  have hpre : ∀ (pre : List (Args A)) (fs : Files A), fs.lookup (target a) = none → (∀ b ∈ pre, target b ≠ target a) →
      (runs py fs pre).lookup (target a) = none := by
    intro pre
    induction pre with
    | nil => intro fs h _; exact h
    | cons b pre ih =>
      intro fs h hp
      exact ih _ ((main_other (hp b List.mem_cons_self).symm).trans h) fun c hc => hp c (List.mem_cons_of_mem _ hc)
  have hn' := hpre pre fs hn hp
  have e : runs py fs (pre ++ a :: post) = runs py (main py (runs py fs pre) a).2 post := by
    unfold runs; rw [List.foldl_append]; rfl
  obtain ⟨fs', h1, h2, _⟩ := made h hs hn'
  have hb := made_begun h hn'
  rw [h1] at hb
  rw [e, h1]
  obtain ⟨q, h3, h4⟩ := runs_keep (py := py) post hb h2
  have hprobe : d.probe = a.probe := by
    obtain ⟨d', hd, rfl⟩ := build_describes h
    rw [← (build_ok hd).2.2.2.2.2.1]
    unfold Stored.Dens.kept
    split <;> rfl
  exact ⟨q, h3, hprobe ▸ h4⟩

/-! ### Use in a forecast -/

theorem surfaces_all {nu : Nums A} {d : Dens A} {e : A} {g : Nat → A} (h : ∀ i, surfaceAt nu d e i = .ok (g i)) (l : List Nat) :
    surfaces nu d e l = .ok (l.map g) := by
  induction l with
  | nil => rfl
  | cons i l ih => unfold surfaces; rw [h, ih]; rfl

/-- A density made from one distribution and an instrument is taken up with the parameters of the instrument, and each bin has
the integral of the distribution over it. -/
theorem taken_up {py : Py A} {nu : Nums A} {fs : Files A} {a : Args A} {d : Dens A} (h : Describes py a d) (hs : d.fSky.isSome)
    (hn : fs.lookup (target a) = none) (hz : a.hasNiz = false) : ∃ arch e n r, a.archive = some arch ∧
      arch.lookup "z_bin_edges".toList = some e ∧ arch.lookup "dndzdomega_invsterad".toList = some n ∧
      instrument py a.response = some r ∧ takeUp nu (main py fs a).2 (target a) =
        .ok (d, some r, (List.range (nu.nBins e)).map (nu.quad n e)) := by
  obtain ⟨fs', h1, h2, _⟩ := made h hs hn
  obtain ⟨_, arch, z, e, f, n, ha, _, he, _, h⟩ := h
  rcases h with ⟨hn', _⟩ | ⟨_, hl, r, hr, rfl⟩
  · rw [hz] at hn'; cases hn'
  refine ⟨arch, e, n, r, ha, he, hl, hr, ?_⟩
  rw [h1]
  unfold takeUp
  rw [h2]
  dsimp only [Except.bind]
  have e1 : setUp ({ probe := a.probe, fromInput := some false, domain := some z, edges := some e, fSky := f, dN := some n, response := r.dict } : Dens A) = .ok (some r) := rfl
  rw [e1]
  dsimp only [Except.bind]
  unfold evaluateSurface
  dsimp only
  rw [surfaces_all (g := nu.quad n e) (fun _ => rfl)]

/-- A file with a response of the instrument that lacks one of the seven parameters is refused for this reason, whatever else
is missing from it. -/
theorem incomplete_response {nu : Nums A} {fs : Files A} {p : Str} {d : Dens A} (h : fromFile fs p = .ok d)
    (hi : d.fromInput ≠ some true) {k : Str} (hk : k ∈ ["f_out".toList, "z_b".toList, "sigma_b".toList, "c_b".toList,
      "z_o".toList, "sigma_o".toList, "c_o".toList]) (hd : d.response.lookup k = none) :
    takeUp nu fs p = .error .keyError := by
  have e : setUp d = .error .keyError := by
    unfold setUp
    rw [if_neg hi]
    have hn : ∀ s : Str, d.response.lookup s = none → entry d.response s = .error .keyError := by
      intro s hs; unfold entry; rw [hs]
    have ho : ∀ s : Str, entry d.response s = .error .keyError ∨ ∃ v, entry d.response s = .ok v := by
      intro s
      unfold entry
      cases d.response.lookup s with
      | none => exact Or.inl rfl
      | some v => exact Or.inr ⟨v, rfl⟩
    have stop : ∀ {B C : Type} (x : Except UseErr B) (g : B → Except UseErr C),
        (x = .error .keyError ∨ ((∃ v, x = .ok v) ∧ ∀ v, g v = .error .keyError)) → x.bind g = .error .keyError := by
      rintro B C x g (rfl | ⟨⟨v, rfl⟩, hg⟩)
      · rfl
      · exact hg v
    have next : ∀ {C : Type} (s : Str) (g : A → Except UseErr C),
        (d.response.lookup s = none ∨ ∀ v, g v = .error .keyError) → (entry d.response s).bind g = .error .keyError := by
      rintro C s g (hs | hg)
      · exact stop _ _ (Or.inl (hn s hs))
      · exact stop _ _ ((ho s).imp_right fun hv => ⟨hv, hg⟩)
    simp only [List.mem_cons, List.not_mem_nil, or_false] at hk
    rcases hk with rfl | rfl | rfl | rfl | rfl | rfl | rfl
    · exact next _ _ (Or.inl hd)
    · exact next _ _ (Or.inr fun _ => next _ _ (Or.inl hd))
    · exact next _ _ (Or.inr fun _ => next _ _ (Or.inr fun _ => next _ _ (Or.inl hd)))
    · exact next _ _ (Or.inr fun _ => next _ _ (Or.inr fun _ => next _ _ (Or.inr fun _ => next _ _ (Or.inl hd))))
    · exact next _ _ (Or.inr fun _ => next _ _ (Or.inr fun _ => next _ _ (Or.inr fun _ => next _ _ (Or.inr fun _ =>
        next _ _ (Or.inl hd)))))
    · exact next _ _ (Or.inr fun _ => next _ _ (Or.inr fun _ => next _ _ (Or.inr fun _ => next _ _ (Or.inr fun _ =>
        next _ _ (Or.inr fun _ => next _ _ (Or.inl hd))))))
    · exact next _ _ (Or.inr fun _ => next _ _ (Or.inr fun _ => next _ _ (Or.inr fun _ => next _ _ (Or.inr fun _ =>
        next _ _ (Or.inr fun _ => next _ _ (Or.inr fun _ => next _ _ (Or.inl hd)))))))
  unfold takeUp
  rw [h]
  dsimp only [Except.bind]
  rw [e]

/-- A density given bin by bin is made and read, but no forecast can take it up: its surface densities are not in the file. -/
theorem niz_unusable {py : Py A} {nu : Nums A} {fs : Files A} {a : Args A} {d : Dens A} (h : Describes py a d)
    (hs : d.fSky.isSome) (hn : fs.lookup (target a) = none) (hz : a.hasNiz = true)
    (hb : ∀ arch e, a.archive = some arch → arch.lookup "z_bin_edges".toList = some e → 0 < nu.nBins e) :
    (main py fs a).1 = .ok () ∧ takeUp nu (main py fs a).2 (target a) = .error .typeError := by
  obtain ⟨fs', h1, h2, _⟩ := made h hs hn
  obtain ⟨_, arch, z, e, f, n, ha, _, he, _, h⟩ := h
  rcases h with ⟨_, hl, rfl⟩ | ⟨hn', _⟩
  · rw [h1]
    refine ⟨rfl, ?_⟩
    unfold takeUp
    rw [h2]
    dsimp only [Except.bind]
    have e1 : setUp ({ probe := a.probe, fromInput := some true, domain := some z, edges := some e, fSky := f, nIz := some n } : Dens A) = .ok none := rfl
    rw [e1]
    dsimp only [Except.bind]
    unfold evaluateSurface
    dsimp only
    obtain ⟨k, hk⟩ := Nat.exists_eq_succ_of_ne_zero (Nat.pos_iff_ne_zero.1 (hb arch e ha he))
    rw [hk, List.range_succ_eq_map]
    rfl
  · rw [hz] at hn'; cases hn'

/-! ### Examples -/

/-- A Python in which two texts are numbers, one an expression and one a list. -/
def exPy : Py ℚ where
  float t := if t = "0.5".toList then some (1 / 2) else none
  eval t := if t = "1/3".toList then some (some (1 / 3)) else if t = "[1]".toList then some none else none
  num := id

def exArch : Dict Str ℚ :=
  [("z".toList, 10), ("z_bin_edges".toList, 20), ("niz".toList, 30), ("dndzdomega_invsterad".toList, 40)]

def exArgs (probe : Str) (niz : Bool) (sky : Str) : Args ℚ :=
  { probe := probe, response := "spz".toList, hasNiz := niz, archive := some exArch, fSky := sky, outfile := some "out.h5".toList }

def exNums : Nums ℚ := { nBins := fun _ => 2, item := fun a i => a + i, quad := fun a e i => a * e + i }

def exDens (probe : Str) (niz : Bool) (sky : Option ℚ) : Dens ℚ :=
  if niz then { probe := probe, fromInput := some true, domain := some 10, edges := some 20, fSky := sky, nIz := some 30 }
  else { probe := probe, fromInput := some false, domain := some 10, edges := some 20, fSky := sky, dN := some 40,
         response := Fractions.dict ⟨0, 0, 1 / 1000, 1, 1 / 10, 1 / 20, 1⟩ }

theorem ex_probe {probe : Str} (hp : probe = "Void".toList ∨ probe = "Lensing".toList) :
    probe ∈ ["Lensing".toList, "PhotometricGalaxy".toList, "SpectroscopicGalaxy".toList, "Void".toList] := by
  rcases hp with rfl | rfl <;> decide +kernel

theorem ex_describes (probe : Str) (hp : probe = "Void".toList ∨ probe = "Lensing".toList) (niz : Bool) {t : Str} {v : Option ℚ}
    (hv : Sky exPy t v) : Describes exPy (exArgs probe niz t) (exDens probe niz v) := by
  refine ⟨ex_probe hp, exArch, 10, 20, v, if niz then 30 else 40, rfl, rfl, rfl, hv, ?_⟩
  cases niz with
  | true => exact .inl ⟨rfl, rfl, rfl⟩
  | false => exact .inr ⟨rfl, rfl, _, rfl, rfl⟩

theorem ex_sky : Sky exPy "0.5".toList (some (1 / 2)) ∧ Sky exPy "1/3".toList (some (1 / 3)) ∧ Sky exPy "[1]".toList none :=
  ⟨.inl ⟨_, rfl, rfl⟩, .inr ⟨rfl, rfl⟩, .inr ⟨rfl, rfl⟩⟩

/-- A density for voids is made and taken up. -/
example : ∃ fs', main exPy [] (exArgs "Void".toList false "1/3".toList) = (.ok (), fs') ∧
    fromFile fs' "out.h5".toList = .ok (exDens "Void".toList false (some (1 / 3))) := by
  obtain ⟨fs', h1, h2, _⟩ := made (fs := []) (ex_describes "Void".toList (.inl rfl) false ex_sky.2.1) rfl rfl
  exact ⟨fs', h1, h2⟩

example : takeUp exNums (main exPy [] (exArgs "Void".toList false "0.5".toList)).2 "out.h5".toList =
    .ok (exDens "Void".toList false (some (1 / 2)), some ⟨0, 0, 1 / 1000, 1, 1 / 10, 1 / 20, 1⟩, [40 * 20 + 0, 40 * 20 + 1]) := by
  obtain ⟨arch, e, n, r, h1, h2, h3, h4, h5⟩ := taken_up (nu := exNums) (fs := [])
    (ex_describes "Void".toList (.inl rfl) false ex_sky.1) rfl rfl rfl
  cases h1
  have q2 : (some 20 : Option ℚ) = some e := h2
  have q3 : (some 40 : Option ℚ) = some n := h3
  have q4 : (some ⟨0, 0, 1 / 1000, 1, 1 / 10, 1 / 20, 1⟩ : Option (Fractions ℚ)) = some r := h4
  cases q2; cases q3; cases q4
  rw [show "out.h5".toList = target (exArgs "Void".toList false "0.5".toList) from rfl, h5]
  congr

/-- A density with a response of a single parameter. -/
def exThin : Dens ℚ :=
  { probe := "Void".toList, fromInput := some false, domain := some 10, edges := some 20, fSky := some (1 / 2), dN := some 40,
    response := [("z_b".toList, 0)] }

/-- It is stored and read, and refused when it is taken up. -/
example : ∃ fs : Files ℚ, takeUp exNums fs "out.h5".toList = .error .keyError := by
  obtain ⟨g, -, hg, -⟩ := Stored.dens_file (d := exThin) ⟨rfl, rfl, rfl, rfl, nofun, fun _ => ⟨rfl, by decide +kernel⟩⟩
  have hf : fromFile [("out.h5".toList, g)] "out.h5".toList = .ok exThin.kept := by
    unfold fromFile
    rw [List.lookup_cons, beq_self_eq_true]
    dsimp only
    rw [hg]
  exact ⟨_, incomplete_response hf (by decide +kernel) (k := "sigma_o".toList) (by decide +kernel) (by decide +kernel)⟩

/-- The same given bin by bin is made, but cannot be taken up. -/
example : (main exPy [] (exArgs "Void".toList true "0.5".toList)).1 = .ok () ∧
    takeUp exNums (main exPy [] (exArgs "Void".toList true "0.5".toList)).2 "out.h5".toList = .error .typeError :=
  niz_unusable (fs := []) (ex_describes "Void".toList (.inl rfl) true ex_sky.1) rfl rfl rfl (fun _ _ _ _ => Nat.zero_lt_two)

/-- The density of voids becomes one of lensing when a second run is refused. -/
example : fromFile (runs exPy [] [exArgs "Void".toList false "0.5".toList, exArgs "Lensing".toList true "1/3".toList])
    "out.h5".toList = .ok { exDens "Void".toList false (some (1 / 2)) with probe := "Lensing".toList } := by
  obtain ⟨fs1, h1, _⟩ := made (fs := []) (ex_describes "Void".toList (.inl rfl) false ex_sky.1) rfl rfl
  obtain ⟨fs2, h2, h3, _⟩ := renamed (fs := []) rfl h1 (ex_describes "Void".toList (.inl rfl) false ex_sky.1)
    (ex_describes "Lensing".toList (.inr rfl) true ex_sky.2.1) rfl
  unfold runs
  rw [List.foldl_cons, List.foldl_cons, List.foldl_nil, h1, h2]
  exact h3

/-- A list as sky fraction leaves a file which no run can complete. -/
example : ∃ fs', main exPy [] (exArgs "Void".toList true "[1]".toList) = (.error (.saving .typeError), fs') ∧
    ∃ e, (main exPy fs' (exArgs "Void".toList true "0.5".toList)).1 = .error e := by
  obtain ⟨fs', h1, h2, _⟩ := half_written (fs := []) (ex_describes "Void".toList (.inl rfl) true ex_sky.2.2) rfl rfl
  exact ⟨fs', h1, never_again [] h2 _ rfl⟩

/-- A short name of a probe is refused. -/
example : ∃ e, main exPy [] (exArgs "V".toList true "0.5".toList) = (.error e, []) :=
  refused (fun ⟨_, h, _⟩ => absurd h (by decide +kernel))

end Seyfert.DMake
