import Verif.Model.SCamera

/-!
What the conversion of external spectra and the reading of their derivatives should give, in terms of
`parseISTCosmoString` (`Ext.parseIST`) and `readSCameraClFile` (`Ext.readCl`), which are specified for themselves (C92,
C93).
-/

namespace Seyfert.SCam

/-- `a` is the last element of `l` which `f` sends to `k`. -/
def LastOf {A K : Type} (f : A → Option K) (l : List A) (k : K) (a : A) : Prop :=
  ∃ pre post, l = pre ++ a :: post ∧ f a = some k ∧ ∀ b ∈ post, f b ≠ some k

/-- The cosmology of a file, by its name. -/
def cosmoOf (c : Param.Coll ℚ) (f : Str × Content) : Option Key := (Ext.parseIST c f.1).toOption

/-- `cl` holds the `n` multipoles and the matrices of a file with spectra of `p1` and `p2` in matrices of a shape. -/
def Reads (p1 p2 : Str) (shape : Nat × Nat) (x : Content) (n : Nat) (cl : Stored.Cl Arr) : Prop :=
  ∃ t, Ext.readCl x.first x.header x.rows (decide (p1 = p2)) = .ok t ∧ (∀ r ∈ t, r.2.2 = shape) ∧ t.length = n ∧
    cl.p1 = p1 ∧ cl.p2 = p2 ∧ cl.c = some (.cl shape.1 shape.2 (t.map (·.2.1))) ∧
    cl.ells = some (.ells (t.map (·.1))) ∧ cl.widths = none ∧ cl.kernel = none

/-- The directory of a cosmology has the file with the spectra of its three files; `n` are the numbers of
multipoles. -/
def Converted (file : Stored.Coll Arr → File) (n : Nat × Nat × Nat) (q : Key × Content × Content × Content)
    (o : Str × File) : Prop :=
  o.1 = Names.jobDir q.1.1 q.1.2 ∧ ∃ a b x, Reads phot phot (10, 10) q.2.1 n.1 a ∧ Reads spec spec (4, 4) q.2.2.1 n.2.1 b ∧
    Reads phot spec (10, 4) q.2.2.2 n.2.2 x ∧
    o.2 = file { cls := [("PhotometricGalaxy_PhotometricGalaxy".toList, a),
      ("SpectroscopicGalaxy_SpectroscopicGalaxy".toList, b), ("PhotometricGalaxy_SpectroscopicGalaxy".toList, x)] }

/-- The probes of the subdirectories. -/
inductive Subdir : Str → Str → Str → Prop
  | ph : Subdir "GCph".toList "PhotometricGalaxy".toList "PhotometricGalaxy".toList
  | sp : Subdir "GCsp".toList "SpectroscopicGalaxy".toList "SpectroscopicGalaxy".toList
  | xc : Subdir "XC".toList "PhotometricGalaxy".toList "SpectroscopicGalaxy".toList

/-- A file of derivatives with respect to the parameter `v` of the spectra under key `k`: subdirectory, name, content. -/
def IsDer (f : Str × Str × Content) (v k : Str) (t : Der) : Prop :=
  ∃ p1 p2 ext r, Subdir f.1 p1 p2 ∧ k = p1 ++ '_' :: p2 ∧ (ext, v) ∈ Ext.parNames ∧
    matchDer f.2.1 = some (ext, ext) ∧
    Ext.readCl f.2.2.first f.2.2.header f.2.2.rows (decide (p1 = p2)) = .ok r ∧ t = r.map (·.2)

end Seyfert.SCam
