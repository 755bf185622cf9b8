import Verif.Model.DensityMaker

/-! What the program which makes files of redshift densities promises. -/

namespace Seyfert.DMake
open Stored (Dens)

variable {A : Type}

/-- The parameters of the two known instruments. -/
def instrument (py : Py A) (t : Str) : Option (Fractions A) :=
  if t = "phz".toList then some ⟨py.num (1 / 10), py.num 0, py.num (1 / 20), py.num 1, py.num (1 / 10), py.num (1 / 20), py.num 1⟩
  else if t = "spz".toList then some ⟨py.num 0, py.num 0, py.num (1 / 1000), py.num 1, py.num (1 / 10), py.num (1 / 20), py.num 1⟩
  else none

/-- The response stored, by name. -/
def Fractions.dict (r : Fractions A) : Dict Str A :=
  [("c_b".toList, r.cB), ("c_o".toList, r.cO), ("f_out".toList, r.fOut), ("sigma_b".toList, r.sigmaB),
   ("sigma_o".toList, r.sigmaO), ("z_b".toList, r.zB), ("z_o".toList, r.zO)]

/-- The sky fraction is the number written, or what the expression evaluates to. -/
def Sky (py : Py A) (t : Str) (v : Option A) : Prop :=
  (∃ a, py.float t = some a ∧ v = some a) ∨ (py.float t = none ∧ py.eval t = some v)

/-- The arguments describe a density, as a file gives it back: a probe known, an archive with redshifts, bin edges and the
table asked for, a sky fraction, and, for a table which is not given bin by bin, a known instrument. -/
def Describes (py : Py A) (a : Args A) (d : Dens A) : Prop :=
  a.probe ∈ ["Lensing".toList, "PhotometricGalaxy".toList, "SpectroscopicGalaxy".toList, "Void".toList] ∧
  ∃ arch z e fs n, a.archive = some arch ∧ arch.lookup "z".toList = some z ∧ arch.lookup "z_bin_edges".toList = some e ∧
    Sky py a.fSky fs ∧
    ((a.hasNiz = true ∧ arch.lookup "niz".toList = some n ∧
        d = { probe := a.probe, fromInput := some true, domain := some z, edges := some e, fSky := fs, nIz := some n }) ∨
     (a.hasNiz = false ∧ arch.lookup "dndzdomega_invsterad".toList = some n ∧ ∃ r, instrument py a.response = some r ∧
        d = { probe := a.probe, fromInput := some false, domain := some z, edges := some e, fSky := fs, dN := some n,
              response := r.dict }))

/-- Where the file goes. -/
def target (a : Args A) : Str := a.outfile.getD (a.probe ++ "_density.h5".toList)

end Seyfert.DMake
