import Verif.Model.FisherTask
import Verif.Model.FisherStore

/-!
The list of combinations of Fisher matrices that is shipped with the program and how it is read
(`seyfert/fisher/fisher_utils.py` L98-106). What is done with the names is in `Verif.Model.FisherStore`.
-/

namespace Seyfert.Combos

/-- `load_a_posteriori_fisher_comb_names` (`fisher_utils.py` L98-106) on the lines of the file (`splitlines` is left
out). -/
def loadCombs (lines : List Str) : List Str :=
  (lines.map Boltzmann.strip).filter fun l => (stripPrefix ['#'] l).isNone && decide (0 < l.length)

/-- `data/fishers/a_posteriori_fisher_combs.txt` L1-93. -/
def combLines : List Str :=
  ["################ GCph & GCsp ######################".toList,
   "#### sums ####".toList,
   "[GCph] + [GCsp]".toList,
   "[GCph] + [XC(GCph,GCsp)]".toList,
   "[GCph+XC(GCph,GCsp)] + [GCsp]".toList,
   "[GCsp+XC(GCph,GCsp)] + [GCph]".toList,
   "[GCph+GCsp] + [XC(GCph,GCsp)]".toList,
   "[GCph] + [GCsp] + [XC(GCph,GCsp)]".toList,
   "".toList,
   "#### add Pk ####".toList,
   "[GCph] + [GCsp(Pk)]".toList,
   "[GCph+XC(GCph,GCsp)] + [GCsp(Pk)]".toList,
   "".toList,
   "#### subtract GCsp(Cl) ####".toList,
   "[GCph+GCsp+XC(GCph,GCsp)] - [GCsp]".toList,
   "[GCph+GCsp+XC(GCph,GCsp)] - [GCsp] + [GCsp(Pk)]".toList,
   "".toList,
   "###################################################".toList,
   "".toList,
   "#----------------------------------------------------------------------------------------------------------------------#".toList,
   "".toList,
   "################ WL & GCsp ########################".toList,
   "#### sums ####".toList,
   "[WL] + [GCsp]".toList,
   "[WL] + [XC(WL,GCsp)]".toList,
   "[WL+XC(WL,GCsp)] + [GCsp]".toList,
   "[GCsp+XC(WL,GCsp)] + [WL]".toList,
   "[WL+GCsp] + [XC(WL,GCsp)]".toList,
   "[WL] + [GCsp] + [XC(WL,GCsp)]".toList,
   "".toList,
   "#### add Pk ####".toList,
   "[WL] + [GCsp(Pk)]".toList,
   "[WL+XC(WL,GCsp)] + [GCsp(Pk)]".toList,
   "".toList,
   "#### subtract GCsp(Cl) ####".toList,
   "[WL+GCsp+XC(WL,GCsp)] - [GCsp]".toList,
   "[WL+GCsp+XC(WL,GCsp)] - [GCsp] + [GCsp(Pk)]".toList,
   "".toList,
   "###################################################".toList,
   "".toList,
   "#----------------------------------------------------------------------------------------------------------------------#".toList,
   "".toList,
   "################ WL & GCph ########################".toList,
   "#### sums ####".toList,
   "[WL] + [GCph]".toList,
   "[WL] + [XC(WL,GCph)]".toList,
   "[WL+XC(WL,GCph)] + [GCph]".toList,
   "[GCph+XC(WL,GCph)] + [WL]".toList,
   "[WL] + [GCph] + [XC(WL,GCph)]".toList,
   "".toList,
   "###################################################".toList,
   "".toList,
   "#----------------------------------------------------------------------------------------------------------------------#".toList,
   "".toList,
   "################ WL & GCph & GCsp #################".toList,
   "#### full Cl ####".toList,
   "[WL] + [GCph] + [GCsp]".toList,
   "[GCsp] + [XC(WL,GCph)]".toList,
   "[WL+GCph] + [GCsp]".toList,
   "[WL+GCph+XC(WL,GCph)] + [GCsp]".toList,
   "[WL+GCph+XC(WL,GCph)+XC(WL,GCsp)+XC(GCph,GCsp)] + [GCsp]".toList,
   "[WL+GCph+XC(WL,GCph)+XC(GCph,GCsp)] + [GCsp]".toList,
   "[WL+GCph+XC(WL,GCph)+XC(WL,GCsp)] + [GCsp]".toList,
   "[WL+GCph+XC(WL,GCsp)+XC(GCph,GCsp)] + [GCsp]".toList,
   "[WL+GCph+XC(WL,GCph)] + [GCsp]".toList,
   "[WL+GCph+XC(WL,GCsp)] + [GCsp]".toList,
   "[WL+GCph+XC(GCph,GCsp)] + [GCsp]".toList,
   "".toList,
   "#### subtract GCsp(Cl) ####".toList,
   "[WL+GCph+GCsp+XC(WL,GCph)+XC(WL,GCsp)+XC(GCph,GCsp)] - [GCsp]".toList,
   "[WL+GCph+GCsp+XC(WL,GCph)+XC(WL,GCsp)] - [GCsp]".toList,
   "[WL+GCph+GCsp+XC(WL,GCph)+XC(GCph,GCsp)] - [GCsp]".toList,
   "[WL+GCph+GCsp+XC(WL,GCsp)+XC(GCph,GCsp)] - [GCsp]".toList,
   "[WL+GCph+GCsp+XC(WL,GCph)+XC(WL,GCsp)+XC(GCph,GCsp)] - [GCsp] + [GCsp(Pk)]".toList,
   "[WL+GCph+GCsp+XC(WL,GCsp)] - [GCsp] + [GCsp(Pk)]".toList,
   "[WL+GCph+GCsp+XC(GCph,GCsp)] - [GCsp] + [GCsp(Pk)]".toList,
   "[WL+GCph+GCsp+XC(WL,GCph)+XC(WL,GCsp)] - [GCsp] + [GCsp(Pk)]".toList,
   "[WL+GCph+GCsp+XC(WL,GCph)+XC(GCph,GCsp)] - [GCsp] + [GCsp(Pk)]".toList,
   "[WL+GCph+GCsp+XC(WL,GCsp)+XC(GCph,GCsp)] - [GCsp] + [GCsp(Pk)]".toList,
   "".toList,
   "#### add Pk ####".toList,
   "[WL] + [GCph] + [GCsp(Pk)]".toList,
   "[WL+GCph+XC(WL,GCph)] + [GCsp(Pk)]".toList,
   "[WL+GCph+XC(WL,GCph)+XC(WL,GCsp)+XC(GCph,GCsp)] + [GCsp(Pk)]".toList,
   "[WL+GCph+XC(WL,GCsp)] + [GCsp(Pk)]".toList,
   "[WL+GCph+XC(GCph,GCsp)] + [GCsp(Pk)]".toList,
   "[WL+GCph+XC(WL,GCph)+XC(WL,GCsp)] + [GCsp(Pk)]".toList,
   "[WL+GCph+XC(WL,GCph)+XC(GCph,GCsp)] + [GCsp(Pk)]".toList,
   "[WL+GCph+XC(WL,GCsp)+XC(GCph,GCsp)] + [GCsp(Pk)]".toList,
   "".toList,
   "###################################################".toList,
   "".toList,
   "#----------------------------------------------------------------------------------------------------------------------#".toList]

/-- The names of the data vectors of a run (`fisher_utils.py` L84-94, `datavector.py` L28, `fisher_core.py` L42). -/
def baseNames : List Str :=
  match FTask.loadSelected FTask.selectedLines with
  | .ok dvs => dvs.map (·.name)
  | .error _ => []

end Seyfert.Combos
