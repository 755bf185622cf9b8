import Verif.Model.Contours
import Verif.Props.Collector

/-! What a choice of an analysis and the plots of its contours should be. -/

namespace Seyfert.Contour
open Collector (Cell Analysis Matches)

/-- Exactly one row of the table fits, and it is `r`. -/
def OnlyRow {F E : Type} (rows : List (ARow F E)) (sel : Dict Str Cell) (r : ARow F E) : Prop :=
  ∃ pre post, rows = pre ++ r :: post ∧ (∀ q ∈ sel, Matches r.1 q) ∧ ∀ x ∈ pre ++ post, ¬ ∀ q ∈ sel, Matches x.1 q

/-- All matrices are there, with their errors. -/
def Complete {F E : Type} (a : Analysis F E) (names : List Str) : Prop :=
  ∀ n ∈ names, n ∈ a.fishers.map (·.1) ∧ n ∈ a.errs.map (·.1) ∧ n ∈ a.relErrs.map (·.1)

/-- The beginning of a run id, up to the first underscore. -/
def FirstPart (run p : Str) : Prop := '_' ∉ p ∧ (run = p ∨ ∃ rest, run = p ++ '_' :: rest)

/-- The options of the configurations that `ForecastConfigEditor` makes (`forecast_config.py` L187-193). -/
def accepted : List Str :=
  ["scenario".toList, "n_sp_bins".toList, "gcph_minus_gcsp".toList, "shot_noise_sp_reduced".toList,
   "gcph_only_bins_in_spectro_range".toList]

end Seyfert.Contour
