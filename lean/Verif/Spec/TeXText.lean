import Verif.Model.TeXText

/-! What it means to translate a text, without the way the program does it. -/

namespace Seyfert.TeXText

/-- The second text is the first with every word of a table replaced by its translation, and all else kept. -/
inductive Done (ws : List (Str × Str)) : Str → Str → Prop
  | nil : Done ws [] []
  | word {w r s t : Str} : (w, r) ∈ ws → Done ws s t → Done ws (w ++ s) (r ++ t)
  | char {c : Char} {s t : Str} : (∀ p ∈ ws, ¬ p.1 <+: c :: s) → Done ws s t → Done ws (c :: s) (c :: t)

def table1 (l : List (String × String)) : List (Str × Str) := l.map (fun p => (p.1.toList, p.2.toList))

/-- Translations in labels of plots. -/
def plotTable : List (Str × Str) := table1
  [("Cl", "C_{\\ell}"), ("Pk", "P_k"), ("WL", "\\mathrm{WL}"), ("GCph", "\\mathrm{GC_{ph}}"), ("GCsp", "\\mathrm{GC_{sp}}"),
   ("XC", "\\mathrm{XC}"), (" FoM ", " \\mathrm{FoM} "), (" Omm ", " \\Omega_m "), (" Omb ", " \\Omega_b "), (" h ", " h "),
   (" ns ", " n_s "), (" sigma8 ", " \\sigma_8 "), (" w0 ", " w_0 "), (" wa ", " w_a ")]

/-- Translations in tables, which use commands of their own. -/
def aliasTable : List (Str × Str) := table1
  [("XC(WL,WL)", "\\xc{\\WL}{\\WL}"), ("XC(WL,GCph)", "\\xc{\\WL}{\\GCph}"), ("XC(WL,GCsp)", "\\xc{\\WL}{\\GCsp}"),
   ("XC(GCph,WL)", "\\xc{\\GCph}{\\WL}"), ("XC(GCph,GCph)", "\\xc{\\GCph}{\\GCph}"), ("XC(GCph,GCsp)", "\\xc{\\GCph}{\\GCsp}"),
   ("XC(GCsp,WL)", "\\xc{\\GCsp}{\\WL}"), ("XC(GCsp,GCph)", "\\xc{\\GCsp}{\\GCph}"), ("XC(GCsp,GCsp)", "\\xc{\\GCsp}{\\GCsp}"),
   ("Cl", "C_{\\ell}"), ("Pk", "P_k"), ("WL", "\\WL"), ("GCph", "\\GCph"), ("GCsp", "\\GCsp"),
   (" FoM ", " \\FoM "), (" Omm ", " \\Omm "), (" Omb ", " \\Omb "), (" h ", " \\h "), (" ns ", " \\ns "),
   (" sigma8 ", " \\sige "), (" w0 ", " \\wz "), (" wa ", " \\wa ")]

/-- The order of a set: every element once. -/
def SetOrder (order : List Str → List Str) : Prop := ∀ l, (order l).Nodup ∧ ∀ x, x ∈ order l ↔ x ∈ l

/-! ### Numbers in tables -/

def numChar (c : Char) : Bool := isDigit c || c = '.'

/-- No sign of a text stands before a digit or a point, nor at its end. -/
def Signless (sign : Char) (a : Str) : Prop := ∀ y x, a = y ++ sign :: x → ∃ d z, x = d :: z ∧ numChar d = false

/-- The cells of a table: a gain or loss in percent, the number of bins, or another text. -/
inductive Cell
  | gain (d : Str)
  | loss (d : Str)
  | bins
  | other (a : Str)

/-- The cell before the marks. -/
def Cell.raw : Cell → Str
  | .gain d => '+' :: d ++ "\\%".toList
  | .loss d => '-' :: d ++ "\\%".toList
  | .bins => "n\\_bins".toList
  | .other a => a

/-- The cell with its marks: gains and losses have their commands, no gain is a dash. -/
def Cell.marked : Cell → Str
  | .gain d => if d = "0.00".toList then "\\text{--}".toList else "\\positive{+".toList ++ d ++ "\\%}".toList
  | .loss d => "\\negative{-".toList ++ d ++ "\\%}".toList
  | .bins => "\\GCsp\\, \\text{bins}".toList
  | .other a => a

/-- Numbers have only digits and points, other cells have no sign before a number and no name of the bins. -/
def Cell.Fine : Cell → Prop
  | .gain d | .loss d => d ≠ [] ∧ ∀ c ∈ d, numChar c = true
  | .bins => True
  | .other a => Signless '+' a ∧ Signless '-' a ∧ ¬ "n\\_bins".toList <:+: a

def rowText (f : Cell → Str) (cells : List Cell) : Str := (cells.map fun c => f c ++ " & ".toList).flatten

end Seyfert.TeXText
