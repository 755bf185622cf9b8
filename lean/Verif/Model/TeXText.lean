import Verif.Model.TeX

/-!
Translation of whole texts, for legends and tables (`seyfert/utils/tex_utils.py`; line numbers without a file refer to it).
A regular expression is what it matches at the start of a text: the number of characters and their replacement.  All
expressions of this file match by their first way, since no shorter match of a repetition can be continued.
-/

namespace Seyfert.TeXText

/-- What is matched at the start of a text: how many characters, and their replacement.
For `seyfert/utils/tex_utils.py` L138 (see `clineMatch`). -/
abbrev Matcher := Str → Option (Nat × Str)

/-- `re.sub`, after some characters of a match: matches from left to right, which do not overlap.
For `seyfert/utils/tex_utils.py` L107-121 (see `sub`). -/
def subFrom (m : Matcher) : Nat → Str → Str
  | _, [] => []
  | n + 1, _ :: s => subFrom m n s
  | 0, c :: s => match m (c :: s) with
    | some (k, r) => r ++ subFrom m (k - 1) s
    | none => c :: subFrom m 0 s

/-- `re.sub`. For `seyfert/utils/tex_utils.py` L107-121 (see `fisherNames`). -/
def sub (m : Matcher) (s : Str) : Str := subFrom m 0 s

/-- Words with their replacements: the first of them at the start of the text.
For `seyfert/utils/tex_utils.py` L107-121 (see `fisherNames`). -/
def words : List (Str × Str) → Matcher
  | [], _ => none
  | (w, r) :: ws, s => if w.isPrefixOf s then some (w.length, r) else words ws s

/-- `str.replace` for a text which is not empty. For `seyfert/utils/tex_utils.py` L113-114 (see `replaceEach`). -/
def replace (w r : Str) (s : Str) : Str := sub (words [(w, r)]) s

/-- `re.findall` for words. For `seyfert/utils/tex_utils.py` L107-121 (see `fisherNames`). -/
def findFrom (ws : List Str) : Nat → Str → List Str
  | _, [] => []
  | n + 1, _ :: s => findFrom ws n s
  | 0, c :: s => match ws.find? (fun w => w.isPrefixOf (c :: s)) with
    | some w => w :: findFrom ws (w.length - 1) s
    | none => findFrom ws 0 s

/-- `probe_regex` (L9). -/
def probeWords : List Str := ["WL".toList, "GCph".toList, "GCsp".toList]

/-- `aliases_probes_name_to_tex` (L21-23). -/
def probeAlias : Dict Str Str :=
  [("WL".toList, "\\WL".toList), ("GCph".toList, "\\GCph".toList), ("GCsp".toList, "\\GCsp".toList)]

/-- `aliases_cosmo_par_name_to_tex` (L24-27). -/
def parAlias : Dict Str Str :=
  [("w0".toList, "\\wz".toList), ("wa".toList, "\\wa".toList), ("Omm".toList, "\\Omm".toList), ("Omb".toList, "\\Omb".toList),
   ("h".toList, "\\h".toList), ("ns".toList, "\\ns".toList), ("sigma8".toList, "\\sige".toList), ("FoM".toList, "\\FoM".toList)]

/-- The expression of L112 and its replacement: nine texts. -/
def xcWords : List (Str × Str) :=
  probeWords.flatMap (fun p => probeWords.map (fun q =>
    ("XC(".toList ++ p ++ ",".toList ++ q ++ ")".toList, "\\xc{".toList ++ p ++ "}{".toList ++ q ++ "}".toList)))

/-- The loops of L113-114 and L116-117: one replacement after the other, in the order of the set. -/
def replaceEach (d : Dict Str Str) : List Str → Str → Except TeX.Err Str
  | [], s => .ok s
  | p :: ps, s => match d.lookup p with
    | none => .error .keyError
    | some r => replaceEach d ps (replace p r s)

/-- `replaceFisherNamesToTeX` (L107-121). `order` gives the elements of a set in the order in which Python has them. -/
def fisherNames (order : List Str → List Str) (text : Str) (aliases : Bool) : Except TeX.Err Str :=
  let s := replace "Pk".toList "P_k".toList (replace "Cl".toList "C_{\\ell}".toList text)
  if aliases then
    let s := sub (words xcWords) s
    replaceEach probeAlias (order (findFrom probeWords 0 s)) s
  else
    (replaceEach TeX.probeToTex (order (findFrom probeWords 0 s)) s).map
      (replace "XC".toList "\\mathrm{XC}".toList)

/-- The names of `column_name_regex` (L10). -/
def columnWords : List Str :=
  ["FoM".toList, "Omm".toList, "Omb".toList, "h".toList, "ns".toList, "sigma8".toList, "w0".toList, "wa".toList]

/-- The names between blanks with the entries of a dictionary; all names have one (L24-42). -/
def columnPairs (d : Dict Str Str) : List (Str × Str) :=
  columnWords.map (fun w => (" ".toList ++ w ++ " ".toList, " ".toList ++ (d.lookup w).getD [] ++ " ".toList))

/-- `replaceCosmoParsNamesToTeX` (L123-129). -/
def cosmoNames (text : Str) (aliases : Bool) : Str :=
  sub (words (columnPairs (if aliases then parAlias else TeX.parToTex))) text

/-- `translateToTeX` (L131-135), `toTeX` (L148-149). -/
def translate (order : List Str → List Str) (text : Str) (aliases : Bool) : Except TeX.Err Str :=
  (fisherNames order text aliases).map (cosmoNames · aliases)

/-- `translateLegendToTeX` (L151-154), the labels one after the other. -/
def legend (order : List Str → List Str) : List Str → Except TeX.Err (List Str)
  | [] => .ok []
  | l :: ls => match translate order l false with
    | .error e => .error e
    | .ok t => (legend order ls).map (("$".toList ++ t ++ "$".toList) :: ·)

/-! ### Tables -/

/-- `[0-9\-]+` and the rest; `[0-9\.]+` and the rest. For `seyfert/utils/tex_utils.py` L138 (see `clineMatch`). -/
def spanRange (s : Str) : Str × Str := (s.takeWhile (fun c => isDigit c || c = '-'), s.dropWhile (fun c => isDigit c || c = '-'))
/-- `[0-9\.]+` and the rest (`tex_utils.py` L143-144). -/
def spanNumber (s : Str) : Str × Str := (s.takeWhile (fun c => isDigit c || c = '.'), s.dropWhile (fun c => isDigit c || c = '.'))

/-- `cline\{[0-9\-]+\}` (L138). -/
def clineMatch : Matcher := fun s => match stripPrefix "cline{".toList s with
  | none => none
  | some t =>
    if (spanRange t).1 = [] then none
    else if (spanRange t).2.head? = some '}' then some ((spanRange t).1.length + 7, "midrule".toList) else none

/-- A sign, a number and `\%`, put into a command (L143-144). -/
def percentMatch (sign : Char) (command : Str) : Matcher
  | [] => none
  | c :: t =>
    if c = sign ∧ (spanNumber t).1 ≠ [] ∧ "\\%".toList.isPrefixOf (spanNumber t).2 = true then
      some ((spanNumber t).1.length + 3, command ++ "{".toList ++ c :: (spanNumber t).1 ++ "\\%}".toList)
    else none

/-- The steps after the names (L141-144). -/
def tableMarks (s : Str) : Str :=
  sub (percentMatch '-' "\\negative".toList) (sub (percentMatch '+' "\\positive".toList)
    (replace "+0.00\\%".toList "\\text{--}".toList (replace "n\\_bins".toList "\\GCsp\\, \\text{bins}".toList s)))

/-- `transformRawTeXTable` (L137-146). -/
def table (order : List Str → List Str) (text : Str) (aliases : Bool) : Except TeX.Err Str :=
  (translate order (sub clineMatch text) aliases).map tableMarks

end Seyfert.TeXText
