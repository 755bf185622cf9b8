import Verif.Model.PyStr
import Verif.Model.PyDict

/-!
`seyfert/utils/tex_utils.py`: translation of names to TeX.
-/

namespace Seyfert.TeX

/-- The exceptions of the functions modelled here, by their kinds (`tex_utils.py` L45-105). -/
inductive Err
  | keyError
  deriving DecidableEq, Repr

/-- `probe_name_to_tex` (L11-19). -/
def probeToTex : Dict Str Str :=
  [("Lensing".toList, "\\mathrm{WL}".toList), ("WL".toList, "\\mathrm{WL}".toList),
    ("Void".toList, "\\mathrm{V}".toList), ("V".toList, "\\mathrm{V}".toList),
    ("PhotometricGalaxy".toList, "\\mathrm{GC_{ph}}".toList), ("GCph".toList, "\\mathrm{GC_{ph}}".toList),
    ("SpectroscopicGalaxy".toList, "\\mathrm{GC_{sp}}".toList), ("GCsp".toList, "\\mathrm{GC_{sp}}".toList),
    ("GCsp(Pk)".toList, "\\mathrm{GC_{sp}}(P_k)".toList), ("XC".toList, "\\mathrm{XC}".toList),
    ("IST_GCsp".toList, "\\mathrm{GC_{sp}}".toList)]

/-- `phys_par_name_to_tex` (L27-42). -/
def parToTex : Dict Str Str :=
  [("w0".toList, "w_0".toList), ("wa".toList, "w_a".toList), ("mnu".toList, "M_\\nu[\\mathrm{eV}]".toList),
    ("Omm".toList, "\\Omega_m".toList), ("OmDE".toList, "\\Omega_{DE}".toList), ("Omb".toList, "\\Omega_b".toList),
    ("sigma8".toList, "\\sigma_8".toList), ("ns".toList, "n_s".toList), ("h".toList, "h".toList),
    ("gamma".toList, "\\gamma".toList), ("aIA".toList, "\\mathcal{A}_{\\rm IA}".toList),
    ("etaIA".toList, "\\eta_{\\rm IA}".toList), ("betaIA".toList, "\\beta_{\\rm IA}".toList),
    ("FoM".toList, "\\mathrm{FoM}".toList)]

/-- `cosmology_name_to_tex` (L43-48). -/
def cosmologyToTex : Dict Str Str :=
  [("LCDM".toList, "\\Lambda\\mathrm{CDM}".toList), ("mnu_LCDM".toList, "\\nu\\Lambda\\mathrm{CDM}".toList),
    ("mnuLCDM".toList, "\\nu\\Lambda\\mathrm{CDM}".toList), ("w0_wa_CDM".toList, "w_0w_a\\mathrm{CDM}".toList),
    ("w0waCDM".toList, "w_0w_a\\mathrm{CDM}".toList), ("mnu_w0_wa_CDM".toList, "\\nu w_0w_a\\mathrm{CDM}".toList),
    ("mnuw0waCDM".toList, "\\nu w_0w_a\\mathrm{CDM}".toList)]

/-- `{v: k for k, v in d.items()}` (L49-51): a later key with the same value wins. -/
def inverse (d : Dict Str Str) : Dict Str Str := PyDict.ofItems (d.map (fun q => (q.2, q.1)))

/-- `d[key]`. For `seyfert/utils/tex_utils.py` L53-60 (see `probeNameToTeX`). -/
def get (d : Dict Str Str) (k : Str) : Except Err Str :=
  match d.lookup k with
  | some v => .ok v
  | none => .error .keyError

/-- Blanks removed by `str.strip`; only those below 128 are considered. For `seyfert/utils/tex_utils.py` L53-60 (see `strip`). -/
def isBlank (c : Char) : Bool :=
  c = ' ' || c = '\t' || c = '\n' || c = '\r' || c.toNat = 11 || c.toNat = 12 || (28 ≤ c.toNat && c.toNat ≤ 31)

/-- `s.strip()`. For `seyfert/utils/tex_utils.py` L53-60 (see `probeNameToTeX`). -/
def strip (s : Str) : Str := ((s.dropWhile isBlank).reverse.dropWhile isBlank).reverse

/-- A list comprehension of lookups: the first missing key raises.
For `seyfert/utils/tex_utils.py` L53-60 (see `probeNameToTeX`). -/
def getAll (d : Dict Str Str) : List Str → Except Err (List Str)
  | [] => .ok []
  | k :: ks =>
    match get d k with
    | .error e => .error e
    | .ok v =>
      match getAll d ks with
      | .error e => .error e
      | .ok vs => .ok (v :: vs)

/-- `ProbeNameToTeX` (L53-60). -/
def probeNameToTeX (name : Str) : Except Err Str :=
  if '+' ∈ name then
    match getAll probeToTex ((splitChar '+' name).map strip) with
    | .error e => .error e
    | .ok l => .ok (joinStr "+".toList l)
  else get probeToTex name

/-- `ProbeTeXToName` (L62-68). A single name is looked up in the wrong dictionary (L64). -/
def probeTeXToName (tex : Str) : Except Err Str :=
  if '+' ∈ tex then
    match getAll (inverse probeToTex) ((splitChar '+' tex).map strip) with
    | .error e => .error e
    | .ok l => .ok (joinStr "+".toList l)
  else get probeToTex tex

/-- `CosmoParNameToTeX`, `CosmoParTeXToName`, `CosmologyNameToTeX`, `CosmologyTeXToName` (L70-74, L101-105). -/
def cosmoParNameToTeX : Str → Except Err Str := get parToTex
/-- `CosmoParTeXToName` (`tex_utils.py` L74). -/
def cosmoParTeXToName : Str → Except Err Str := get (inverse parToTex)
/-- `CosmologyNameToTeX` (`tex_utils.py` L101-105). -/
def cosmologyNameToTeX : Str → Except Err Str := get cosmologyToTex
/-- `CosmologyTeXToName` (`tex_utils.py` L105). -/
def cosmologyTeXToName : Str → Except Err Str := get (inverse cosmologyToTex)

/-- `bias_regex.match` (L8, L83): `bg(ph|sp)([0-9])` at the start. -/
def biasMatch (s : Str) : Option (Str × Char) :=
  (stripPrefix "bg".toList s).bind fun r =>
    matchAlt ["ph".toList, "sp".toList] r fun w rest =>
      match rest with
      | c :: _ => if isDigit c then some (w, c) else none
      | [] => none

/-- The formula of L86. -/
def biasTex (q : Str × Char) : Str :=
  "b^{\\mathrm{".toList ++ q.1 ++ "}}_{".toList ++ [q.2] ++ "}".toList

/-- The `try` and `except` parts of `PhysParNameToTeX` (L80-88): the value of `result` and the exception on the way,
when `result` was `r0` before. -/
def physTry (r0 s : Str) : Str × Option Err :=
  match cosmoParNameToTeX s with
  | .ok t => (t, none)
  | .error _ =>
    match biasMatch s with
    | some q => (biasTex q, none)
    | none => (r0, some .keyError)

/-- The `finally` part (L89-93): it returns, which discards any exception. -/
def finish (dollar : Bool) (r : Str × Option Err) : Except Err Str :=
  .ok (if dollar then "$".toList ++ r.1 ++ "$".toList else r.1)

/-- The recursive call for a part of a name, which has no underscore (L79). -/
def physPart (s : Str) : Str := (physTry [] s).1

/-- `PhysParNameToTeX` (L76-93). -/
def physParNameToTeX (s : Str) (dollar : Bool) : Except Err Str :=
  finish dollar (physTry
    (if '_' ∈ s then joinStr " ".toList ((splitChar '_' s).map physPart) else []) s)

end Seyfert.TeX
