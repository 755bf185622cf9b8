import Verif.Model.PyStr
import Verif.Model.PyDict
import Verif.Model.Names
import Mathlib.Algebra.Order.Field.Rat
import Mathlib.Data.Rat.Floor

/-!
Model of `seyfert/cosmology/boltzmann_solver.py`: groups of redshifts, parameters handed to the Boltzmann codes, ini
files and the tuning of the amplitude. The codes themselves (CAMB, CLASS) are functions.
-/

namespace Seyfert.Boltzmann

/-! ### Groups of redshifts -/

/-- `computeCAMBRedshiftGroupsNumber` (L197-199): `int(np.ceil(n / 150))`; the division is exact here. -/
def groupsNumber (n : Nat) : Nat := (⌈(n : ℚ) / 150⌉).toNat

/-- The sizes of `np.array_split`: the first `n % k` parts have one element more.
For `seyfert/cosmology/boltzmann_solver.py` L86 (see `arraySplit`). -/
def sectionSizes (n k : Nat) : List Nat := List.replicate (n % k) (n / k + 1) ++ List.replicate (k - n % k) (n / k)

/-- Consecutive parts of the given sizes. For `seyfert/cosmology/boltzmann_solver.py` L86 (see `arraySplit`). -/
def cutBy {α : Type} : List Nat → List α → List (List α)
  | [], _ => []
  | s :: ss, l => l.take s :: cutBy ss (l.drop s)

/-- The exceptions of the functions modelled here, by their kinds (`boltzmann_solver.py` L58-275). -/
inductive Err
  | noSections
  deriving DecidableEq

/-- `np.array_split(l, k)`. For `seyfert/cosmology/boltzmann_solver.py` L86 (see `cambGroups`). -/
def arraySplit {α : Type} (l : List α) (k : Nat) : Except Err (List (List α)) :=
  if k = 0 then .error .noSections else .ok (cutBy (sectionSizes l.length k) l)

/-- The groups of `run` (L86). -/
def cambGroups {α : Type} (z : List α) : Except Err (List (List α)) := arraySplit z (groupsNumber z.length)

/-- The rows of `run` (L91-120): the groups are handed to the code one after the other and the results joined. -/
def run {α β : Type} (solver : List α → List β) (z : List α) : Except Err (List β) :=
  match cambGroups z with
  | .error e => .error e
  | .ok gs => .ok ((gs.map solver).flatten)

/-! ### Parameters -/

/-- The values of the cosmological parameters that are used.
For `seyfert/cosmology/boltzmann_solver.py` L143-168 (see `cambBasis`). -/
structure Cosmo (K : Type) where
  h : K
  omm : K
  omb : K
  mnu : K
  omde : K

/-- The densities and the Hubble constant handed to CAMB (`boltzmann_solver.py` L143-168). -/
structure CambBasis (K : Type) where
  hubble : K
  omch2 : K
  ombh2 : K
  omnuh2 : K
  omk : K

/-- `computeCAMBCosmologicalBasis` (L143-168); `w`, `wa` and the spectral index are copied. -/
def cambBasis {K : Type} [Field K] (c : Cosmo K) : CambBasis K :=
  let ombh2 := c.omb * c.h * c.h
  let omnuh2 := c.mnu / (9314 / 100)
  { hubble := 100 * c.h
    omch2 := c.omm * c.h * c.h - ombh2 - omnuh2
    ombh2 := ombh2
    omnuh2 := omnuh2
    omk := 1 - c.omm - c.omde }

/-- The densities and the Hubble constant handed to CLASS (`boltzmann_solver.py` L202-275). -/
structure ClassBasis where
  omegaB : ℚ
  omegaCdm : ℚ
  omegaK : ℚ
  omegaFld : ℚ

/-- Rounding to an integer, ties to the even one. For `seyfert/cosmology/boltzmann_solver.py` L209-247 (see `round6`). -/
def roundEven (x : ℚ) : Int :=
  if x - ⌊x⌋ < 1 / 2 then ⌊x⌋ else if 1 / 2 < x - ⌊x⌋ then ⌊x⌋ + 1 else if ⌊x⌋ % 2 = 0 then ⌊x⌋ else ⌊x⌋ + 1

/-- `round(x, 6)`. For `seyfert/cosmology/boltzmann_solver.py` L209-247 (see `classBasis`). -/
def round6 (x : ℚ) : ℚ := (roundEven (x * 1000000) : ℚ) / 1000000

/-- The density of neutrinos subtracted in `computeCLASSCosmologicalBasis` (L221). -/
def classOmnu (c : Cosmo ℚ) : ℚ := c.mnu / (9314 / 100 * c.h * c.h)

/-- `computeCLASSCosmologicalBasis` (L209-247), the densities. -/
def classBasis (c : Cosmo ℚ) : ClassBasis :=
  { omegaB := c.omb
    omegaCdm := c.omm - c.omb - classOmnu c
    omegaK := round6 (1 - c.omm - c.omde)
    omegaFld := c.omde }

/-! ### Ini files -/

/-- The characters for which `str.isspace` holds. For `seyfert/cosmology/boltzmann_solver.py` L173 (see `strip`). -/
def isSpace (c : Char) : Bool :=
  let n := c.toNat
  (9 ≤ n && n ≤ 13) || (28 ≤ n && n ≤ 32) || n == 0x85 || n == 0xa0 || n == 0x1680 || (0x2000 ≤ n && n ≤ 0x200a) ||
    n == 0x2028 || n == 0x2029 || n == 0x202f || n == 0x205f || n == 0x3000

/-- The characters at which `str.splitlines` splits. For `seyfert/cosmology/boltzmann_solver.py` L171-182 (see `splitLines`). -/
def isBreak (c : Char) : Bool :=
  let n := c.toNat
  (10 ≤ n && n ≤ 13) || (28 ≤ n && n ≤ 30) || n == 0x85 || n == 0x2028 || n == 0x2029

/-- `str.splitlines`. (`\r\n` never reaches it: reading in text mode has turned it into `\n`.)
For `seyfert/cosmology/boltzmann_solver.py` L171-182 (see `readIni`). -/
def splitLines : Str → List Str
  | [] => []
  | c :: s =>
    if isBreak c then [] :: splitLines s
    else match splitLines s with
      | [] => [[c]]
      | h :: t => (c :: h) :: t

/-- `str.strip`. For `seyfert/cosmology/boltzmann_solver.py` L173 (see `readLine`). -/
def strip (s : Str) : Str := ((s.dropWhile isSpace).reverse.dropWhile isSpace).reverse

/-- The parts before and after the last `=`. For `seyfert/cosmology/boltzmann_solver.py` L172 (see `matchLine`). -/
def splitLastEq (s : Str) : Option (Str × Str) :=
  match Names.spanChars (fun c => decide (c ≠ '=')) s.reverse with
  | (_, []) => none
  | (v, _ :: n) => some (n.reverse, v.reverse)

/-- `re.compile('^([^#].*)=(.*)$').match(line)` (L172, L176-178): the first character is not `#`, and the greedy first
group reaches to the last `=` after it. -/
def matchLine : Str → Option (Str × Str)
  | [] => none
  | c :: s => if c = '#' then none else (splitLastEq s).map fun p => (c :: p.1, p.2)

/-- One line of the loop (L173, L175-181). -/
def readLine (l : Str) : Option (Str × Str) := (matchLine (strip l)).map fun p => (strip p.1, strip p.2)

/-- `readCAMBIniFileToDict` (L171-182) applied to the text of the file. -/
def readIni (text : Str) : Dict Str Str := PyDict.ofItems ((splitLines text).filterMap readLine)

/-- `writeDictToIniFile` (L185-188): the text of the file. -/
def writeIni (d : Dict Str Str) : Str := d.flatMap fun p => p.1 ++ " = ".toList ++ p.2 ++ "\n".toList

/-- `writeUpdatedCAMBIniFile` (L78-82): the text written, from the text of the reference file and the parameters
already turned into strings. -/
def updatedIni (ref : Str) (basis : Dict Str Str) : Str := writeIni (PyDict.update (readIni ref) basis)

/-! ### Amplitude -/

/-- The loop of `finetuneScalarAmpFromSigma8` (L130-137): `ev` is `sigma8_eval`, `amp` is `As`, `f` is the σ₈ that CAMB
computes for an amplitude. `none` when the loop has not ended after the given number of rounds. The ini file is
rewritten in every round with the current amplitude. -/
def tune {K : Type} [Field K] [LinearOrder K] (f : K → K) (sigma8 tol : K) : Nat → K → K → Option K
  | 0, _, _ => none
  | n + 1, ev, amp =>
    if tol < |(sigma8 - ev) / sigma8| then tune f sigma8 tol n (f amp) (amp * (sigma8 / f amp) ^ 2) else some amp

end Seyfert.Boltzmann
