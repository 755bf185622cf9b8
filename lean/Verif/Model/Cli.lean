import Verif.Model.RunSeyfert

/-!
Model of `argparse` for the programs in `bin` whose command lines are written by other parts of the code. Options are
known by all their names; abbreviations and `--name=value` are refused. A word is a value or the name of an option as in
`Verif.Model.RunSeyfert`.
-/

namespace Seyfert.Cli

open Orch (Pth pname)
open OrchIn (toPath)
open RunS (Val group parseInt)

/-- What an option takes: one text, path or number; at most one of `true` and `false` (`nargs='?', const=True,
type=str_to_bool`); at least one path (`nargs='+'`; the texts are kept as paths, as all that is done with them is to make
paths of them). For `cmd_line.py` L14-127 (see `Opt`). -/
inductive Kind where
  | text
  | path
  | int
  | bool
  | paths
  deriving DecidableEq

/-- An option as given to `add_argument`: names, destination, kind of the value, default, whether it is required
(`cmd_line.py` L14-127). -/
structure Opt where
  names : List Str
  dest : Str
  kind : Kind
  default : Val
  required : Bool
  deriving DecidableEq

/-- `s.lower()` for the letters of English. For `seyfert/utils/formatters.py` L5-8 (see `strToBool`). -/
def lower (s : Str) : Str := s.map Char.toLower

/-- `str_to_bool` (`seyfert/utils/formatters.py` L5-8). -/
def strToBool (s : Str) : Option Bool :=
  if lower s = "true".toList then some true else if lower s = "false".toList then some false else none

/-- The value of an option from the words after it; superfluous words are refused.
For `seyfert/utils/formatters.py` L5-8 (see `strToBool`). -/
def convert : Kind → List Str → Option Val
  | .text, [t] => some (.text t)
  | .path, [t] => some (.path (toPath t))
  | .int, [t] => (parseInt t).map .int
  | .bool, [] => some (.bool true)
  | .bool, [t] => (strToBool t).map .bool
  | .paths, t :: ts => some (.paths ((t :: ts).map toPath))
  | _, _ => none

/-- The option of a name. For `cmd_line.py` L14-127 (see `Opt`). -/
def find (opts : List Opt) (o : Str) : Option Opt := opts.find? fun x => decide (o ∈ x.names)

/-- Setting the options one after the other. For `cmd_line.py` L14-127 (see `Opt`). -/
def assign (opts : List Opt) (d : Dict Str Val) : List (Str × List Str) → Option (Dict Str Val)
  | [] => some d
  | (o, ts) :: gs => match find opts o with
    | none => none
    | some x => match convert x.kind ts with
      | none => none
      | some v => assign opts (PyDict.set d x.dest v) gs

/-- `vars(parser.parse_args())` on the words after the name of the program; `none` if the program ends with a message on
its usage. For `cmd_line.py` L14-127 (see `Opt`). -/
def parse (opts : List Opt) (argv : List Str) : Option (Dict Str Val) :=
  let g := group argv
  if g.1 ≠ [] then none
  else match assign opts (opts.map fun x => (x.dest, x.default)) g.2 with
    | none => none
    | some d =>
      if opts.all (fun x => !x.required || g.2.any fun q => decide (q.1 ∈ x.names)) then some d else none

end Seyfert.Cli
