import Verif.Model.Args

/-! What objects with options should do. -/

namespace Seyfert.Args

/-- The value of a name after a history of changes, the last change first. -/
def latest (start : Str → Option Val) : List Op → Str → Option Val
  | [], n => start n
  | .setAttr m v :: l, n => if n = m then some v else latest start l n
  | .setItem m v :: l, n => if n = m then some v else latest start l n
  | .delAttr m :: l, n => if n = m then none else latest start l n
  | .delItem m :: l, n => if n = m then none else latest start l n
  | .update d :: l, n => match d.lookup n with
    | some v => some v
    | none => latest start l n

/-- A value after the types were changed; `none` if that is not possible. -/
def asPath : Val → Option Val
  | .none => some .none
  | .text s => some (.path (OrchIn.toPath s))
  | .path p => some (.path p)
  | _ => none

/-- The dictionaries among the arguments of a history have each key once. -/
def Regular : Op → Prop
  | .update d => (d.map (·.1)).Nodup
  | _ => True

/-- The value of an option after the change of types. -/
def want (pl : Str → Bool) (n : Str) (v : Val) : Option Val := if pl n then asPath v else some v

/-- The step as a number; `none` if that is not possible. -/
def asInt : Val → Option Val
  | .none => some .none
  | .text s => (RunS.parseInt s).map .int
  | .path _ => none
  | .int n => some (.int n)
  | .bool b => some (.int (if b then 1 else 0))

/-- What an option should be in an object of a class. -/
def final (c : Cls) (n : Str) (v : Val) : Option Val :=
  if c.hasStep = true ∧ n = "step".toList then asInt v else want c.pathLike n v

/-- The classes of the programs. -/
def classes : List Cls := [job, main, cl, der, fisher]

/-- The arguments given. -/
def Given.items : Given → Option (Dict Str Val)
  | .dict d => some d
  | .ns d => some d
  | .other => none

end Seyfert.Args
