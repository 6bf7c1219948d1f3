import Verif.Params.Model

/-! # Specification for C13 and C14: what can be read in a parameter tree -/

namespace Verif.Params

variable {V : Type}

/-- The container `params.a.b.c` for the path `["a", "b", "c"]`. -/
def sub : Node V → List String → Option (Node V)
  | n, [] => some n
  | n, t :: path =>
    match n.children.find t with
    | none => none
    | some c => sub c path

/-- The value of `params.a.b.key`. -/
def value (n : Node V) (path : List String) (key : String) : Option V :=
  match sub n path with
  | none => none
  | some c => lookupAttr c.attribs key

/-- Two trees that cannot be distinguished: same containers, same values. -/
def Same (n m : Node V) : Prop :=
  ∀ path, (sub n path).isSome = (sub m path).isSome ∧ ∀ key, value n path key = value m path key

mutual
  /-- tags are distinct in each container (a `dict` in Python) -/
  def Node.WF : Node V → Prop
    | .mk _ c => c.WF
  def Forest.WF : Forest V → Prop
    | .nil => True
    | .cons t n rest => rest.find t = none ∧ n.WF ∧ rest.WF
end

end Verif.Params
