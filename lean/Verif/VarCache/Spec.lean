import Verif.VarCache.Model

/-! # Specification for C12: the variables without any cache -/

namespace Verif.VarCache

variable {St V : Type}

def evalSubs (e : Access → String → Res V) : List (Access × String) → Res V ⊕ List V
  | [] => .inr []
  | (a, k) :: subs =>
    match e a k with
    | .ok v =>
      match evalSubs e subs with
      | .inr vs => .inr (v :: vs)
      | .inl r => .inl r
    | r => .inl r

/-- The value of a variable for the arrays `st`, computed from scratch. -/
def eval (sys : Sys St V) (st : St) : Nat → Access → String → Res V
  | 0, _, _ => .fuel
  | n + 1, .getVar, k =>
    match sys.stored k with
    | some f => .ok (f st)
    | none => eval sys st n .compute k
  | n + 1, .compute, k =>
    match sys.formula k with
    | none => .valueError
    | some (subs, f) =>
      match evalSubs (eval sys st n) subs with
      | .inl r => r
      | .inr vs => .ok (f st vs)

/-- `v` is the value of the variable `k` for the present arrays. -/
def IsValue (sys : Sys St V) (st : St) (a : Access) (k : String) (v : V) : Prop :=
  ∃ n, eval sys st n a k = .ok v

/-- History monitor: has a variable been read since the last step or clear, and was there a
write after such a read? -/
structure Mon where
  read : Bool
  dirty : Bool

def Mon.next (m : Mon) : Op St → Mon
  | .step _ => ⟨false, false⟩
  | .clear => ⟨false, false⟩
  | .write _ => ⟨m.read, m.dirty || m.read⟩
  | .read .. => ⟨true, m.dirty⟩

/-- No write has happened after a read within the present iteration (or since the last
`clear_computed`). -/
def clean (ops : List (Op St)) : Prop := (ops.foldl Mon.next ⟨false, false⟩).dirty = false

/-- the user asks for an exception for unknown keys (default of `compute`) -/
def Op.raises : Op St → Prop
  | .read _ _ _ _ raise => raise = true
  | _ => True

end Verif.VarCache
