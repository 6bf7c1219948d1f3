/-!
# Model of the computed variables and of their cache

Models `StateBase.get_var`, `clear_computed` (`fluidsim/base/state.py:74-147, 275-304`) and the
`compute` methods of the solvers (e.g. `ns2d/state.py:48-88`, `ns3d/state.py:54-108`), which all
have the same skeleton: test of the cache, a formula that may call `self.compute(key2)` or
`self.get_var(key2)`, error branch, and storage in the two dictionaries.

The solver is arbitrary: which keys are stored, and which formula each computable key has.
Python's recursion limit is the fuel argument (`Res.fuel`: `RecursionError`).
-/

namespace Verif.VarCache

inductive Access
  | getVar
  | compute
  deriving DecidableEq

/-- A solver: the stored variables, and the formulas of the computable ones (the keys that the
formula asks for, in order, and its value). -/
structure Sys (St V : Type) where
  stored : String → Option (St → V)
  formula : String → Option (List (Access × String) × (St → List V → V))
  zeros : V

/-- The state object: the arrays, `sim.time_stepping.it`, `vars_computed`, `it_computed`. -/
structure Obj (St V : Type) where
  st : St
  it : Nat
  vars : String → Option V
  itc : String → Option Nat

inductive Res (V : Type)
  | ok (v : V)
  | valueError
  | fuel

variable {St V : Type}

/-- ns2d/state.py:84-86 (the two dictionaries) and state.py:145-146 -/
def Obj.save (o : Obj St V) (k : String) (v : V) : Obj St V :=
  { o with
    vars := fun k' => if k' = k then some v else o.vars k'
    itc := fun k' => if k' = k then some o.it else o.itc k' }

/-- `key in self.vars_computed and it == self.it_computed[key]` -/
def Obj.cached (o : Obj St V) (k : String) : Option V :=
  match o.vars k with
  | none => none
  | some v => if o.itc k = some o.it then some v else none

/-- the sub-calls of a formula, in order -/
def subsLoop (c : Obj St V → Access → String → Obj St V × Res V) (o : Obj St V) :
    List (Access × String) → Obj St V × (Res V ⊕ List V)
  | [] => (o, .inr [])
  | (a, k) :: subs =>
    match c o a k with
    | (o, .ok v) =>
      match subsLoop c o subs with
      | (o, .inr vs) => (o, .inr (v :: vs))
      | (o, .inl r) => (o, .inl r)
    | (o, r) => (o, .inl r)

/-- `get_var(key)` (state.py:135-147, 289-304) or
`compute(key, SAVE_IN_DICT=save, RAISE_ERROR=raise)`. -/
def call (sys : Sys St V) : Nat → Obj St V → Access → String → Bool → Bool → Obj St V × Res V
  | 0, o, _, _, _, _ => (o, .fuel)
  | n + 1, o, .getVar, k, _, _ =>
    match sys.stored k with
    | some f => (o, .ok (f o.st))
    | none =>
      match o.cached k with
      | some v => (o, .ok v)
      | none =>
        match call sys n o .compute k true true with
        | (o, .ok v) => (o.save k v, .ok v)
        | r => r
  | n + 1, o, .compute, k, save, raise =>
    match o.cached k with
    | some v => (o, .ok v)
    | none =>
      match sys.formula k with
      | none =>
        if raise then (o, .valueError)
        else (if save then o.save k sys.zeros else o, .ok sys.zeros)
      | some (subs, f) =>
        match subsLoop (fun o a k' => call sys n o a k' true true) o subs with
        | (o, .inl r) => (o, r)
        | (o, .inr vs) =>
          let v := f o.st vs
          (if save then o.save k v else o, .ok v)

/-- Operations on a state object. `step`: a time step (the arrays change and `it` is
incremented); `write`: the arrays are changed by the user (`init_statespect_from`, `state[key] =
...`, ...); `clear`: `clear_computed()`; `read`. -/
inductive Op (St : Type)
  | step (f : St → St)
  | write (f : St → St)
  | clear
  | read (a : Access) (k : String) (fuel : Nat) (save raise : Bool)

def apply (sys : Sys St V) (o : Obj St V) : Op St → Obj St V
  | .step f => { o with st := f o.st, it := o.it + 1 }
  | .write f => { o with st := f o.st }
  | .clear => { o with vars := fun _ => none }
  | .read a k n save raise => (call sys n o a k save raise).1

/-- a new state object: empty dictionaries (state.py:69-70) -/
def init (st : St) (it : Nat) : Obj St V := ⟨st, it, fun _ => none, fun _ => none⟩

def run (sys : Sys St V) (o : Obj St V) (ops : List (Op St)) : Obj St V := ops.foldl (apply sys) o

end Verif.VarCache
