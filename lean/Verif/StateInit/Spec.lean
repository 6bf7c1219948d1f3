import Verif.StateInit.Model

/-!
# Specification for C10 and C11

"The call did not ignore the field": the arrays are symbolic expressions, the given fields are
the variables `var key`, and a field is taken into account when its variable occurs in the
expression stored for at least one variable of the state.
-/

namespace Verif.StateInit

/-- Symbolic arrays. -/
inductive Term
  | var (k : String)
  | zero
  | un (op : String) (a : Term)
  | bin (op : String) (a b : Term)
  deriving DecidableEq, Repr

def symOps : Ops Term := ⟨.zero, .un, .bin⟩

/-- `var k` occurs in the expression. -/
def Term.mentions (k : String) : Term → Prop
  | .var k' => k = k'
  | .zero => False
  | .un _ a => a.mentions k
  | .bin _ a b => a.mentions k ∨ b.mentions k

/-- keyword arguments with symbolic values -/
def symKw (keys : List String) : Kw Term := keys.map (fun k => (k, Term.var k))

/-- Every given field occurs in the state, unless an exception is raised. -/
def KeepsAll (keysState : List String) (initSpect : Fields Term → Kw Term → Out Term) : Prop :=
  ∀ (s : Fields Term) (keys : List String), keys.Nodup →
    (initSpect s (symKw keys)).2 = none →
    ∀ k ∈ keys, ∃ k' ∈ keysState, ((initSpect s (symKw keys)).1.spect k').mentions k

/-- The state to which a list of keywords must lead: the given ones, and zero. -/
def expected {V : Type} (zero : V) (kw : Kw V) (k : String) : V :=
  match kw.find? (fun p => p.1 = k) with
  | some p => p.2
  | none => zero

end Verif.StateInit
