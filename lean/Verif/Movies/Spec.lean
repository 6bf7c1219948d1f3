import Verif.Movies.Model

/-! Specification vocabulary for C71. -/

namespace Verif.Movies

variable {Q : Type*} [Field Q] [LinearOrder Q]

/-- The list `l` is `a`, `a + d`, `a + 2 d`, ..., stopped before `b`. -/
def Until (a b d : Q) (l : List Q) : Prop :=
  (∀ i : ℕ, i < l.length ↔ a + i * d < b) ∧ ∀ i : ℕ, i < l.length → l[i]? = some (a + i * d)

/-- Files saved every `d` from the time `t0`. -/
def regular (t0 d : Q) (n : ℕ) : List Q := (List.range n).map fun i : ℕ => t0 + i * d

end Verif.Movies
