import Verif.PhysFiles.Model

/-! Specification vocabulary for C17, C18, C19. -/

namespace Verif.PhysFiles

/-- Lexicographic order of file names by code points (Python's `sorted` of strings). -/
def NameLt (a b : Str) : Prop := List.Lex (· < ·) a b

/-- `i` is the position of a time at minimal distance from `t`. -/
def IsClosest {K : Type*} [Field K] [LinearOrder K] (times : List K) (t : K) (i : ℕ) : Prop :=
  ∃ x, times[i]? = some x ∧ ∀ y ∈ times, |x - t| ≤ |y - t|

/-- The straight line through `(t0, a)` and `(t1, b)` at time `t`. -/
def line {K : Type*} [Field K] {V : Type*} [AddCommGroup V] [Module K V] (t0 t1 : K) (a b : V)
    (t : K) : V := a + ((t - t0) / (t1 - t0)) • (b - a)

end Verif.PhysFiles
