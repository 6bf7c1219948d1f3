import Verif.Bench.Model

/-!
# Specification of the commands for the benchmarks

What a user expects: cells with equal sides, shapes with the same work for each process, the results of the solver asked
for, efficiencies relative to the reference of the same directory, percentages of a whole.
-/

namespace Verif.Bench.Spec

/-- The cells of the grid are squares. -/
def Square {Q : Type} [Field Q] (p : Oper Q) : Prop := p.Lx / p.nx = p.Ly / p.ny

/-- The cells of the grid are cubes. -/
def Cubic {Q : Type} [Field Q] (p : Oper Q) : Prop := Square p ∧ p.Lz / p.nz = p.Lx / p.nx

/-- The shapes proposed for the numbers of processes have the same number of points per process. -/
def SameWork (l : List (ℕ × List ℕ)) (work : ℚ) : Prop :=
  ∀ e ∈ l, ((e.2.prod : ℕ) : ℚ) / e.1 = work

/-- The measures follow the ideal strong scaling: the time is inversely proportional to the number of processes. -/
def IdealStrong (rows : List (Row ℚ)) (w : ℚ) : Prop := ∀ r ∈ rows, r.time = w / r.nproc

/-- The measures follow the ideal weak scaling: the same time for all the numbers of processes. -/
def IdealWeak (rows : List (Row ℚ)) (w : ℚ) : Prop := ∀ r ∈ rows, r.time = w

/-- The times of a profile: they are not negative, and the calls of a function are part of its time. -/
def Measured (fs : List (Func ℚ)) : Prop :=
  ∀ f ∈ fs, 0 ≤ f.time ∧ (∀ c ∈ f.callers, 0 ≤ c.2.2) ∧ (f.callers.map (·.2.2)).sum ≤ f.time

end Verif.Bench.Spec
