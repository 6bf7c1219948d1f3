import Verif.Cadence.Model

/-! Specification vocabulary for C15: nothing here refers to how outputs are implemented. -/

namespace Verif.Cadence

variable {K : Type*} [Field K] [LinearOrder K] [FloorRing K]

/-- `Selects ready last times l`: starting from the reference time `last`, the list `l` is
what one gets by taking again and again the first of the following `times` that is `ready`
with respect to the previously taken one: no ready time is skipped, nothing else is taken. -/
inductive Selects (ready : K → K → Prop) : K → List K → List K → Prop
  | done {last : K} {times : List K} :
      (∀ t ∈ times, ¬ ready last t) → Selects ready last times []
  | take {last s : K} {pre post l : List K} :
      (∀ t ∈ pre, ¬ ready last t) → ready last s → Selects ready s post l →
      Selects ready last (pre ++ s :: post) (s :: l)

/-- "one period has elapsed between `last` and `t`" -/
def PeriodElapsed (p : K) (last t : K) : Prop := p ≤ t - last

/-- `b` is in a later period bin `[n p, (n+1) p)` than `a`. -/
def LaterBin (p : K) (a b : K) : Prop := ∃ n : ℤ, a < n * p ∧ n * p ≤ b

/-- The same with the tolerance of the code: `b` may be up to `e` before the bin. -/
def LaterBinTol (p e : K) (a b : K) : Prop := ∃ n : ℤ, a < n * p ∧ n * p ≤ b + e

/-- Consecutive calls, starting at `a`, are never more than `d` apart. -/
def GapsAtMost (d a : K) (l : List K) : Prop := List.IsChain (fun x y => y - x ≤ d) (a :: l)

/-- Consecutive calls, starting at `a`, are at least `d` apart. -/
def GapsAtLeast (d a : K) (l : List K) : Prop := List.IsChain (fun x y => x + d ≤ y) (a :: l)

/-- Non-decreasing times, none before `a`. -/
def TimesFrom (a : K) (l : List K) : Prop := List.IsChain (· ≤ ·) (a :: l)

end Verif.Cadence
