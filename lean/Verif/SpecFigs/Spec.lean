import Mathlib.Data.Real.Basic
import Mathlib.Algebra.BigOperators.Intervals
import Mathlib.Order.Interval.Finset.Nat

/-! # Specification of C102 -/

namespace Verif.SpecFigs

/-- `i` is the number of the record closest to `t` (the first one). -/
def IsClosest (times : List ℝ) (t : ℝ) (i : ℕ) : Prop :=
  ∃ x, times[i]? = some x ∧ (∀ y ∈ times, |x - t| ≤ |y - t|) ∧ ∀ (j : ℕ) (y : ℝ), j < i → times[j]? = some y → |x - t| < |y - t|

/-- The mean over the records number `i0` to `i1`. -/
noncomputable def timeMean {m : ℕ} (s : ℕ → Fin m → ℝ) (i0 i1 : ℕ) (i : Fin m) : ℝ :=
  (∑ j ∈ Finset.Icc i0 i1, s j i) / (i1 + 1 - i0 : ℕ)

/-- The records are `s 0, s 1, ...`, as many as the times. -/
def Records {m : ℕ} (times : List ℝ) (l : List (Fin m → ℝ)) (s : ℕ → Fin m → ℝ) : Prop :=
  l = (List.range times.length).map s

/-- Records every `τ`. -/
def Regular (times : List ℝ) (t0 τ : ℝ) : Prop := times = (List.range times.length).map fun i : ℕ => t0 + (i : ℝ) * τ

end Verif.SpecFigs
