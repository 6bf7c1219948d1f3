import Verif.BudgetCurves.Model
import Mathlib.Analysis.Calculus.Deriv.Basic

/-! # C100: specification -/

namespace Verif.BudgetCurves

/-- The arrays are the records, at increasing times, of an energy `E` whose derivative is `B`, and of its budget. -/
structure Records (E B : ℝ → ℝ) (d : Means) : Prop where
  inc : ∀ i, i + 1 < d.n → d.t i < d.t (i + 1)
  energy : ∀ i < d.n, d.E i = E (d.t i)
  budget : ∀ i < d.n, d.budget i = B (d.t i)
  law : ∀ t, d.t 0 ≤ t → t ≤ d.t (d.n - 1) → HasDerivAt E (B t) t

/-- The budget varies by at most `K` per unit of time. -/
def SlowlyVarying (K : ℝ) (B : ℝ → ℝ) : Prop := ∀ s t, |B s - B t| ≤ K * |s - t|

end Verif.BudgetCurves
