import Verif.Fourier.Model

/-! # Specification: exact products and alias weights -/

namespace Verif.Fourier

open Finset

noncomputable section

variable {D : Type*} [Fintype D] [DecidableEq D]

/-- Coefficient `k` of the product of two trigonometric polynomials (no grid). -/
def exactProduct (S : Finset (D → ℤ)) (u v : (D → ℤ) → ℂ) (k : D → ℤ) : ℂ :=
  ∑ p ∈ S, ∑ q ∈ S, if p + q = k then u p * v q else 0

/-- `p + q` is seen as `k` on the grid. -/
def Seen (n : D → ℕ) (p q k : D → ℤ) : Prop := ∀ d, (n d : ℤ) ∣ p d + q d - k d

instance (n : D → ℕ) (p q k : D → ℤ) : Decidable (Seen n p q k) := by
  unfold Seen; infer_instance

/-- how many times the triad is aliased in each direction -/
def aliasVec (n : D → ℕ) (p q k : D → ℤ) : D → ℤ := fun d => (p d + q d - k d) / n d

/-- Weight of the triad `(p, q, k)` in the average of two evaluations shifted by `a` and by
`a` plus or minus half a cell in each direction: zero if the triad is not seen on the grid or
is aliased an odd number of times. -/
def pairWeight (n : D → ℕ) (a : D → ℝ) (p q k : D → ℤ) : ℂ :=
  if Seen n p q k ∧ Even (∑ d, aliasVec n p q k d) then
    Complex.exp (2 * Real.pi * Complex.I * ∑ d, (a d : ℂ) * (aliasVec n p q k d : ℂ))
  else 0

end

end Verif.Fourier
