import Verif.Fourier.Model

/-!
# Specification for C79

A real function on the periodic domain, with finitely many Fourier modes. Nothing here refers to the program.
-/

namespace Verif.ModifResol

open Verif.Fourier

variable {D : Type*} [Fintype D] [DecidableEq D]

/-- The function of coefficients `a` on the modes `S` is real. -/
def IsReal (S : Finset (D → ℤ)) (a : (D → ℤ) → ℂ) : Prop :=
  (∀ k ∈ S, -k ∈ S) ∧ ∀ k ∈ S, a (-k) = (starRingEnd ℂ) (a k)

/-- The grid resolves the modes: at most half of the number of points in each direction, not included. -/
def Resolved (n : D → ℕ) (S : Finset (D → ℤ)) : Prop := ∀ k ∈ S, ∀ d, 2 * |k d| < n d

/-- The field `X` contains the values of the function at the points of the grid `n`. -/
def Contains (n : D → ℕ) (S : Finset (D → ℤ)) (a : (D → ℤ) → ℂ) (X : Pt n → ℝ) : Prop :=
  ∀ j, (X j : ℂ) = gridVal n S a j

/-- Points of two grids at the same place of the domain. -/
def SamePlace (n n' : D → ℕ) (j : Pt n) (j' : Pt n') : Prop := ∀ d, (j d : ℕ) * n' d = (j' d : ℕ) * n d

end Verif.ModifResol
