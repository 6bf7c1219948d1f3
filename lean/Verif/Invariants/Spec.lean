import Verif.Symmetry.Model
import Verif.Galerkin.Spec

/-! # C101: specification

What is conserved: the mean over the points of the grid of a field, and the energies. -/

namespace Verif.Invariants

open Verif.Fourier Verif.Vectors Verif.Energy Verif.Schemes Verif.EndToEnd Verif.Symmetry Finset

noncomputable section

/-- Mean over the points of the grid of the field with the coefficients `a` on `S`. -/
def meanValue {D : Type*} [Fintype D] [DecidableEq D] (n : D → ℕ) (S : Finset (D → ℤ)) (a : Fld D) : ℂ :=
  (∑ j : Pt n, gridVal n S a j) / ∏ d, (n d : ℂ)

/-- What the theorems need from the numerical parameters: the time steps are not zero, the time step is fixed without `USE_CFL`, and the
phase shifts do not change the mean (`exp(0) = 1`). -/
structure Proper {D V : Type*} (c : Numerics D V) : Prop where
  dt : ∀ k, c.dt k ≠ 0
  fix : c.cfl = false → ∀ k, c.dt k = c.dt 0
  ps : ∀ m, c.ps m 0 = 1
  pa : ∀ m, c.pa m 0 = 1
  pb : ∀ m, c.pb m 0 = 1

/-- The mean of the variable `v` changes only by the mean of its force: it is the initial mean plus the sum of the means of the forces
multiplied by the time steps. -/
def MeanFollowsForce {D V : Type*} [Fintype D] [DecidableEq D] (n : D → ℕ) (S : Finset (D → ℤ)) (dt : ℕ → ℝ) (F : ℕ → V → Fld D)
    (u : ℕ → V → Fld D) (v : V) : Prop :=
  ∀ k, meanValue n S (u k v) = meanValue n S (u 0 v) + ∑ m ∈ range k, dt m * meanValue n S (F m v)

end

end Verif.Invariants
