import Verif.Symmetry.Model
import Verif.Energy.Spec

/-! # C110: specification

What "the fields are real" means, in terms of the arrays in physical space. -/

namespace Verif.Reality

open Verif.Fourier Verif.Energy Verif.Schemes Verif.EndToEnd Verif.Symmetry Finset

noncomputable section

variable {D V : Type*} [Fintype D] [DecidableEq D]

/-- The fields with the coefficients `u` have their modes in `S` and take real values at all the points of the grid `n`: nothing is lost
when they are stored in arrays of real numbers. -/
structure RealArrays (n : D → ℕ) (S : Finset (D → ℤ)) (u : V → Fld D) : Prop where
  modes : ∀ v k, k ∉ S → u v k = 0
  real : ∀ v (j : Pt n), (gridVal n S (u v) j).im = 0

/-- The modes kept: with each mode its opposite, and no two of them are the same on the grid, whose sizes are positive. -/
structure Grid (n : D → ℕ) (S : Finset (D → ℤ)) : Prop where
  pos : ∀ d, 0 < n d
  opposite : ∀ k ∈ S, -k ∈ S
  distinct : Distinct n S

/-- What the theorems need from the numerical parameters: the time steps are not zero, the time step is fixed without `USE_CFL`, and the
phase shifts correspond to translations by real distances (opposite modes have conjugate shifts). -/
structure Proper (c : Numerics D V) : Prop where
  dt : ∀ k, c.dt k ≠ 0
  fix : c.cfl = false → ∀ k, c.dt k = c.dt 0
  ps : ∀ m k, c.ps m (-k) = (starRingEnd ℂ) (c.ps m k)
  pa : ∀ m k, c.pa m (-k) = (starRingEnd ℂ) (c.pa m k)
  pb : ∀ m k, c.pb m (-k) = (starRingEnd ℂ) (c.pb m k)

/-- Real initial fields and real forces give real fields after every step. -/
def StaysReal (n : D → ℕ) (S : Finset (D → ℤ)) (run : (ℕ → V → Fld D) → (V → Fld D) → ℕ → V → Fld D) : Prop :=
  ∀ F u0, (∀ m, RealArrays n S (F m)) → RealArrays n S u0 → ∀ k, RealArrays n S (run F u0 k)

end

end Verif.Reality
