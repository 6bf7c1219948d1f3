import Verif.Galerkin.Spec
import Verif.Symmetry.Spec

/-! # C96: specification

Flows in three dimensions which are flows in two dimensions. -/

namespace Verif.Symmetry

open Verif.Fourier Verif.Vectors Verif.Energy Verif.Galerkin Verif.Schemes Verif.EndToEnd Finset

noncomputable section

/-- A horizontal flow which does not depend on `z`, without divergence and without mean velocity. -/
structure Horizontal (δ : Fin 3 → ℝ) (u : Fin 3 → Fld (Fin 3)) : Prop where
  invariant : ∀ v q, q 2 ≠ 0 → u v q = 0
  noVz : ∀ q, u 2 q = 0
  divFree : ∀ q, pd δ 0 (u 0) q + pd δ 1 (u 1) q = 0
  mean : ∀ v, u v 0 = 0

/-- The vertical vorticity `∂x vy - ∂y vx` of the modes `kz = 0`. -/
def vorticityZ (δ : Fin 3 → ℝ) (u : Fin 3 → Fld (Fin 3)) : Unit → Fld (Fin 2) := fun _ k =>
  pd δ 0 (u 1) ![k 0, k 1, 0] - pd δ 1 (u 0) ![k 0, k 1, 0]

/-- A stratified flow in the planes `(x, z)` which does not depend on `y`, without divergence, mean velocity and mean buoyancy; the
variables are `vx`, `vy`, `vz` and `b`. -/
structure Vertical (δ : Fin 3 → ℝ) (u : Fin 4 → Fld (Fin 3)) : Prop where
  invariant : ∀ v q, q 1 ≠ 0 → u v q = 0
  noVy : ∀ q, u 1 q = 0
  divFree : ∀ q, pd δ 0 (u 0) q + pd δ 2 (u 2) q = 0
  mean : ∀ v, u v 0 = 0

/-- The vorticity `∂x vz - ∂z vx` (0) and the buoyancy (1) of the modes `ky = 0`, in the plane `(x, z)`. -/
def inPlane (δ : Fin 3 → ℝ) (u : Fin 4 → Fld (Fin 3)) : Fin 2 → Fld (Fin 2)
  | 0 => fun k => pd δ 0 (u 2) ![k 0, 0, k 1] - pd δ 2 (u 0) ![k 0, 0, k 1]
  | 1 => fun k => u 3 ![k 0, 0, k 1]

/-- The same scheme, time steps and phase shifts; the modes `k` in two dimensions are the modes `e k` in three dimensions. -/
def SliceNumerics {V W : Type*} (e : (Fin 2 → ℤ) → Fin 3 → ℤ) (c2 : Numerics (Fin 2) V) (c3 : Numerics (Fin 3) W) : Prop :=
  c3.sc = c2.sc ∧ c3.cfl = c2.cfl ∧ c3.dt = c2.dt ∧
    ∀ m k, c3.ps m (e k) = c2.ps m k ∧ c3.pa m (e k) = c2.pa m k ∧ c3.pb m (e k) = c2.pb m k

end

end Verif.Symmetry
