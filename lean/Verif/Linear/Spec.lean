import Verif.Linear.Model
import Mathlib.Analysis.Calculus.Deriv.Basic
import Mathlib.Algebra.Module.LinearMap.Basic
import Mathlib.Algebra.Module.Submodule.Bilinear

/-! # C69: specification -/

namespace Verif.Linear

/-- The total time of a sequence of steps. -/
def duration {ι : Type*} (l : List (Schemes.StepIn ι)) : ℝ := (l.map Schemes.StepIn.dt).sum

/-- The documented equations of waves2d for one mode (waves2d/solver.py 44-47), without damping. -/
def WaveEq (Omega : ℝ) (f g : ℝ → ℂ) : Prop :=
  ∀ t, HasDerivAt f (g t) t ∧ HasDerivAt g (-(Omega : ℂ) ^ 2 * f t) t

/-! ## Föppl-von Kármán

`B` is the square of the Laplacian and `br` the bracket of Monge-Ampère, for the coordinates divided by the length of the
plate. -/

section
variable {F : Type*} [AddCommGroup F] [Module ℝ F] (B : F →ₗ[ℝ] F) (br : F →ₗ[ℝ] F →ₗ[ℝ] F)

/-- The non-dimensional equations (plate2d/solver.py 93-112): `a` is the acceleration. -/
def Adim (nu4 : ℝ) (a w z chi : F) : Prop :=
  a = -B z + br z chi - nu4 • B w ∧ B chi = -br z z

/-- The equations of a plate of density `rho`, of Young modulus `E`, of Poisson modulus `sigma`, of thickness `h`,
for coordinates `x = L x'`: `rho h z_tt = - D Δ²z + {z, chi} - rho h nu4 Δ²w`, `Δ²chi = - E h / 2 {z, z}`,
`D = E h^3 / (12 (1 - sigma^2))`. -/
def Dim (E rho sigma h L nu4 : ℝ) (a w z chi : F) : Prop :=
  (rho * h) • a = -(E * h ^ 3 / (12 * (1 - sigma ^ 2)) / L ^ 4) • B z + (1 / L ^ 4) • br z chi -
      (rho * h * nu4 / L ^ 4) • B w ∧
    (1 / L ^ 4) • B chi = -(E * h / 2 / L ^ 4) • br z z

end

/-- The documented coefficient (plate2d/dimensional.py 36). -/
noncomputable def coefC (E rho sigma h : ℝ) : ℝ := E * h ^ 2 / (12 * rho * (1 - sigma ^ 2))

end Verif.Linear
