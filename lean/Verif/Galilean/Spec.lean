import Verif.EndToEnd.SpecMore
import Verif.Symmetry.Spec

/-!
# C104: specification

The simulations are those of `Verif.EndToEnd` (no new code is modelled).
-/

namespace Verif.Galilean

open Verif.Fourier Verif.Energy Finset

noncomputable section

variable {D V : Type*} [Fintype D]

/-- The fields seen in a frame in which the flow has in addition the uniform velocity `U`: at the time `t` they are translated by
`U t`, and the variable `v` has in addition the uniform value `m v`. -/
def moving (δ U : D → ℝ) (m : V → ℝ) (u : ℝ → V → Fld D) (t : ℝ) : V → Fld D := fun v k =>
  Complex.exp (-(Complex.I * ((∑ d, δ d * k d * (U d * t) : ℝ) : ℂ))) * u t v k + if k = 0 then (m v : ℂ) else 0

/-- A force which does not vary in the direction of `U`: its wavevectors are perpendicular to `U`. -/
def NotAlong (δ U : D → ℝ) (F : V → Fld D) : Prop := ∀ v k, F v k ≠ 0 → ∑ d, δ d * k d * U d = 0

end

end Verif.Galilean
