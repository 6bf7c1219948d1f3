import Verif.Sw1lForcing.Model

/-! # Specification vocabulary for the forcings of sw1l -/

namespace Verif.Sw1lForcing

open Verif.Sw1l Finset

noncomputable section

/-- Quadratic energy of a state of sw1l: kinetic energy and available potential energy, summed over the
stored modes `M` with their weights. -/
def energy (M : Finset Mode) (w : Mode → ℝ) (c2 : ℝ) (s : Mode → UEta) : ℝ :=
  ∑ k ∈ M, w k * ((‖(s k).ux‖ ^ 2 + ‖(s k).uy‖ ^ 2 + c2 * ‖(s k).eta‖ ^ 2) / 2)

/-- The state after one explicit step of length `dt` with the force `F` alone. -/
def kick (dt : ℝ) (s F : Mode → UEta) : Mode → UEta := fun k =>
  ⟨(s k).ux + dt * (F k).ux, (s k).uy + dt * (F k).uy, (s k).eta + dt * (F k).eta⟩

/-- Mean input of quadratic energy during one step. -/
def input (M : Finset Mode) (w : Mode → ℝ) (c2 dt : ℝ) (s F : Mode → UEta) : ℝ :=
  (energy M w c2 (kick dt s F) - energy M w c2 s) / dt

/-- The raw forcing acts only on kept modes and not on the mean flow. -/
def Region (M S : Finset Mode) (F : Mode → ℂ) : Prop := ∀ k ∈ M, F k ≠ 0 → k ∈ S ∧ k ≠ 0

end

end Verif.Sw1lForcing
