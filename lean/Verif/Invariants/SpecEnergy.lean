import Verif.Convergence.Spec
import Verif.Dissip.Model

/-! # C101: specification, energies -/

namespace Verif.Invariants

open Verif.Schemes Verif.Convergence

noncomputable section

/-- For all the runs with time steps smaller than `h` (fixed without the CFL condition), at all the steps until the time `T`: the state `a`
meets `R a ε`, with an error `ε` smaller than a constant times `h ^ order`. -/
def AlongRuns {ι : Type*} (order : ℕ) (T : ℝ) (useCFL : Bool) (u : (ℕ → ℝ) → ℕ → Arr ι) (R : Arr ι → ℝ → Prop) : Prop :=
  ∃ C h0 : ℝ, 0 < h0 ∧ ∀ (h : ℝ) (dt : ℕ → ℝ), h ≤ h0 → (∀ k, 0 < dt k ∧ dt k ≤ h) →
    (useCFL = false → ∀ k, dt k = dt 0) → ∀ k : ℕ, elapsed dt k ≤ T → R (u dt k) (C * h ^ order)

/-- `x` is not larger than `y`, and is `y` if there is no viscosity, up to an error `ε`. -/
def Decays (nu : Dissip.Nu) (x y ε : ℝ) : Prop := x ≤ y + ε ∧ (nu.nu2 = 0 → nu.nu4 = 0 → nu.nu8 = 0 → |x - y| ≤ ε)

end

end Verif.Invariants
