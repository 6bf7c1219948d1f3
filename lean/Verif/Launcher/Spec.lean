import Verif.Launcher.Model

/-! # C72: what is expected from the rounding and from the parameters -/

namespace Verif.Launcher

/-- Contract of `round(number, 3)`: the closest thousandth. -/
structure IsRound3 (r : ℝ → ℝ) : Prop where
  near : ∀ x, |r x - x| ≤ 1 / 2000
  exact : ∀ n : ℤ, r (n / 1000) = n / 1000
  mono : Monotone r

/-- The largest wavenumber of a grid of `n` points on a length `L`. -/
noncomputable def kNyquist (n : ℝ) (L : ℝ) : ℝ := 2 * Real.pi / L * n / 2

/-- The horizontal and vertical wavenumber steps of the parameters. -/
noncomputable def Params.deltakx (p : Params) : ℝ := 2 * Real.pi / p.Lx
noncomputable def Params.deltaky (p : Params) : ℝ := 2 * Real.pi / p.Ly
noncomputable def Params.deltakz (p : Params) : ℝ := 2 * Real.pi / p.Lz

end Verif.Launcher
