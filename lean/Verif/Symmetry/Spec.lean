import Verif.Symmetry.Model

/-! # C95, C96: specification -/

namespace Verif.Symmetry

open Verif.Fourier Verif.Vectors Verif.Energy Verif.Schemes Verif.EndToEnd Finset

noncomputable section

variable {D V : Type*} [Fintype D]

/-- The value at the point `x` of the field with the coefficients `a` on the modes `S`: `Σ a(k) exp(i k·x)`, with the wavevectors `δ k`. -/
def value (S : Finset (D → ℤ)) (δ : D → ℝ) (a : Fld D) (x : D → ℝ) : ℂ :=
  ∑ k ∈ S, a k * Complex.exp (Complex.I * ((∑ d, δ d * k d * x d : ℝ) : ℂ))

/-- The fields with another origin (the point `s`) and other units (the values of the variable `v` are multiplied by `a v`). -/
def transformed (δ s : D → ℝ) (a : V → ℝ) (u : V → Fld D) : V → Fld D := fun v k =>
  (a v : ℂ) * Complex.exp (Complex.I * ((∑ d, δ d * k d * s d : ℝ) : ℂ)) * u v k

/-- The viscosities when the lengths are multiplied by `ℓ` and the times by `τ`. -/
def newNu (ℓ τ : ℝ) (nu : Dissip.Nu) : Dissip.Nu where
  nu2 := nu.nu2 * ℓ ^ 2 / τ
  nu4 := nu.nu4 * ℓ ^ 4 / τ
  nu8 := nu.nu8 * ℓ ^ 8 / τ
  num4 := nu.num4 / ℓ ^ 4 / τ

/-- Two runs with the same scheme and phase shifts, the time steps of the second being those of the first multiplied by `τ`. The contents
of the arrays when they are allocated may be different. -/
def SameNumerics {W : Type*} (τ : ℝ) (c : Numerics D V) (c' : Numerics D W) : Prop :=
  c'.sc = c.sc ∧ c'.cfl = c.cfl ∧ (∀ m, c'.dt m = τ * c.dt m) ∧ ∀ m k, c'.ps m k = c.ps m k ∧ c'.pa m k = c.pa m k ∧ c'.pb m k = c.pb m k

end

end Verif.Symmetry
