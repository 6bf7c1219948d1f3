import Verif.Fourier.Model
import Verif.Vectors.Model
import Mathlib.Algebra.BigOperators.Fin

/-!
# Specification for C52: the documented turbulence model

`∂t v_a = ... + ∂_b (2 ν_T S_ab)`, `S_ab = (∂_a v_b + ∂_b v_a) / 2`, `ν_T = C Δ² sqrt(2 S_ab S_ab)`,
`Δ = Lx / nx` (documentation of `SmagorinskyModel`, smagorinsky.py 11-38), for the values on the grid.
-/

namespace Verif.Smagorinsky.Doc

open Verif.Fourier Finset

noncomputable section

variable (n : Fin 3 → ℕ) (S : Finset (Fin 3 → ℤ)) (δ : Fin 3 → ℝ)

/-- Component of a vector. -/
def comp (v : (Fin 3 → ℤ) → Vectors.V3) (a : Fin 3) (k : Fin 3 → ℤ) : ℂ :=
  ![(v k).x, (v k).y, (v k).z] a

/-- `∂_a v_b` at a grid point. -/
def dv (v : (Fin 3 → ℤ) → Vectors.V3) (a b : Fin 3) (j : Pt n) : ℝ :=
  (∑ k ∈ S, Complex.I * ((δ a * k a : ℝ) : ℂ) * comp v b k * chi n k j).re

/-- `S_ab`. -/
def strain (v : (Fin 3 → ℤ) → Vectors.V3) (a b : Fin 3) (j : Pt n) : ℝ :=
  (dv n S δ v a b j + dv n S δ v b a j) / 2

/-- `S_ab S_ab`. -/
def strain2 (v : (Fin 3 → ℤ) → Vectors.V3) (j : Pt n) : ℝ :=
  ∑ a, ∑ b, strain n S δ v a b j ^ 2

/-- `ν_T`. -/
def nuT (C Lx : ℝ) (v : (Fin 3 → ℤ) → Vectors.V3) (j : Pt n) : ℝ :=
  C * (Lx / n 0) ^ 2 * Real.sqrt (2 * strain2 n S δ v j)

/-- The documented term: `∂_b (2 ν_T S_ab)`, component `a`, mode `k`. -/
def term (C Lx : ℝ) (v : (Fin 3 → ℤ) → Vectors.V3) (a : Fin 3) (k : Fin 3 → ℤ) : ℂ :=
  ∑ b, Complex.I * ((δ b * k b : ℝ) : ℂ)
    * fftCoef n (fun j => ((2 * nuT n S δ C Lx v j * strain n S δ v a b j : ℝ) : ℂ)) k

/-- Mean over the grid of `2 ν_T S_ab S_ab`: the dissipation of the documented term. -/
def dissipation (C Lx : ℝ) (v : (Fin 3 → ℤ) → Vectors.V3) : ℝ :=
  (∑ j : Pt n, 2 * nuT n S δ C Lx v j * strain2 n S δ v j) / ∏ d, (n d : ℝ)

end

end Verif.Smagorinsky.Doc
