import Mathlib.Analysis.SpecialFunctions.Sqrt

/-! # Specification for the finite-difference operators -/

namespace Verif.FiniteDiff

/-- The value at the integer position `z` of the periodic extension of an array. -/
def per {K : Type} {n : ℕ} [NeZero n] (a : Fin n → K) (z : ℤ) : K :=
  a ⟨(z % n).toNat, by
    have := NeZero.pos n
    have h1 := Int.emod_nonneg z (by omega : (n : ℤ) ≠ 0)
    have h2 := Int.emod_lt_of_pos z (by omega : (0 : ℤ) < n)
    omega⟩

/-- Root mean square of an array. -/
noncomputable def rms {n : ℕ} (a : Fin n → ℝ) : ℝ := √((∑ i, a i ^ 2) / n)

/-- `s t x` is a solution, periodic of period `Lx`, of `∂t s + U ∂x s = nu ∂xx s` with smooth derivatives:
`sx`, `sxx`, ... are its derivatives. -/
structure Solution (Lx nu U : ℝ) where
  s : ℝ → ℝ → ℝ
  sx : ℝ → ℝ → ℝ
  sxx : ℝ → ℝ → ℝ
  sxxx : ℝ → ℝ → ℝ
  sxxxx : ℝ → ℝ → ℝ
  st : ℝ → ℝ → ℝ
  stt : ℝ → ℝ → ℝ
  sttt : ℝ → ℝ → ℝ
  periodic : ∀ t x, s t (x + Lx) = s t x
  dx1 : ∀ t x, HasDerivAt (s t) (sx t x) x
  dx2 : ∀ t x, HasDerivAt (sx t) (sxx t x) x
  dx3 : ∀ t x, HasDerivAt (sxx t) (sxxx t x) x
  dx4 : ∀ t x, HasDerivAt (sxxx t) (sxxxx t x) x
  dt1 : ∀ t x, HasDerivAt (fun t => s t x) (st t x) t
  dt2 : ∀ t x, HasDerivAt (fun t => st t x) (stt t x) t
  dt3 : ∀ t x, HasDerivAt (fun t => stt t x) (sttt t x) t
  equation : ∀ t x, st t x + U * sx t x = nu * sxx t x

end Verif.FiniteDiff
