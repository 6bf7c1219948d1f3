import Verif.Symmetry.SpecMirror

/-! # C95, C98 for plate2d -/

namespace Verif.Symmetry

open Verif.Fourier Finset

/-- The truncation keeps less than a half of the modes, and `H` are the modes of the arrays. -/
structure Half (n : Fin 2 → ℕ) (S H : Finset (Fin 2 → ℤ)) : Prop where
  pos : ∀ d, 0 < n d
  four : ∀ k ∈ S, ∀ d, 4 * |k d| < n d
  two : ∀ k ∈ H, ∀ d, 2 * |k d| ≤ n d
  sums : ∀ p ∈ S, ∀ q ∈ S, p + q ∈ H

end Verif.Symmetry
