import Verif.HorizMeans.Model

/-!
# Specification of the horizontal means
-/

namespace Verif.HorizMeans

open Verif.Fourier Finset

noncomputable section

variable {K : Type} [Field K]

/-- The mean of the values at the points of the level `c`. -/
def levelMean (n : Fin 3 → ℕ) (f : Pt n → K) (c : Fin (n 2)) : K :=
  (∑ j : Pt n with j 2 = c, f j) / ((univ.filter fun j : Pt n => j 2 = c).card : K)

/-- The mean over all the grid. -/
def gridMean (n : Fin 3 → ℕ) (f : Pt n → K) : K := (∑ j : Pt n, f j) / (Fintype.card (Pt n) : K)

/-- The mean over the levels. -/
def zMean {m : ℕ} (p : Fin m → K) : K := (∑ c, p c) / (m : K)

/-- The coefficient `k` of the Fourier series of a profile. -/
def profileFft {m : ℕ} (p : Fin m → ℂ) (k : ℤ) : ℂ :=
  (∑ c : Fin m, p c * Complex.exp (-(2 * Real.pi * Complex.I * (k * (c : ℕ) / m)))) / m

/-- The wavenumber which has only a vertical component. -/
def vertical (k : ℤ) : Fin 3 → ℤ := ![0, 0, k]

/-- A periodic translation of the grid. -/
def shiftPt {n : Fin 3 → ℕ} (hn : ∀ d, 0 < n d) (s : Fin 3 → ℕ) (j : Pt n) : Pt n := fun d =>
  ⟨((j d : ℕ) + s d) % n d, Nat.mod_lt _ (hn d)⟩

end

end Verif.HorizMeans
