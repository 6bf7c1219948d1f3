import Mathlib.Analysis.SpecialFunctions.Complex.Log
import Mathlib.Algebra.BigOperators.Ring.Finset
import Mathlib.Algebra.Ring.GeomSum

/-!
# Model of the Fourier grid, of the truncation and of the phase shifts

The discrete transforms themselves come from the external package fluidfft; they are
represented by their definition (forward transform divided by the number of points).  The
half-spectrum storage of real fields (only `kx ≥ 0` is stored, the rest being given by
Hermitian symmetry) is not represented: all the modes of a field are listed in a finite set
`S` of integer wavenumbers `k : D → ℤ` (`D` = directions).
-/

namespace Verif.Fourier

open Finset

noncomputable section

variable {D : Type*} [Fintype D] [DecidableEq D]

/-- grid points -/
abbrev Pt (n : D → ℕ) := ∀ d, Fin (n d)

/-- Fourier mode `k` at the grid point `j`: `exp(i k·x_j)`, `x_j = L j / n`. -/
def chi (n : D → ℕ) (k : D → ℤ) (j : Pt n) : ℂ :=
  Complex.exp (2 * Real.pi * Complex.I * ∑ d, (k d : ℂ) * (j d : ℕ) / n d)

/-- `oper.ifft`: values on the grid of the field with coefficients `u` on the modes `S`. -/
def gridVal (n : D → ℕ) (S : Finset (D → ℤ)) (u : (D → ℤ) → ℂ) (j : Pt n) : ℂ :=
  ∑ k ∈ S, u k * chi n k j

/-- `oper.fft` -/
def fftCoef (n : D → ℕ) (x : Pt n → ℂ) (k : D → ℤ) : ℂ :=
  (∑ j, x j * chi n (-k) j) / ∏ d, (n d : ℂ)

/-- A product computed as in every `tendencies_nonlin`: `fft(ifft(u_fft) * ifft(v_fft))`. -/
def gridProduct (n : D → ℕ) (S : Finset (D → ℤ)) (u v : (D → ℤ) → ℂ) (k : D → ℤ) : ℂ :=
  fftCoef n (fun j => gridVal n S u j * gridVal n S v j) k

/-! ### Truncations -/

/-- operators/base.py:55-60 (`truncation_shape = "spherical"`): the complement of
`where_dealiased = K2 >= kmax**2` with `kmax = coef_dealiasing * deltakx * nx / 2`.
`δ d` is the wavenumber increment in the direction `d`, `x` the direction x. -/
def keptSpherical (δ : D → ℝ) (n : D → ℕ) (x : D) (coef : ℝ) (k : D → ℤ) : Prop :=
  ¬ (∑ d, (δ d * k d) ^ 2 ≥ (coef * δ x * n x / 2) ^ 2)

/-- operators2d.py:195-198 `get_region_multiple_aliases` (and operators3d.py:280-288): at least
two directions with `abs(K) >= 2/3 * deltak * n / 2`. -/
def multipleAliases (δ : D → ℝ) (n : D → ℕ) (k : D → ℤ) : Prop :=
  ∃ d d', d ≠ d' ∧ |δ d * k d| ≥ 2 / 3 * δ d * n d / 2 ∧
    |δ d' * k d'| ≥ 2 / 3 * δ d' * n d' / 2

/-- operators/base.py:61-68 (`truncation_shape = "no_multiple_aliases"`); the spherical part
only if `coef_dealiasing` is true (`some c`, `c ≠ 0`). -/
def keptNoMultipleAliases (δ : D → ℝ) (n : D → ℕ) (x : D) (coef : Option ℝ) (k : D → ℤ) :
    Prop :=
  ¬ (multipleAliases δ n k ∨
    ∃ c, coef = some c ∧ c ≠ 0 ∧ ∑ d, (δ d * k d) ^ 2 ≥ (c * δ x * n x / 2) ^ 2)

/-- operators1d.py:42-53: the complement of `where_dealiased`, i.e. of
`abs(kx) > coef_dealiasing * kx_max`, `kx_max = deltakx * (nkx - 1)`, `nkx = nx // 2 + 1`. -/
def kept1d (δ : ℝ) (nx : ℕ) (coef : ℝ) (k : ℤ) : Prop :=
  ¬ (|δ * k| > coef * (δ * ((nx / 2 + 1 : ℕ) - 1 : ℝ)))

/-! ### Phase shifts -/

/-- pseudo_spect.py:281-300 `_get_phaseshift` (`a = 1/2` in every direction) and
operators{1d,2d,3d}.py `get_phases_random` with pseudo_spect.py:91-100
`compute_phaseshift_terms`: `exp(1j * Σ_d a_d * delta_d * K_d)`, `delta = L/n`,
`K = 2π/L * k`. -/
def phaseShift (L : D → ℝ) (n : D → ℕ) (a : D → ℝ) (k : D → ℤ) : ℂ :=
  Complex.exp (Complex.I * ∑ d, ((a d * (L d / n d) * (2 * Real.pi / L d * k d) : ℝ) : ℂ))

/-- The product computed from shifted fields, shifted back
(`tendencies(phaseshift * state) / phaseshift`). -/
def shiftedProduct (L : D → ℝ) (n : D → ℕ) (a : D → ℝ) (S : Finset (D → ℤ))
    (u v : (D → ℤ) → ℂ) (k : D → ℤ) : ℂ :=
  gridProduct n S (fun p => phaseShift L n a p * u p) (fun p => phaseShift L n a p * v p) k
    / phaseShift L n a k

/-- pseudo_spect.py:71-76, 408-411, 460-463: average of two evaluations. -/
def pairAverage (L : D → ℝ) (n : D → ℕ) (a b : D → ℝ) (S : Finset (D → ℤ))
    (u v : (D → ℤ) → ℂ) (k : D → ℤ) : ℂ :=
  1 / 2 * (shiftedProduct L n a S u v k + shiftedProduct L n b S u v k)

/-- pseudo_spect.py:71-76, 404-411, 749-775: average of the tendencies of the state and of
those of the state shifted by half a cell. -/
def halfShiftAverage (L : D → ℝ) (n : D → ℕ) (S : Finset (D → ℤ))
    (u v : (D → ℤ) → ℂ) (k : D → ℤ) : ℂ :=
  1 / 2 * (gridProduct n S u v k + shiftedProduct L n (fun _ => 1 / 2) S u v k)

end

end Verif.Fourier
