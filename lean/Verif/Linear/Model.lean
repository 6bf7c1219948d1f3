import Verif.Schemes.Props
import Mathlib.Analysis.SpecialFunctions.Sqrt
import Mathlib.Analysis.Complex.Trigonometric

/-! # C69: the linear solvers (ad1d.pseudo_spect, waves2d) and the dimensional units of plate2d

Simplification: floating-point numbers are real numbers. The time schemes are the ones of `Verif.Schemes`. -/

namespace Verif.Linear

noncomputable section

open Verif.Schemes

/-- `tendencies_nonlin` of ad1d.pseudo_spect (ad1d/pseudo_spect/solver.py 52-63) and of waves2d (waves2d/solver.py 103-113). -/
def tendenciesZero {ι : Type*} : Bool → Arr ι → Arr ι := fun _ _ => 0

/-- `freq_lin` of ad1d.pseudo_spect for the mode `j` (pseudo_spect.py 179-189, ad1d/pseudo_spect/solver.py 65-68,
operators1d.py 43-45): `fd` is the frequency of dissipation, `kx = 2 pi / Lx * j`. -/
def ad1dFreq (U Lx : ℝ) (fd : ℕ → ℝ) : Arr ℕ :=
  fun j => (fd j : ℂ) + Complex.I * U * ((2 * Real.pi / Lx * j : ℝ) : ℂ)

/-- The real field of the coefficients `c` of a real-to-complex transform, without the Nyquist mode, at the
point `x`. -/
def fieldAt (Lx : ℝ) (nk : ℕ) (c : ℕ → ℂ) (x : ℝ) : ℝ :=
  (c 0).re + 2 * ∑ j ∈ Finset.Ico 1 nk, (c j * Complex.exp (Complex.I * ((2 * Real.pi / Lx * j * x : ℝ) : ℂ))).re

/-- The variables of waves2d (waves2d/state.py 24). -/
inductive WKey where
  | f
  | g
  deriving DecidableEq, Repr

/-- `compute_freq_complex` of waves2d (waves2d/solver.py 115-123) for a mode `(kx, ky)`. -/
def wavesFreqComplex (f c2 : ℝ) (key : WKey) (k : ℝ × ℝ) : ℂ :=
  match key with
  | .f => 0
  | .g => Complex.I * (Real.sqrt (f ^ 2 + c2 * (k.1 ^ 2 + k.2 ^ 2)) : ℝ)

/-- `freq_lin` of waves2d (pseudo_spect.py 179-189) with the frequency of dissipation `fd`. -/
def wavesFreq (f c2 : ℝ) (fd : ℝ × ℝ → ℝ) : Arr (WKey × ℝ × ℝ) :=
  fun i => (fd i.2 : ℂ) + wavesFreqComplex f c2 i.1 i.2

/-! ## plate2d/dimensional.py -/

/-- `Converter` (plate2d/dimensional.py 42-52). -/
structure Converter where
  C : ℝ
  h : ℝ
  L : ℝ
  sigma : ℝ

variable (cv : Converter)

def Converter.tildeT : ℝ := cv.L ^ 2 / Real.sqrt cv.C
def Converter.tildeZ : ℝ := cv.h / Real.sqrt (6 * (1 - cv.sigma))
def Converter.tildeL : ℝ := cv.L
def Converter.tildeNu4 : ℝ := cv.L ^ 4 / cv.tildeT

/-- plate2d/dimensional.py 54-84. -/
def Converter.timeAdim (t : ℝ) : ℝ := t / cv.tildeT
def Converter.timeDim (t : ℝ) : ℝ := t * cv.tildeT
def Converter.zAdim (z : ℝ) : ℝ := z / cv.tildeZ
def Converter.zDim (z : ℝ) : ℝ := z * cv.tildeZ
def Converter.wAdim (w : ℝ) : ℝ := cv.tildeT / cv.tildeZ * w
def Converter.wDim (w : ℝ) : ℝ := cv.tildeZ / cv.tildeT * w
def Converter.nu4Adim (n : ℝ) : ℝ := n / cv.tildeNu4
def Converter.nu4Dim (n : ℝ) : ℝ := n * cv.tildeNu4

end

end Verif.Linear
