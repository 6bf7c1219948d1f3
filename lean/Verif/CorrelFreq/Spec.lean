import Verif.CorrelFreq.Model

/-! # Specification for C75 -/

namespace Verif.CorrelFreq

noncomputable section

/-- The discrete Fourier transform of a signal of `N` values, for any frequency. -/
def dft (N : ℕ) (y : ℕ → ℝ) (ω : ℤ) : ℂ :=
  (1 / N : ℝ) * ∑ n ∈ Finset.range N, (y n : ℂ) * Complex.exp (-(2 * Real.pi * (ω : ℝ) * n / N : ℝ) * Complex.I)

/-- The product `w(ω1) w(ω2) w(ω3)^* w(ω4)^*` of the documentation. -/
def quartet (N : ℕ) (y : ℕ → ℝ) (ω1 ω2 ω3 ω4 : ℤ) : ℂ :=
  dft N y ω1 * dft N y ω2 * (starRingEnd ℂ) (dft N y ω3) * (starRingEnd ℂ) (dft N y ω4)

/-- The product `w(ω1) w(ω2)^*`. -/
def pair (N : ℕ) (y : ℕ → ℝ) (ω1 ω2 : ℤ) : ℂ := dft N y ω1 * (starRingEnd ℂ) (dft N y ω2)

/-- The average over the points. -/
def average {P : Type} (pts : List P) (g : P → ℂ) : ℂ := (pts.map g).sum / (pts.length : ℂ)

/-- The root of the product of the four energies. -/
def energies (N : ℕ) (sites : List (ℕ → ℝ)) (ω1 ω2 ω3 ω4 : ℤ) : ℝ :=
  let E := fun ω : ℤ => ‖average sites fun y => pair N y ω ω‖
  √(E ω1 * E ω2 * E ω3 * E ω4)

/-- The correlation without its Gaussian part. -/
def cumulant (N : ℕ) (sites : List (ℕ → ℝ)) (ω1 ω2 ω3 ω4 : ℤ) : ℂ :=
  let P := fun a b : ℤ => average sites fun y => pair N y a b
  (average sites fun y => quartet N y ω1 ω2 ω3 ω4) - P ω1 ω3 * P ω2 ω4 - P ω1 ω4 * P ω2 ω3

/-- The points of all the processes. -/
def points (sizes : List ℕ) : List (ℕ × ℕ) :=
  (List.range sizes.length).flatMap fun r => (List.range (sizes.getD r 0)).map fun ix => (r, ix)

/-- The first iteration used. -/
def first (itStart : ℤ) (period : ℝ) : ℕ := max 1 ⌈(itStart : ℝ) + period - 1⌉₊

/-- The number of iterations between two fields. -/
def stride (period : ℝ) : ℕ := max 1 ⌈period - 1⌉₊

/-- The iteration of the field number `i`. -/
def sampleIt (itStart : ℤ) (period : ℝ) (i : ℕ) : ℕ := first itStart period + i * stride period

/-- The angular frequency number `i` of a signal of `N` values taken each `τ`. -/
def trueOmega (τ : ℝ) (N i : ℕ) : ℝ := 2 * Real.pi * i / (N * τ)

/-- The mean of a list. -/
def meanOf {V : Type} [AddCommGroup V] [Module ℝ V] (l : List V) : V := (1 / (l.length : ℝ)) • l.sum

end

end Verif.CorrelFreq
