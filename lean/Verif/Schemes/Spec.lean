import Verif.Schemes.Model

/-!
# Specification: the classical explicit schemes and the integrating factor

These definitions are textbook ones and do not mention the model of the code (except the
abbreviation `Arr ι = ι → ℂ`).
-/

namespace Verif.Schemes

noncomputable section

variable {V : Type*} [AddCommGroup V] [Module ℂ V]

/-- explicit Euler for `w' = G(t, w)` -/
def classicEuler (G : ℂ → V → V) (t h : ℂ) (w : V) : V := w + h • G t w

/-- explicit midpoint rule -/
def classicMidpoint (G : ℂ → V → V) (t h : ℂ) (w : V) : V :=
  w + h • G (t + h / 2) (w + (h / 2) • G t w)

/-- Heun's method (explicit trapezoidal rule) -/
def classicHeun (G : ℂ → V → V) (t h : ℂ) (w : V) : V :=
  w + (h / 2) • (G t w + G (t + h) (w + h • G t w))

/-- the classical fourth-order Runge-Kutta method -/
def classicRK4 (G : ℂ → V → V) (t h : ℂ) (w : V) : V :=
  let k1 := G t w
  let k2 := G (t + h / 2) (w + (h / 2) • k1)
  let k3 := G (t + h / 2) (w + (h / 2) • k2)
  let k4 := G (t + h) (w + h • k3)
  w + (h / 6) • (k1 + (2 : ℂ) • k2 + (2 : ℂ) • k3 + k4)

variable {ι : Type*}

/-- the exact solution operator of `s' = -f s` over a duration `t` -/
def expLin (f : Arr ι) (t : ℂ) : Arr ι := fun i => Complex.exp (-t * f i)

/-- right-hand side of the equation satisfied by `w(t) = e^{f t} s(t)` when
`s' = -f s + N(s)` -/
def ifRhs (N : Arr ι → Arr ι) (f : Arr ι) (t : ℂ) (w : Arr ι) : Arr ι :=
  expLin f (-t) * N (expLin f t * w)

/-- tendencies averaged with one phase shift -/
def shiftMean (N : Arr ι → Arr ι) (ps : Arr ι) (s : Arr ι) : Arr ι :=
  (1 / 2 : ℂ) • (N s + N (ps * s) / ps)

/-- tendencies of the shifted state, shifted back -/
def shifted (N : Arr ι → Arr ι) (ps : Arr ι) (s : Arr ι) : Arr ι := N (ps * s) / ps

end

end Verif.Schemes
