import Verif.Sphere.Model

/-!
# Specification for the solvers on the sphere

What is a mean value over the sphere and a spherical harmonic, and the equations that the
solvers are documented to solve.
-/

namespace Verif.Sphere

noncomputable section

open MvPolynomial

/-- A mean value over the unit sphere: it is invariant under the rotations (the mean of the
derivative along a rotation vanishes), `x² + y² + z² = 1` and the mean of 1 is 1. -/
structure IsMean (mean : Fn →ₗ[ℂ] ℂ) : Prop where
  rot : ∀ k f, mean (L k f) = 0
  unit : ∀ f, mean ((∑ k, X k ^ 2) * f) = mean f
  one : mean 1 = 1

/-- A (solid) spherical harmonic of degree `l`: an homogeneous harmonic polynomial. -/
structure IsHarmonic (l : ℕ) (Y : Fn) : Prop where
  hom : Y.IsHomogeneous l
  lap : ∑ k, pderiv k (pderiv k Y) = 0

/-- The operators of a sphere: the basis is an orthonormal family of spherical harmonics. -/
structure IsSphere {I : Type} (o : Oper I) : Prop where
  radius : o.radius ≠ 0
  mean : IsMean o.mean
  harm : ∀ i, IsHarmonic (o.l i) (o.Y i)
  ortho : ∀ i, o.mean (o.Y i * o.Y i) = 1
  ortho' : ∀ i j, i ≠ j → o.mean (o.Y i * o.Y j) = 0

/-- Kinetic energy per unit mass of a velocity field. -/
def energy (mean : Fn →ₗ[ℂ] ℂ) (u : Vec) : ℂ := mean (∑ k, u k * u k) / 2

/-- Component `k` of the mean angular momentum per unit mass of the velocity `u`: the mean
of `r × u`, with `r` on the sphere of the given radius. -/
def angularMomentum (radius : ℝ) (mean : Fn →ₗ[ℂ] ℂ) (u : Vec) (k : Fin 3) : ℂ :=
  radius * mean (X (k + 1) * u (k + 2) - X (k + 2) * u (k + 1))

/-- Gradient on the sphere of the given radius: `∇f - r (r · ∇f)` at the points of the unit
sphere. -/
def surfaceGrad (radius : ℝ) (f : Fn) : Vec := fun k =>
  C (1 / (radius : ℂ)) * (pderiv k f - X k * ∑ j, X j * pderiv j f)

/-- Divergence on the sphere of the given radius of a tangent vector field: `∇ · F` minus the
radial derivative of `F` along `r`, at the points of the unit sphere. -/
def surfaceDiv (radius : ℝ) (F : Vec) : Fn :=
  C (1 / (radius : ℂ)) * (∑ k, pderiv k (F k) - ∑ k, X k * ∑ j, X j * pderiv j (F k))

/-- Vertical component of the curl, `r · (∇ × F)`. -/
def surfaceCurl (radius : ℝ) (F : Vec) : Fn :=
  C (1 / (radius : ℂ)) *
    ∑ k, X k * (pderiv (k + 1) (F (k + 2)) - pderiv (k + 2) (F (k + 1)))

/-- Right-hand side of the vector-invariant momentum equation of the shallow water on a
rotating sphere: `-(ζ + 2 Ω z) r × u - ∇(u²/2 + c² η)`. -/
def momentum (radius omega c2 : ℝ) (u : Vec) (rot eta : Fn) : Vec := fun k =>
  -(rot + C (2 * (omega : ℂ)) * X 2) * (X (k + 1) * u (k + 2) - X (k + 2) * u (k + 1))
    - surfaceGrad radius (C (1 / 2) * ∑ j, u j * u j + C (c2 : ℂ) * eta) k

end

end Verif.Sphere
