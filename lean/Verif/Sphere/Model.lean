import Mathlib.RingTheory.MvPolynomial.EulerIdentity
import Mathlib.Analysis.Complex.Basic
import Verif.Schemes.Model

/-!
# Model of the solvers on the sphere

Models `fluidsim/solvers/sphere/ns2d/solver.py`, `fluidsim/solvers/sphere/sw1l/solver.py`,
`fluidsim/solvers/sphere/sw1l/state.py` and `fluidsim/operators/sphericalharmo.py`.

The scalar fields on the sphere are the restrictions to the unit sphere of the polynomials in
the three Cartesian coordinates (every finite sum of spherical harmonics, and every product of
such sums, is of this form); the tangent vector fields are given by their three Cartesian
components.  The components `ux`, `uy` of the code are the components of such a field on the
unit vectors toward the east and the north: the functions below only use what does not depend
on this basis (the scalar product and the rotation by a right angle around the vertical).

The operators of the library `fluidsht` (transforms, gradient, divergence and curl) are not in
the repository: they are modelled by what they compute, with exact arithmetic and quadrature.
The basis of spherical harmonics is any finite orthonormal family of harmonic polynomials; the
library stores complex coefficients for the orders `m ≥ 0` of a basis, the model stores one
coefficient for each function of a family.  The forcing is disabled.
-/

namespace Verif.Sphere

noncomputable section

open MvPolynomial

/-- Scalar fields (polynomials restricted to the unit sphere). -/
abbrev Fn := MvPolynomial (Fin 3) ℂ

/-- Vector fields (Cartesian components). -/
abbrev Vec := Fin 3 → Fn

/-- Component `k` of `r × ∇`: the derivative along the rotations around the axis `k`. -/
def L (k : Fin 3) : Derivation ℂ Fn Fn :=
  (X (k + 1) : Fn) • pderiv (k + 2) - (X (k + 2) : Fn) • pderiv (k + 1)

/-- `r × F`: the rotation by a right angle around the vertical, `(-Fy, Fx)` in the basis
(east, north). -/
def turn (F : Vec) : Vec := fun k => X (k + 1) * F (k + 2) - X (k + 2) * F (k + 1)

/-- Scalar product of two vectors, `ux * vx + uy * vy` in the basis (east, north). -/
def dot (F G : Vec) : Fn := ∑ k, F k * G k

/-- What the operators are made of: the radius (`params.oper.radius`), the rotation
(`params.oper.omega`), the mean value over the sphere, the degrees and the functions of the
basis. -/
structure Oper (I : Type) where
  radius : ℝ
  omega : ℝ
  mean : Fn →ₗ[ℂ] ℂ
  l : I → ℕ
  Y : I → Fn

variable {I : Type} [Fintype I]

namespace Oper
variable (o : Oper I)

/-- `oper.isht` (fluidsht). -/
def isht (a : I → ℂ) : Fn := ∑ i, C (a i) * o.Y i

/-- `oper.sht` (fluidsht). -/
def sht (f : Fn) : I → ℂ := fun i => o.mean (o.Y i * f)

/-- `l (l + 1) / radius²` (fluidsht, `K2`). -/
def K2 (i : I) : ℂ := (o.l i * (o.l i + 1) : ℕ) / (o.radius : ℂ) ^ 2

/-- `oper.laplacian_sh(f_sh, negative=True)` (fluidsht): the opposite of the Laplacian. -/
def negLaplacian (f : I → ℂ) : I → ℂ := fun i => o.K2 i * f i

/-- The potential of which the Laplacian is the given field (the division by zero for
`l = 0` gives zero in the model and in fluidsht, which sets `K2` of `l = 0` apart). -/
def potential (f : I → ℂ) : I → ℂ := fun i => - f i / o.K2 i

/-- `oper.gradf_from_fsh` (fluidsht): `∇f = -r × (r × ∇) f / radius`. -/
def gradf (f : Fn) : Vec := fun k => - C (1 / (o.radius : ℂ)) * turn (fun j => L j f) k

/-- `oper.vec_from_divrotsh` (fluidsht): `u = (r × ∇ ψ) / radius + ∇ χ`. -/
def vecFromDivrotsh (div rot : I → ℂ) : Vec := fun k =>
  C (1 / (o.radius : ℂ)) * L k (o.isht (o.potential rot))
    + o.gradf (o.isht (o.potential div)) k

/-- `oper.vec_from_rotsh` (fluidsht). -/
def vecFromRotsh (rot : I → ℂ) : Vec := fun k =>
  C (1 / (o.radius : ℂ)) * L k (o.isht (o.potential rot))

/-- The curl of `oper.divrotsh_from_vec` (fluidsht): `(r × ∇) · F / radius`. -/
def rotsh (F : Vec) : I → ℂ := o.sht (C (1 / (o.radius : ℂ)) * ∑ k, L k (F k))

/-- The divergence of `oper.divrotsh_from_vec` (fluidsht): `(r × ∇) · (r × F) / radius`. -/
def divsh (F : Vec) : I → ℂ := o.sht (C (1 / (o.radius : ℂ)) * ∑ k, L k (turn F k))

/-- operators/sphericalharmo.py:56-63 `f_radial`: `2 Ω sin(latitude)`. -/
def fRadial : Fn := C (2 * (o.omega : ℂ)) * X 2

/-- ns2d/solver.py `compute_Frot` (solvers/ns2d/solver.py:33-41) with `beta = 0`. -/
def frotNs2d (u g : Vec) : Fn := - dot u g

/-- sphere/ns2d/solver.py:57-130 `tendencies_nonlin`. -/
def ns2d (rot : I → ℂ) : I → ℂ :=
  o.sht (frotNs2d (o.vecFromRotsh rot) (o.gradf (o.isht rot)))

/-- sphere/ns2d/solver.py:119-126: the sum over the modes of `T_rot`, printed at each call. -/
def sumTrot (rot : I → ℂ) : ℝ := ∑ i, (starRingEnd ℂ (o.ns2d rot i) * rot i).re

end Oper

/-! ### Shallow water -/

/-- sphere/sw1l/state.py:36 `keys_state_spect`. -/
inductive Key
  | rot_sh | div_sh | eta_sh
  deriving DecidableEq

/-- `state_spect`. -/
abbrev Spect (I : Type) := Key × I → ℂ

/-- `state_phys` (sphere/sw1l/state.py:37). -/
structure Phys where
  u : Vec
  eta : Fn
  rot : Fn

namespace Oper
variable (o : Oper I)

/-- sphere/sw1l/state.py:81-100 `statephys_from_statespect`. -/
def statephys (s : Spect I) : Phys where
  u := o.vecFromDivrotsh (fun i => s (.div_sh, i)) (fun i => s (.rot_sh, i))
  eta := o.isht fun i => s (.eta_sh, i)
  rot := o.isht fun i => s (.rot_sh, i)

/-- sphere/sw1l/state.py:111-121 `statespect_from_statephys`. -/
def statespect (p : Phys) : Spect I := fun
  | (.rot_sh, i) => o.rotsh p.u i
  | (.div_sh, i) => o.divsh p.u i
  | (.eta_sh, i) => o.sht p.eta i

/-- sphere/sw1l/state.py:123-136 `init_from_uxuyeta`. -/
def initFromUxuyeta (u : Vec) (eta : Fn) : Spect I × Phys :=
  let s := o.statespect ⟨u, eta, 0⟩
  (s, ⟨u, eta, o.isht fun i => s (.rot_sh, i)⟩)

/-- sphere/sw1l/solver.py:26-33 `compute_Frot`: `(rot_abs * uy, -rot_abs * ux)`. -/
def frotSw1l (rot : Fn) (u : Vec) (f : Fn) : Vec := fun k => -(rot + f) * turn u k

/-- sphere/sw1l/solver.py:133-184 `tendencies_nonlin` from the variables in physical space. -/
def sw1lPhys (c2 : ℝ) (p : Phys) : Spect I := fun
  | (.rot_sh, i) => o.rotsh (frotSw1l p.rot p.u o.fRadial) i
  | (.div_sh, i) => o.divsh (frotSw1l p.rot p.u o.fRadial) i
      + o.negLaplacian (o.sht (C (1 / 2) * dot p.u p.u + C (c2 : ℂ) * p.eta)) i
  | (.eta_sh, i) => o.divsh (fun k => -(p.eta + 1) * p.u k) i

/-- sphere/sw1l/solver.py:127-131: `tendencies_nonlin(state_spect)`. -/
def sw1l (c2 : ℝ) (s : Spect I) : Spect I := o.sw1lPhys c2 (o.statephys s)

end Oper

end

end Verif.Sphere
