import Verif.Vectors.Model

/-!
# Specification for C28-C30
-/

namespace Verif.Vectors

noncomputable section

/-- `k · v`: zero when the field is divergence free at this mode. -/
def kdot (k : K3) (v : V3) : ℂ := k.x * v.x + k.y * v.y + k.z * v.z

/-- Hermitian product of two complex vectors. -/
def inner (v w : V3) : ℂ :=
  v.x * (starRingEnd ℂ) w.x + v.y * (starRingEnd ℂ) w.y + v.z * (starRingEnd ℂ) w.z

def add (v w : V3) : V3 := ⟨v.x + w.x, v.y + w.y, v.z + w.z⟩

def sub (v w : V3) : V3 := ⟨v.x - w.x, v.y - w.y, v.z - w.z⟩

def smul (a : ℂ) (v : V3) : V3 := ⟨a * v.x, a * v.y, a * v.z⟩

def zero : V3 := ⟨0, 0, 0⟩

/-- A real vector as a complex one. -/
def ofReal (x y z : ℝ) : V3 := ⟨x, y, z⟩

/-- Spherical coordinates of a wavevector: norm `r > 0`, polar angle from the z axis, azimuth. -/
def spherical (r θ φ : ℝ) : K3 :=
  ⟨r * (Real.sin θ * Real.cos φ), r * (Real.sin θ * Real.sin φ), r * Real.cos θ⟩

/-- The documented poloidal (polar) unit vector. -/
def eTheta (θ φ : ℝ) : V3 :=
  ofReal (Real.cos θ * Real.cos φ) (Real.cos θ * Real.sin φ) (-Real.sin θ)

/-- The documented toroidal (azimuthal) unit vector. -/
def ePhi (φ : ℝ) : V3 := ofReal (-Real.sin φ) (Real.cos φ) 0

/-- `v · e` for a real vector `e` (embedded). -/
def dot (v e : V3) : ℂ := v.x * e.x + v.y * e.y + v.z * e.z

/-- Shear modes: no horizontal wavenumber. -/
def Shear (k : K3) : Prop := k.x = 0 ∧ k.y = 0

/-- Vertical vorticity of a horizontal velocity mode. -/
def rotz (k : K3) (vx vy : ℂ) : ℂ := Complex.I * k.x * vy - Complex.I * k.y * vx

/-- The manifold on which the solver projects. -/
def InManifold (p : Projection) (k : K3) (v : V3) : Prop :=
  match p with
  | .none => True
  | .toroidal => ∃ a : ℂ, v = ⟨-k.y * a, k.x * a, 0⟩
  | .poloidal => k.x * v.y = k.y * v.x

/-- Symbol of `∂x² + ∂y²` to the power `n/2`. -/
def lapSymbol (kx ky : ℝ) (n : ℕ) : ℂ :=
  ((Complex.I * kx) ^ 2 + (Complex.I * ky) ^ 2) ^ (n / 2)

/-- The wavenumber arrays of an operator: `K{n}` is `|k|^n`, `K{n}_not0` is the same except at
the mean mode where it is any non-zero number; the mean mode is at `origin` of process 0 and
nowhere else. -/
structure Wavenumbers {ι : Type*} (origin : ι) (rank : ℕ) (kx ky : ι → ℝ) (n : ℕ)
    (Kn KnNot0 : ι → ℝ) : Prop where
  kn : ∀ i, Kn i = (√(kx i ^ 2 + ky i ^ 2)) ^ n
  not0 : ∀ i, KnNot0 i ≠ 0 ∧ ((kx i ≠ 0 ∨ ky i ≠ 0) → KnNot0 i = Kn i)
  mean : ∀ i, (kx i = 0 ∧ ky i = 0) ↔ (rank = 0 ∧ i = origin)

end

end Verif.Vectors
