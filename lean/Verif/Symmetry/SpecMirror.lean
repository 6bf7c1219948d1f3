import Verif.Symmetry.Spec

/-! # C98: the symmetries of the box -/

namespace Verif.Symmetry

open Verif.Fourier Verif.Vectors Verif.Energy Verif.Schemes Verif.EndToEnd Finset

/-- A symmetry of a box: an exchange of the axes, and the directions which are reversed (`-1`). The vector `v` becomes the vector with the
components `σ d * v (π d)`. -/
structure Sym (D : Type*) where
  π : Equiv.Perm D
  σ : D → ℤ
  unit : ∀ d, σ d * σ d = 1

noncomputable section

variable {D V : Type*} [Fintype D]

/-- The point of the space which is sent to `x`. -/
def Sym.point (g : Sym D) (x : D → ℝ) : D → ℝ := fun d => g.σ (g.π.symm d) * x (g.π.symm d)

/-- The wavevector which is sent to `k`. -/
def Sym.back (g : Sym D) (k : D → ℤ) : D → ℤ := fun d => g.σ (g.π.symm d) * k (g.π.symm d)

/-- The box and the modes which are kept by the truncation have the symmetry. -/
structure Sym.Fits (g : Sym D) (S : Finset (D → ℤ)) (δ : D → ℝ) : Prop where
  box : ∀ d, δ (g.π d) = δ d
  modes : ∀ k, g.back k ∈ S ↔ k ∈ S

/-- The image of fields: the variable `v` of the image is `a v` times the image of the variable `w v`. -/
def Sym.image (g : Sym D) (w : V → V) (a : V → ℤ) (u : V → Fld D) : V → Fld D := fun v k => (a v : ℂ) * u (w v) (g.back k)

/-- The determinant of a symmetry of the plane of the axes 0 and 1. -/
def det2 (g : Sym (Fin 2)) : ℤ := g.σ 0 * g.σ 1 * if g.π 0 = 0 then 1 else -1

/-- The determinant in the horizontal plane of a symmetry which keeps the vertical. -/
def detH (g : Sym (Fin 3)) : ℤ := g.σ 0 * g.σ 1 * if g.π 0 = 0 then 1 else -1

/-- The image of a vorticity (a pseudo-scalar) and, in a vertical plane, of the vorticity and the buoyancy. -/
def imageRot (g : Sym (Fin 2)) (u : Unit → Fld (Fin 2)) : Unit → Fld (Fin 2) := g.image id (fun _ => det2 g) u
def imageRotB (g : Sym (Fin 2)) (u : Fin 2 → Fld (Fin 2)) : Fin 2 → Fld (Fin 2) := g.image id ![det2 g, g.σ 1] u

/-- The image of a velocity, and of a velocity and a buoyancy. -/
def imageVel (g : Sym (Fin 3)) (u : Fin 3 → Fld (Fin 3)) : Fin 3 → Fld (Fin 3) := g.image g.π g.σ u
def imageVelB (g : Sym (Fin 3)) (u : Fin 4 → Fld (Fin 3)) : Fin 4 → Fld (Fin 3) :=
  g.image ![(g.π 0).castSucc, (g.π 1).castSucc, (g.π 2).castSucc, 3] ![g.σ 0, g.σ 1, g.σ 2, g.σ 2] u

/-- The same scheme and time steps, and phase shifts which are images of each other. -/
def SymNumerics (g : Sym D) (c c' : Numerics D V) : Prop :=
  c'.sc = c.sc ∧ c'.cfl = c.cfl ∧ c'.dt = c.dt ∧
    ∀ m k, c'.ps m k = c.ps m (g.back k) ∧ c'.pa m k = c.pa m (g.back k) ∧ c'.pb m k = c.pb m (g.back k)

/-- Fields without modes outside `S`. -/
def Within (S : Finset (D → ℤ)) (u : V → Fld D) : Prop := ∀ v, ∀ k ∉ S, u v k = 0

end

end Verif.Symmetry
