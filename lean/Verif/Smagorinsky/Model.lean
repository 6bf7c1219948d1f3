import Verif.Energy.Model

/-!
# The Smagorinsky turbulence model (C52)

Fields and transforms as in `Verif.Energy`. The arrays in physical space are real: `(ifft a).re`.
-/

namespace Verif.Smagorinsky

open Verif.Fourier Verif.Vectors Verif.Energy Finset

noncomputable section

variable (n : Fin 3 → ℕ) (S : Finset (Fin 3 → ℤ)) (δ : Fin 3 → ℝ)

/-- `ifft` of a component of `oper.grad_fft_from_arr_fft(arr_fft)`
(fluidsim/base/turb_model/stress_tensor.py 21-26, fluidsim/operators/operators3d.py 1020-1026). -/
def grad (d : Fin 3) (arr : Fld (Fin 3)) (j : Pt n) : ℝ := (gridVal n S (Energy.deriv δ d arr) j).re

/-- The six arrays of `compute_stress_tensor`, at one grid point. -/
structure Stress where
  xx : ℝ
  yy : ℝ
  zz : ℝ
  yx : ℝ
  zx : ℝ
  zy : ℝ

/-- `compute_stress_tensor` (stress_tensor.py 28-40). -/
def computeStressTensor (v : (Fin 3 → ℤ) → V3) (j : Pt n) : Stress :=
  let ux : Fld (Fin 3) := fun k => (v k).x
  let uy : Fld (Fin 3) := fun k => (v k).y
  let uz : Fld (Fin 3) := fun k => (v k).z
  { xx := grad n S δ 0 ux j
    yy := grad n S δ 1 uy j
    zz := grad n S δ 2 uz j
    yx := 0.5 * (grad n S δ 1 ux j + grad n S δ 0 uy j)
    zx := 0.5 * (grad n S δ 2 ux j + grad n S δ 0 uz j)
    zy := 0.5 * (grad n S δ 2 uy j + grad n S δ 1 uz j) }

/-- `compute_norm` (stress_tensor.py 42-43). -/
def computeNorm (s : Stress) : ℝ :=
  Real.sqrt (s.xx ^ 2 + s.yy ^ 2 + s.zz ^ 2 + 2 * (s.yx ^ 2 + s.zx ^ 2 + s.zy ^ 2))

/-- `self.C_nu_T` (fluidsim/base/turb_model/smagorinsky.py 47-54). -/
def cNuT (C Lx : ℝ) (nx : ℕ) : ℝ := C * (Lx / nx) ^ 2 * Real.sqrt 2

/-- `nu_T_2 * S` transformed, for one of the six components (smagorinsky.py 66-88). -/
def nuT2Fft (C Lx : ℝ) (v : (Fin 3 → ℤ) → V3) (comp : Stress → ℝ) : Fld (Fin 3) :=
  fftCoef n fun j =>
    let s := computeStressTensor n S δ v j
    ((2 * cNuT C Lx (n 0) * computeNorm s * comp s : ℝ) : ℂ)

/-- `SmagorinskyModel.get_forcing` (smagorinsky.py 56-110), at one mode. -/
def getForcing (C Lx : ℝ) (v : (Fin 3 → ℤ) → V3) (k : Fin 3 → ℤ) : V3 :=
  let t := nuT2Fft n S δ C Lx v
  let K := wave3 δ k
  ⟨2 * Complex.I * (K.x * t Stress.xx k + K.y * t Stress.yx k + K.z * t Stress.zx k),
   2 * Complex.I * (K.x * t Stress.yx k + K.y * t Stress.yy k + K.z * t Stress.zy k),
   2 * Complex.I * (K.x * t Stress.zx k + K.y * t Stress.zy k + K.z * t Stress.zz k)⟩

/-- `tendencies_nonlin` of ns3d extended with the Smagorinsky model
(fluidsim/solvers/ns3d/solver.py 180-253, with 246-249), without forcing. -/
def ns3dTurb (C Lx : ℝ) (f : Option ℝ) (p : Projection) (noVzKz0 : Bool) (v : (Fin 3 → ℤ) → V3)
    (k : Fin 3 → ℤ) : V3 :=
  if k ∈ S then
    let a := lamb n S δ f v k
    let b := getForcing n S δ C Lx v k
    (projectState p noVzKz0 (wave3 δ k) ⟨⟨a.x + b.x, a.y + b.y, a.z + b.z⟩, none⟩).v
  else ⟨0, 0, 0⟩

/-- `TurbModel.__init__` (fluidsim/base/turb_model/base.py 70-86): the class of the requested type, among
the tags of the extensions, or a `ValueError`. -/
def selectModel {α : Type} (classes : List (String × α)) (type : String) : Except String α :=
  match classes.lookup type with
  | some c => .ok c
  | none => .error "ValueError"

end

end Verif.Smagorinsky
