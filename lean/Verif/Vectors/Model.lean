import Mathlib.Analysis.SpecialFunctions.Trigonometric.Basic
import Mathlib.Analysis.Real.Sqrt
import Mathlib.Analysis.Complex.Basic

/-!
# Spectral vector operators (C28, C29) and Laplacians (C30)

The functions of the operators act on each mode separately (the loops over `i0, i1, i2` and the
array expressions are pointwise, and temporaries are computed before the arrays are overwritten):
they are modelled per mode.
-/

namespace Verif.Vectors

noncomputable section

/-- The three components of a spectral vector field at one mode. -/
@[ext] structure V3 where
  x : ℂ
  y : ℂ
  z : ℂ

/-- A wavevector: the values of `Kx`, `Ky`, `Kz` at one mode. -/
structure K3 where
  x : ℝ
  y : ℝ
  z : ℝ

/-- `K_square_nozero[K_square_nozero == 0] = 1e-14`
(fluidsim/operators/operators3d.py 720, 765, 829-830, 866-867, 893-894, 937, 965, 982). -/
def nozero (a : ℝ) : ℝ := if a = 0 then 1 / 10 ^ 14 else a

/-- `Kx**2 + Ky**2`. -/
def kh2 (k : K3) : ℝ := k.x ^ 2 + k.y ^ 2

/-- `Kx**2 + Ky**2 + Kz**2`. -/
def k2 (k : K3) : ℝ := kh2 k + k.z ^ 2

/-- `project_kradial3d` (operators3d.py 732-785). -/
def kradial (k : K3) (v : V3) : V3 :=
  let tmp : ℂ := (k.x * v.x + k.y * v.y + k.z * v.z) * ((1 / nozero (k2 k) : ℝ) : ℂ)
  ⟨k.x * tmp, k.y * tmp, k.z * tmp⟩

/-- `project_perpk3d`, used by ns3d (fluidsim/solvers/ns3d/solver.py 164-165). The function is
in fluidfft, not in this repository; it is modelled by its documented effect (removal of the
component along the wavevector, with the same protection of the zero mode). -/
def perpk (k : K3) (v : V3) : V3 :=
  ⟨v.x - (kradial k v).x, v.y - (kradial k v).y, v.z - (kradial k v).z⟩

/-- `cos_theta_k` (operators3d.py 835). -/
def cosTheta (k : K3) : ℝ := k.z * √(1 / nozero (k2 k))

/-- `sin_theta_k` (operators3d.py 836). -/
def sinTheta (k : K3) : ℝ := √(kh2 k * (1 / nozero (k2 k)))

/-- `cos_phi_k` (operators3d.py 837). -/
def cosPhi (k : K3) : ℝ := k.x * √(1 / nozero (kh2 k))

/-- `sin_phi_k` (operators3d.py 838). -/
def sinPhi (k : K3) : ℝ := k.y * √(1 / nozero (kh2 k))

/-- `vpfft_from_vecfft` (operators3d.py 858-883). -/
def vpFromVec (k : K3) (v : V3) : ℂ :=
  cosTheta k * cosPhi k * v.x + cosTheta k * sinPhi k * v.y - sinTheta k * v.z

/-- `vecfft_from_vpfft` (operators3d.py 885-908). -/
def vecFromVp (k : K3) (a : ℂ) : V3 :=
  ⟨cosTheta k * cosPhi k * a, cosTheta k * sinPhi k * a, -sinTheta k * a⟩

/-- `project_poloidal` (operators3d.py 787-856). -/
def poloidal (k : K3) (v : V3) : V3 :=
  let tmp : ℂ :=
    cosTheta k * cosPhi k * v.x + cosTheta k * sinPhi k * v.y - sinTheta k * v.z
  ⟨cosTheta k * cosPhi k * tmp, cosTheta k * sinPhi k * tmp, -sinTheta k * tmp⟩

/-- `project_toroidal` (operators3d.py 910-958). -/
def toroidal (k : K3) (v : V3) : V3 :=
  let tmp : ℂ := -sinPhi k * v.x + cosPhi k * v.y
  ⟨-sinPhi k * tmp, cosPhi k * tmp, 0⟩

/-- `vtfft_from_vecfft` (operators3d.py 960-975). -/
def vtFromVec (k : K3) (v : V3) : ℂ :=
  -Complex.I * sinPhi k * v.x + Complex.I * cosPhi k * v.y

/-- `vecfft_from_vtfft` (operators3d.py 977-992). -/
def vecFromVt (k : K3) (a : ℂ) : V3 :=
  ⟨Complex.I * sinPhi k * a, -Complex.I * cosPhi k * a, 0⟩

/-- `urudfft_from_vxvyfft` (operators3d.py 712-730): (urx, ury, udx, udy). -/
def urud (k : K3) (vx vy : ℂ) : (ℂ × ℂ) × (ℂ × ℂ) :=
  let inv : ℂ := ((1 / nozero (kh2 k) : ℝ) : ℂ)
  let kdotu : ℂ := k.x * vx + k.y * vy
  let udx := kdotu * k.x * inv
  let udy := kdotu * k.y * inv
  ((vx - udx, vy - udy), (udx, udy))

/-- `divhfft_from_vxvyfft` (operators3d.py 994-997). -/
def divh (k : K3) (vx vy : ℂ) : ℂ := Complex.I * (k.x * vx + k.y * vy)

/-- `vxvyfft_from_rotzfft` (operators3d.py 999-1007). -/
def vxvyFromRotz (k : K3) (r : ℂ) : ℂ × ℂ :=
  let inv : ℂ := ((1 / nozero (kh2 k) : ℝ) : ℂ)
  (Complex.I * k.y * inv * r, -Complex.I * k.x * inv * r)

/-- `vxvyfft_from_divhfft` (operators3d.py 1009-1017). -/
def vxvyFromDivh (k : K3) (d : ℂ) : ℂ × ℂ :=
  let inv : ℂ := ((1 / nozero (kh2 k) : ℝ) : ℂ)
  (-Complex.I * k.x * inv * d, -Complex.I * k.y * inv * d)

/-- `grad_fft_from_arr_fft` (operators3d.py 1019-1038). -/
def grad (k : K3) (a : ℂ) : V3 := ⟨Complex.I * k.x * a, Complex.I * k.y * a, Complex.I * k.z * a⟩

/-! ### The projection of the ns3d solvers -/

/-- `params.projection` (fluidsim/solvers/ns3d/solver.py 159-174). -/
inductive Projection | none | toroidal | poloidal

/-- The choice of `_projector` (ns3d/solver.py 147-174): the text of the parameter to the
projector, `ValueError` for an unknown text. -/
def chooseProjector : Option String → Except String Projection
  | .none => .ok .none
  | some "toroidal" => .ok .toroidal
  | some "vortical" => .ok .toroidal
  | some "poloidal" => .ok .poloidal
  | some _ => .error "ValueError"

/-- The projector at one mode. -/
def projector : Projection → K3 → V3 → V3
  | .none => perpk
  | .toroidal => toroidal
  | .poloidal => poloidal

/-- Spectral state at one mode: velocity and, for the stratified solvers, the buoyancy. -/
structure ModeState where
  v : V3
  b : Option ℂ

/-- `project_state_spect` (ns3d/solver.py 255-263) at one mode. -/
def projectState (p : Projection) (noVzKz0 : Bool) (k : K3) (s : ModeState) : ModeState :=
  let v := projector p k s.v
  if noVzKz0 ∧ |k.z| = 0 then ⟨⟨v.x, v.y, 0⟩, s.b.map fun _ => 0⟩ else ⟨v, s.b⟩

/-- `dealiasing_setofvar` (operators3d.py 38-61) at one mode. -/
def dealias (masked : Bool) (s : ModeState) : ModeState :=
  if masked then ⟨⟨0, 0, 0⟩, s.b.map fun _ => 0⟩ else s

/-- `one_time_step_computation` of ns3d (fluidsim/solvers/ns3d/time_stepping.py 7-20) on a
whole state (`ι` are the modes): the time scheme `rk` is any function; then projection and
truncation. The transformation to physical space and the NaN test do not change the spectral
state. -/
def oneStep {ι : Type*} (K : ι → K3) (masked : ι → Bool) (p : Projection) (noVzKz0 : Bool)
    (rk : (ι → ModeState) → ι → ModeState) (s : ι → ModeState) : ι → ModeState :=
  fun i => dealias (masked i) (projectState p noVzKz0 (K i) (rk s i))

/-! ### Laplacians -/

/-- `1j**order` for an integer order. Simplification: exact (Python multiplies exactly for
`|order| ≤ 100`). -/
def powI (order : ℤ) : ℂ := Complex.I ^ order

/-- `laplacian_fft` (fluidsim/operators/operators2d.py 47-50). -/
def lapArr {ι : Type*} (a : ι → ℂ) (Kn : ι → ℝ) : ι → ℂ := fun i => a i * Kn i

/-- `invlaplacian_fft` (operators2d.py 53-59); `origin` is the index [0, 0]. -/
def invlapArr {ι : Type*} [DecidableEq ι] (origin : ι) (a : ι → ℂ) (Kn : ι → ℝ) (rank : ℕ) :
    ι → ℂ :=
  fun i => if rank = 0 ∧ i = origin then 0 else a i / Kn i

/-- The method `laplacian_fft` (operators2d.py 469-495). `attr n` is the array `K{n}` if the
operator has such an attribute. -/
def laplacian {ι : Type*} (attr : ℤ → Option (ι → ℝ)) (a : ι → ℂ) (order : ℤ)
    (negative : Bool) : Except String (ι → ℂ) :=
  let sign := powI order
  if sign.im ≠ 0 then .error "ValueError"
  else
    let sign := if negative then sign * (-1) else sign
    match attr order with
    | none => .error "AttributeError"
    | some Kn => if sign = 1 then .ok (lapArr a Kn) else .ok fun i => sign * lapArr a Kn i

/-- The method `invlaplacian_fft` (operators2d.py 497-523). -/
def invlaplacian {ι : Type*} [DecidableEq ι] (origin : ι) (rank : ℕ)
    (attr : ℤ → Option (ι → ℝ)) (a : ι → ℂ) (order : ℤ) (negative : Bool) :
    Except String (ι → ℂ) :=
  let sign := 1 / powI order
  if sign.im ≠ 0 then .error "ValueError"
  else
    let sign := if negative then sign * (-1) else sign
    match attr order with
    | none => .error "AttributeError"
    | some Kn => if sign = 1 then .ok (invlapArr origin a Kn rank)
      else .ok fun i => sign * invlapArr origin a Kn rank i

/-- `uxuyfft_from_psifft` (operators2d.py 444-448), with `gradfft_from_fft` of fluidfft. -/
def uxuyFromPsi (kx ky : ℝ) (psi : ℂ) : ℂ × ℂ := (-(Complex.I * ky * psi), Complex.I * kx * psi)

end

end Verif.Vectors
