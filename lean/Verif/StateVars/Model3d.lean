import Verif.StateVars.Model

/-!
# Model of the variables of the states of ns3d, ns3d.strat, ns3d.bouss and plate2d

The same scheme as in `Verif.StateVars.Model`. `get_var` of a stored array inside `compute` reads the array, so that
only the calls of `self.compute` are listed in the branches.
-/

namespace Verif.StateVars

open Verif.Fourier Verif.Energy Verif.Vectors Finset

noncomputable section

/-- Arrays of the 3D solvers. -/
inductive Arr3 (n : Fin 3 → ℕ)
  | K (a : Fld (Fin 3))
  | X (a : Pt n → ℂ)

/-- State of the 3D solvers: velocity and buoyancy (not used by ns3d). -/
structure Flow3 where
  v : (Fin 3 → ℤ) → V3
  b : Fld (Fin 3)

variable (δ : Fin 3 → ℝ) (n : Fin 3 → ℕ) (S : Finset (Fin 3 → ℤ))

/-- `rotzfft_from_vxvyfft` (fluidsim/operators/operators3d.py imports it from fluidfft: `1j * (Kx*vy - Ky*vx)`). -/
def rotzFft (k : K3) (vx vy : ℂ) : ℂ := Complex.I * (k.x * vy - k.y * vx)

/-- `statephys_from_statespect` (fluidsim/base/state.py 326-332) and the arrays of `state_spect`. -/
def read3 (s : Flow3) : Var → Arr3 n
  | .vx => .X (gridVal n S fun k => (s.v k).x)
  | .vy => .X (gridVal n S fun k => (s.v k).y)
  | .vz => .X (gridVal n S fun k => (s.v k).z)
  | .b => .X (gridVal n S s.b)
  | .vx_fft => .K fun k => (s.v k).x
  | .vy_fft => .K fun k => (s.v k).y
  | .vz_fft => .K fun k => (s.v k).z
  | .b_fft => .K s.b
  | _ => .K 0

/-- A branch which transforms one computed array. -/
def ofK3 (d : Var) (g : Fld (Fin 3) → Arr3 n) : Rule Flow3 (Arr3 n) :=
  ⟨[d], fun _ l => match l with
    | [.K a] => some (g a)
    | _ => none, none⟩

/-- The branches of `StateNS3D.compute` (fluidsim/solvers/ns3d/state.py 54-108). -/
def rules3 : Var → Option (Rule Flow3 (Arr3 n))
  | .rotz_fft => some ⟨[], fun s _ => some (.K fun k => rotzFft (wave3 δ k) (s.v k).x (s.v k).y), none⟩
  | .rotz => some ⟨[], fun s _ =>
      some (.X (gridVal n S fun k => rotzFft (wave3 δ k) (s.v k).x (s.v k).y)), none⟩
  | .divh => some ⟨[], fun s _ => some (.X (gridVal n S fun k => divh (wave3 δ k) (s.v k).x (s.v k).y)), none⟩
  | .divh_fft => some ⟨[], fun s _ => some (.K fun k => divh (wave3 δ k) (s.v k).x (s.v k).y), none⟩
  | .vp_fft => some ⟨[], fun s _ => some (.K fun k => vpFromVec (wave3 δ k) (s.v k)), none⟩
  | .vp => some (ofK3 n .vp_fft fun a => .X (gridVal n S a))
  | .vt_fft => some ⟨[], fun s _ => some (.K fun k => vtFromVec (wave3 δ k) (s.v k)), none⟩
  | .vt => some (ofK3 n .vt_fft fun a => .X (gridVal n S a))
  | _ => none

/-- `StateNS3D` (ns3d/state.py 20-40). -/
def ns3dState : Sys Flow3 (Arr3 n) where
  spect := [.vx_fft, .vy_fft, .vz_fft]
  phys := [.vx, .vy, .vz]
  computable := [.rotz, .divh, .rotz_fft, .divh_fft, .vp, .vt, .vp_fft, .vt_fft]
  read := read3 n S
  rules := rules3 δ n S

/-- `StateNS3DStrat` (fluidsim/solvers/ns3d/strat/state.py 16-27), also used by ns3d.bouss
(ns3d/bouss/solver.py 24-32). -/
def strat3State : Sys Flow3 (Arr3 n) where
  spect := [.vx_fft, .vy_fft, .vz_fft, .b_fft]
  phys := [.vx, .vy, .vz, .b]
  computable := [.rotz, .divh, .rotz_fft, .divh_fft, .vp, .vt, .vp_fft, .vt_fft]
  read := read3 n S
  rules := rules3 δ n S

/-! ### plate2d -/

/-- State of plate2d. -/
structure Plate where
  w : Fld (Fin 2)
  z : Fld (Fin 2)

/-- `statephys_from_statespect` (fluidsim/solvers/plate2d/state.py 74-82) and `state_spect`. -/
def readPlate (m : Fin 2 → ℕ) (S : Finset (Fin 2 → ℤ)) (s : Plate) : Var → Arr m
  | .w => .X (gridVal m S s.w)
  | .z => .X (gridVal m S s.z)
  | .w_fft => .K s.w
  | .z_fft => .K s.z
  | _ => .K 0

/-- `StatePlate2D` (plate2d/state.py 18-72). `G` is the set of all the modes of the arrays. "chi_fft" is
`invlaplacian_fft(..., order=4, negative=True)`, "lapz_fft" is `laplacian_fft(z_fft, order=4)` (C30). -/
def plateState (m : Fin 2 → ℕ) (ε : Fin 2 → ℝ) (S G : Finset (Fin 2 → ℤ)) : Sys Plate (Arr m) where
  spect := [.w_fft, .z_fft]
  phys := [.w, .z]
  computable := [.chi_fft, .chi, .Nw_fft, .lapz_fft]
  read := readPlate m S
  rules := fun key => match key with
    | .chi_fft => some (direct fun s => .K (chiFft m ε S s.z))
    | .chi => some (ofK .chi_fft fun _ a => .X (gridVal m G a))
    | .Nw_fft => some (ofK .chi_fft fun s a => .K (fftCoef m (mongeAmpere m ε S G s.z a)))
    | .lapz_fft => some (direct fun s => .K fun k =>
        s.z k * ((((ε 0 * k 0) ^ 2 + (ε 1 * k 1) ^ 2) ^ 2 : ℝ) : ℂ))
    | _ => none

end

end Verif.StateVars
