import Verif.Energy.Model
import Mathlib.Analysis.Complex.Trigonometric
import Mathlib.Analysis.Real.Sqrt

/-!
# Model of the initial fields (`params.init_fields`)

Models `fluidsim/base/init_fields.py` and the `init_fields.py` of the solvers ns2d, ns2d.strat, ns3d, sw1l, plate2d
and ad1d. The random draws are arbitrary arrays. The transforms are those of `Verif.Fourier`; the inverse transform
of an array which is not the transform of a real field (the draws in spectral space) is the complex to real
transform of the half spectrum `kx ≥ 0`.
-/

namespace Verif.InitFields

open Verif.Fourier Verif.Energy Verif.Vectors Verif.Forcing Finset

noncomputable section

/-! ### Noise -/

/-- `H_smooth` (ns2d/init_fields.py 65-66, ns3d/init_fields.py 115-116, 160-161, plate2d/init_fields.py 36-37). -/
def hSmooth (x delta : ℝ) : ℝ := (1 + Real.tanh (2 * Real.pi * x / delta)) / 2

/-- The filter (ns2d/init_fields.py 91-94): `k0 = 2 π / lambda0`, `delta_k0 = k0`. -/
def filter (lambda0 K : ℝ) : ℝ :=
  let k0 := 2 * Real.pi / lambda0
  hSmooth (k0 - K) (1 * k0)

/-- Outcome of the choice of the cutoff scale. -/
abbrev Res := Except String

/-- `lambda0` and the division `2 π / lambda0` of ns2d (ns2d/init_fields.py 61-63, 91); the parameter is a number or
None. `2 * np.pi / None` raises TypeError. -/
def lambdaNs2d (length : Option ℝ) (lx ly : ℝ) : Res ℝ :=
  match length with
  | none => .error "TypeError"
  | some l => .ok (if l = 0 then min lx ly / 4 else l)

/-- The same in plate2d (plate2d/init_fields.py 32-34). -/
def lambdaPlate (length : Option ℝ) (lx : ℝ) : Res ℝ :=
  match length with
  | none => .error "TypeError"
  | some l => .ok (if l = 0 then lx / 4 else l)

/-- `lambda0` of the velocity in ns3d (ns3d/init_fields.py 156-158, 178); division of a Python number by zero. -/
def lambdaNs3dVelocity (length : Option ℝ) (lx : ℝ) : Res ℝ :=
  match length with
  | none => .ok (lx / 4)
  | some l => if l = 0 then .error "ZeroDivisionError" else .ok l

/-- `lambda0` of the other variables (the buoyancy) in ns3d (ns3d/init_fields.py 111-113, 118). -/
def lambdaNs3dOther (length : Option ℝ) (lx ly lz : ℝ) : Res ℝ :=
  match length with
  | none => .ok (min (min lx ly) lz / 4)
  | some l => if l = 0 then .error "ZeroDivisionError" else .ok l

/-- Modulus of the wavevector (`oper.K`) in 2D. -/
def knorm2 (δ : Fin 2 → ℝ) (k : Fin 2 → ℤ) : ℝ := √((δ 0 * k 0) ^ 2 + (δ 1 * k 1) ^ 2)

/-- `oper.projection_perp` (fluidfft operators2d, called in ns2d/init_fields.py 88) at one mode, with the protection
of the zero mode. -/
def projPerp (kx ky : ℝ) (u : ℂ × ℂ) : ℂ × ℂ :=
  let a := (kx * u.1 + ky * u.2) / k2not0 kx ky
  (u.1 - kx * a, u.2 - ky * a)

/-- Complex to real inverse transform of the half spectrum (`oper.ifft2`, ns2d/init_fields.py 96-97): `S` is the set
of the modes which have not been truncated; the modes `kx < 0` are not stored. -/
def ifftHalf (n : Fin 2 → ℕ) (S : Finset (Fin 2 → ℤ)) (f : Fld (Fin 2)) (j : Pt n) : ℝ :=
  (∑ k ∈ S with 0 ≤ k 0, (if k 0 = 0 then 1 else 2) * f k * chi n k j).re

/-- The drawn arrays after the cancellation of the zero mode, `projection_perp` and the filter (ns2d/init_fields.py
84-94) at one mode; `oper.dealiasing` is represented by `S` in `ifftHalf`. -/
def filtered2 (δ : Fin 2 → ℝ) (lambda0 : ℝ) (rx ry : Fld (Fin 2)) (k : Fin 2 → ℤ) : ℂ × ℂ :=
  let p := projPerp (δ 0 * k 0) (δ 1 * k 1) (if k = 0 then (0, 0) else (rx k, ry k))
  (p.1 * filter lambda0 (knorm2 δ k), p.2 * filter lambda0 (knorm2 δ k))

/-- `ux`, `uy` before the normalisation (ns2d/init_fields.py 96-97). -/
def drawn2 (n : Fin 2 → ℕ) (S : Finset (Fin 2 → ℤ)) (δ : Fin 2 → ℝ) (lambda0 : ℝ) (rx ry : Fld (Fin 2))
    (j : Pt n) : ℝ × ℝ :=
  (ifftHalf n S (fun k => (filtered2 δ lambda0 rx ry k).1) j,
   ifftHalf n S (fun k => (filtered2 δ lambda0 rx ry k).2) j)

/-- Maximum over the grid of the modulus of a plane vector field (ns2d/init_fields.py 98-100; `allreduce` with MAX). -/
def maxNorm2 {n : Fin 2 → ℕ} (u : Pt n → ℝ × ℝ) : ℝ := ⨆ j, √((u j).1 ^ 2 + (u j).2 ^ 2)

/-- `compute_rotuxuy_fft` (ns2d/init_fields.py 57-108): the returned `rot_fft`. -/
def noiseRot (n : Fin 2 → ℕ) (S : Finset (Fin 2 → ℤ)) (δ : Fin 2 → ℝ) (lambda0 veloMax : ℝ)
    (rx ry : Fld (Fin 2)) : Fld (Fin 2) := fun k =>
  let u := drawn2 n S δ lambda0 rx ry
  rotFromVec (δ 0 * k 0) (δ 1 * k 1)
    (fftCoef n (fun j => ((veloMax * (u j).1 / maxNorm2 u : ℝ) : ℂ)) k)
    (fftCoef n (fun j => ((veloMax * (u j).2 / maxNorm2 u : ℝ) : ℂ)) k)

/-- The state of ns2d after `init_from_rotfft` (ns2d/state.py 111-115): truncation; the velocity on the grid
(ns2d/state.py 90-101). -/
def stateVel2 (n : Fin 2 → ℕ) (S : Finset (Fin 2 → ℤ)) (δ : Fin 2 → ℝ) (rot : Fld (Fin 2)) (j : Pt n) : ℝ × ℝ :=
  ((gridVal n S (ux2 δ rot) j).re, (gridVal n S (uy2 δ rot) j).re)

/-- Plates (plate2d/init_fields.py 28-76): `w` and `z` on the grid, before the last transforms. -/
def noisePlate (n : Fin 2 → ℕ) (S : Finset (Fin 2 → ℤ)) (δ : Fin 2 → ℝ) (lambda0 veloMax : ℝ) (rw rz : Fld (Fin 2))
    (j : Pt n) : ℝ × ℝ :=
  let f := fun (r : Fld (Fin 2)) (k : Fin 2 → ℤ) => (if k = 0 then 0 else r k) * filter lambda0 (knorm2 δ k)
  let u := fun j => (ifftHalf n S (f rw) j, ifftHalf n S (f rz) j)
  (veloMax * (u j).1 / maxNorm2 u, veloMax * (u j).2 / maxNorm2 u)

/-- Modulus of the wavevector in 3D (`np.sqrt(oper.K2)`). -/
def knorm3 (δ : Fin 3 → ℝ) (k : Fin 3 → ℤ) : ℝ := √((δ 0 * k 0) ^ 2 + (δ 1 * k 1) ^ 2 + (δ 2 * k 2) ^ 2)

/-- The drawn velocity of ns3d in spectral space (ns3d/init_fields.py 166-183): transform of the draw `r` (in
physical space), zero mean, projection, filter. -/
def filtered3 (n : Fin 3 → ℕ) (δ : Fin 3 → ℝ) (lambda0 : ℝ) (r : Pt n → ℝ × ℝ × ℝ) (k : Fin 3 → ℤ) : V3 :=
  let p := perpk (wave3 δ k) (if k = 0 then ⟨0, 0, 0⟩ else
    fftVec n (fun j => ⟨((r j).1 - 0.5 : ℝ), ((r j).2.1 - 0.5 : ℝ), ((r j).2.2 - 0.5 : ℝ)⟩) k)
  let h := (filter lambda0 (knorm3 δ k) : ℂ)
  ⟨p.x * h, p.y * h, p.z * h⟩

/-- The drawn velocity on the grid (ns3d/init_fields.py 184). -/
def drawn3 (n : Fin 3 → ℕ) (S : Finset (Fin 3 → ℤ)) (δ : Fin 3 → ℝ) (lambda0 : ℝ) (r : Pt n → ℝ × ℝ × ℝ)
    (j : Pt n) : ℝ × ℝ × ℝ :=
  let v := gridVec n S (filtered3 n δ lambda0 r) j
  (v.x.re, v.y.re, v.z.re)

/-- Maximum over the grid of the modulus of a vector field (ns3d/init_fields.py 186-190). -/
def maxNorm3 {n : Fin 3 → ℕ} (u : Pt n → ℝ × ℝ × ℝ) : ℝ := ⨆ j, √((u j).1 ^ 2 + (u j).2.1 ^ 2 + (u j).2.2 ^ 2)

/-- `compute_solenoidal_noise_fft` (ns3d/init_fields.py 153-196). -/
def noiseVel3 (n : Fin 3 → ℕ) (S : Finset (Fin 3 → ℤ)) (δ : Fin 3 → ℝ) (lambda0 veloMax : ℝ)
    (r : Pt n → ℝ × ℝ × ℝ) (k : Fin 3 → ℤ) : V3 :=
  let v := drawn3 n S δ lambda0 r
  fftVec n (fun j => ⟨(veloMax * (v j).1 / maxNorm3 v : ℝ), (veloMax * (v j).2.1 / maxNorm3 v : ℝ),
    (veloMax * (v j).2.2 / maxNorm3 v : ℝ)⟩) k

/-- The other variables of ns3d, for example the buoyancy (ns3d/init_fields.py 124-142); `G` is the set of all the
modes of the arrays. -/
def filteredB (n : Fin 3 → ℕ) (δ : Fin 3 → ℝ) (lambda0 : ℝ) (r : Pt n → ℝ) (k : Fin 3 → ℤ) : ℂ :=
  (if k = 0 then 0 else fftCoef n (fun j => ((r j : ℝ) : ℂ)) k) * filter lambda0 (knorm3 δ k)

def noiseB (n : Fin 3 → ℕ) (G : Finset (Fin 3 → ℤ)) (δ : Fin 3 → ℝ) (lambda0 fieldMax : ℝ) (r : Pt n → ℝ)
    (k : Fin 3 → ℤ) : ℂ :=
  ((fieldMax / ⨆ j, |(gridVal n G (filteredB n δ lambda0 r) j).re| : ℝ) : ℂ) * filteredB n δ lambda0 r k

/-- `InitFieldsNoise` of the base class (base/init_fields.py 483-489) at one point: `r` is drawn by
`np.random.rand`. -/
def noiseBase (max r : ℝ) : ℝ := max / 0.5 * (r - 0.5)

/-! ### Constant -/

/-- `InitFieldsConstant` (base/init_fields.py 459-464) for ns2d: the three physical variables `ux`, `uy`, `rot` on
the grid, and the spectral state (ns2d/state.py 103-109). -/
def constantNs2d (n : Fin 2 → ℕ) (value : ℝ) : (Pt n → ℝ) × (Pt n → ℝ) × (Pt n → ℝ) × Fld (Fin 2) :=
  (fun _ => value, fun _ => value, fun _ => value, fftCoef n fun _ => (value : ℂ))

/-- For a solver with the base state class (base/state.py 318-332), one variable: physical and spectral state. -/
def constantBase {D : Type} [Fintype D] [DecidableEq D] (n : D → ℕ) (value : ℝ) : (Pt n → ℝ) × Fld D :=
  (fun _ => value, fftCoef n fun _ => (value : ℂ))

/-! ### ad1d -/

/-- State of ad1d.pseudo_spect: physical and spectral array; `old` is the spectral array before the
initialisation. -/
structure State1 (n : Fin 1 → ℕ) where
  phys : Pt n → ℝ
  spect : Fld (Fin 1)

/-- `InitFieldsCos` (ad1d/init_fields.py 29-32): the spectral state is not written. -/
def initCos (n : Fin 1 → ℕ) (lx : ℝ) (old : State1 n) : State1 n :=
  { old with phys := fun j => Real.cos (2 * Real.pi * (lx * (j 0 : ℕ) / n 0) / lx) }

/-- `InitFieldsGaussian` (ad1d/init_fields.py 44-50). -/
def initGaussian (n : Fin 1 → ℕ) (lx : ℝ) (_old : State1 n) : State1 n :=
  let s := fun j : Pt n => Real.exp (-(10 * (lx * (j 0 : ℕ) / n 0 - lx / 2)) ^ 2)
  { phys := s, spect := fftCoef n fun j => (s j : ℂ) }

/-! ### Jet and dipole -/

/-- `vorticity_jet` (ns2d/init_fields.py 130-144). -/
def jet (ly y : ℝ) : ℝ :=
  let a := 0.5
  let b := ly / 2
  let e := fun s : ℝ => Real.exp (-((s / a) ^ 2))
  2 * (e (y - ly / 2 + b / 2) - e (y - ly / 2 - b / 2) + e (y - ly / 2 + b / 2 + ly) - e (y - ly / 2 - b / 2 + ly)
    + e (y - ly / 2 + b / 2 - ly) - e (y - ly / 2 - b / 2 - ly))

/-- `rot_fft` of the jet (ns2d/init_fields.py 123-128): `rot_fft[oper.K == 0] = 0`. -/
def jetFft (n : Fin 2 → ℕ) (δ : Fin 2 → ℝ) (ly : ℝ) : Fld (Fin 2) := fun k =>
  if knorm2 δ k = 0 then 0 else fftCoef n (fun j => (jet ly (ly * (j 1 : ℕ) / n 1) : ℂ)) k

/-- `wz_2LO` (ns2d/init_fields.py 172-175). -/
def wz2LO (X Y b : ℝ) : ℝ :=
  2 * Real.exp (-(X ^ 2 + (Y - b / 2) ^ 2)) - 2 * Real.exp (-(X ^ 2 + (Y + b / 2) ^ 2))

/-- One image in `vorticity_shape_1dipole`. -/
def dipoleImage (lx ly x y : ℝ) (ip jp : ℤ) : ℝ :=
  let θ := Real.pi / 2.3
  wz2LO (Real.cos θ * (x - lx / 2 - ip * lx) + Real.sin θ * (y - ly / 2 - jp * ly))
    (Real.cos θ * (y - ly / 2 - jp * ly) - Real.sin θ * (x - lx / 2 - ip * lx)) 2.5

/-- `vorticity_shape_1dipole` (ns2d/init_fields.py 164-187, ns3d/init_fields.py 51-79). -/
def dipole (lx ly x y : ℝ) : ℝ :=
  ∑ ip ∈ ({-1, 0, 1} : Finset ℤ), ∑ jp ∈ ({-1, 0, 1} : Finset ℤ), dipoleImage lx ly x y ip jp

/-! ### sw1l -/

/-- `InitFieldsWave` (sw1l/init_fields.py 51-63): `eta_fft`, `kx = deltakx * ikx`, for the stored modes (`0 ≤ kx`).
`project_fft_on_realX` does not change a real value of the line `ky = 0`. -/
def waveEta (ikx : ℤ) (etaMax : ℝ) : Fld (Fin 2) := fun k =>
  if k 0 = ikx ∧ k 1 = 0 then (etaMax : ℂ) else 0

/-- `sign_list` before the shuffle (sw1l/init_fields.py 142-158): `pm = ones(N); pm[::2] = -1`. -/
def plusMinus (N : ℕ) : List ℝ := (List.range N).map fun i => if i % 2 = 0 then -1 else 1

/-- `vortex_grid_shape` (sw1l/init_fields.py 100-140): the vorticity at the point `(x, y)`; `signs` is a permutation of
`plusMinus`. -/
def vortexGrid (lx ly : ℝ) (nVort : ℕ) (sd : Option ℝ) (omegaMax : ℝ) (signs : List ℝ) (x y : ℝ) : Res ℝ :=
  if nVort % 2 ≠ 0 then .error "ValueError" else
    let dx := lx / nVort
    let dy := ly / nVort
    let s := sd.getD (min dx dy / 12)
    .ok (∑ i ∈ range nVort, ∑ j ∈ range nVort, signs.getD (i * nVort + j) 0 * omegaMax *
      Real.exp (-((x - (i * lx / nVort + dx / 2)) ^ 2 + (y - (j * ly / nVort + dy / 2)) ^ 2) / (2 * s ^ 2)))

/-! ### ns2d.strat, linear mode -/

/-- `put_ones_linear_mode` (ns2d/strat/init_fields.py 105-153), sequential: `linear_mode` has the shape
`(nk0, nk1) = (nky, nkx)`; `meshgrid(arange(nk0), arange(nk1))` gives arrays of shape `(nk1, nk0)`, whose first index
is `iKY` and the second one `iKX`. The list of the cells which are written. -/
def linearCells (nk0 nk1 : ℕ) (imode : ℕ × ℕ) (delta : ℕ) : List (ℕ × ℕ) :=
  ((List.range nk1).flatMap fun r => (List.range nk0).map fun c => (r, c)).filter fun p =>
    imode.1 ≤ p.2 ∧ p.2 + 1 ≤ imode.1 + delta ∧ imode.2 ≤ p.1 ∧ p.1 + 1 ≤ imode.2 + delta

/-- The writings: an index out of the array raises IndexError. -/
def linearMode (nk0 nk1 : ℕ) (imode : ℕ × ℕ) (delta : ℕ) (amplitude N : ℝ) : Res (ℕ × ℕ → ℝ) :=
  let cells := linearCells nk0 nk1 imode delta
  if cells.all fun p => p.1 < nk0 ∧ p.2 < nk1 then
    .ok fun p => amplitude * N ^ 2 * (if p ∈ cells then 1 else 0)
  else .error "IndexError"

/-! ### From a file -/

/-- What is read in a file: the attribute `axes`, the attributes of `/info_simul/params/oper`, the arrays of
`/state_phys`, the attributes `time` and `it`. -/
structure StateFile (A : Type) where
  axes : Option (List String)
  oper : List (String × ℝ)
  arrays : List (String × A)
  time : ℝ
  it : Option ℤ

/-- State and time of a simulation. -/
structure SimState (A : Type) where
  arrays : String → A
  t : ℝ
  it : ℤ

/-- Outcome of the checks: `keyError` is caught (base/init_fields.py 219). -/
inductive Check
  | ok
  | valueError
  | keyError
  deriving DecidableEq, Repr

/-- The loop over the axes (base/init_fields.py 193-218). `params` gives the parameters of `params.oper`; an unknown
parameter of the simulation is an AttributeError in the code, represented by a value different from all the
others (`none`). -/
def checkAxes (params : String → Option ℝ) (oper : List (String × ℝ)) : List String → Check
  | [] => .ok
  | r :: rs =>
    match oper.lookup ("n" ++ r) with
    | none => .keyError
    | some nr => if params ("n" ++ r) ≠ some nr then .valueError else
      match oper.lookup ("L" ++ r) with
      | none => checkAxes params oper rs
      | some lr => if params ("L" ++ r) ≠ some lr then .valueError else checkAxes params oper rs

/-- The legacy checks (base/init_fields.py 220-254); a missing attribute raises KeyError. -/
def checkLegacy (params : String → Option ℝ) (oper : List (String × ℝ)) : Res Unit :=
  match oper.lookup "nx", oper.lookup "ny", oper.lookup "Lx", oper.lookup "Ly" with
  | some nx, some ny, some lx, some ly =>
    if params "nx" ≠ some nx ∨ params "ny" ≠ some ny ∨ params "Lx" ≠ some lx ∨ params "Ly" ≠ some ly then
      .error "ValueError"
    else .ok ()
  | _, _, _, _ => .error "KeyError"

/-- base/init_fields.py 192-254. -/
def checkFile {A : Type} (params : String → Option ℝ) (f : StateFile A) : Res Unit :=
  match f.axes with
  | none => checkLegacy params f.oper
  | some axes => match checkAxes params f.oper axes with
    | .ok => .ok ()
    | .valueError => .error "ValueError"
    | .keyError => checkLegacy params f.oper

/-- `InitFieldsFromFile.__call__` (base/init_fields.py 153-297), sequential, up to the transforms: the arrays of the
keys `keys_phys_needed`, the time and the iteration. -/
def fromFile {A : Type} (zero : A) (params : String → Option ℝ) (needed : List String) (f : StateFile A)
    (s : SimState A) : Res (SimState A) :=
  match checkFile params f with
  | .error e => .error e
  | .ok _ => .ok
    { arrays := fun k => if k ∈ needed then (f.arrays.lookup k).getD zero else s.arrays k
      t := f.time
      it := f.it.getD 0 }

/-! ### Selection -/

/-- `InitFieldsBase.__init__` (base/init_fields.py 104-120) and `__call__` (122-126) with `InitFieldsInScript`
(438-443): the value of `sim.state.is_initialized`. -/
def isInitialized (available : List String) (type : String) (modifAfterInit : Bool) : Res Bool :=
  if type ∉ available then .error "ValueError"
  else .ok (if type = "in_script" then false else !modifAfterInit)

end

end Verif.InitFields
