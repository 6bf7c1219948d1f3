import Verif.Fourier.Model
import Verif.Vectors.Model
import Verif.Forcing.Model

/-!
# Tendencies of the pseudo-spectral solvers on a grid (C37, C38, C40, C41)

The fields are given by their coefficients on a finite set `S` of integer wavenumbers, the modes kept
by the truncation (`oper.dealiasing` puts the others to zero); transforms and grids are those of
`Verif.Fourier`. The stored half spectrum of real fields is completed by Hermitian symmetry
(hypotheses of the theorems), so that `sum_wavenumbers` is the sum over `S`. Forcing and turbulence
model are disabled.
-/

namespace Verif.Energy

open Verif.Fourier Verif.Vectors Finset

noncomputable section

/-- Coefficients of a field. -/
abbrev Fld (D : Type*) := (D → ℤ) → ℂ

/-- Wavevector of a mode in 3D (`oper.Kx`, `oper.Ky`, `oper.Kz`); `δ` are `deltakx`, `deltaky`,
`deltakz`. -/
def wave3 (δ : Fin 3 → ℝ) (k : Fin 3 → ℤ) : K3 := ⟨δ 0 * k 0, δ 1 * k 1, δ 2 * k 2⟩

/-- `oper.rotfft_from_vecfft` (fluidfft operators3d; called in fluidsim/solvers/ns3d/solver.py
200-202) at one mode. -/
def curl (k : K3) (v : V3) : V3 :=
  ⟨Complex.I * (k.y * v.z - k.z * v.y), Complex.I * (k.z * v.x - k.x * v.z),
    Complex.I * (k.x * v.y - k.y * v.x)⟩

/-- The vorticity with the Coriolis parameter: `_modif_omegafft_with_f` (ns3d/solver.py 176-178,
204-205): `f` is added to the zero mode of `omegaz_fft` if it is not None. -/
def omegaFft (δ : Fin 3 → ℝ) (f : Option ℝ) (v : (Fin 3 → ℤ) → V3) (k : Fin 3 → ℤ) : V3 :=
  let w := curl (wave3 δ k) (v k)
  ⟨w.x, w.y, w.z + if k = 0 then ((f.getD 0 : ℝ) : ℂ) else 0⟩

/-- Inverse transform of the three components. -/
def gridVec {D : Type*} [Fintype D] [DecidableEq D] (n : D → ℕ) (S : Finset (D → ℤ))
    (v : (D → ℤ) → V3) (j : Pt n) : V3 :=
  ⟨gridVal n S (fun k => (v k).x) j, gridVal n S (fun k => (v k).y) j,
    gridVal n S (fun k => (v k).z) j⟩

/-- `vector_product` (fluidfft; called in ns3d/solver.py 226). -/
def cross (v w : V3) : V3 :=
  ⟨v.y * w.z - v.z * w.y, v.z * w.x - v.x * w.z, v.x * w.y - v.y * w.x⟩

/-- Forward transform of the three components. -/
def fftVec {D : Type*} [Fintype D] [DecidableEq D] (n : D → ℕ) (f : Pt n → V3) (k : D → ℤ) : V3 :=
  ⟨fftCoef n (fun j => (f j).x) k, fftCoef n (fun j => (f j).y) k, fftCoef n (fun j => (f j).z) k⟩

/-- `fft(v x omega)` (ns3d/solver.py 184-242). -/
def lamb (n : Fin 3 → ℕ) (S : Finset (Fin 3 → ℤ)) (δ : Fin 3 → ℝ) (f : Option ℝ)
    (v : (Fin 3 → ℤ) → V3) (k : Fin 3 → ℤ) : V3 :=
  fftVec n (fun j => cross (gridVec n S v j) (gridVec n (insert 0 S) (omegaFft δ f v) j)) k

/-- `tendencies_nonlin` of ns3d (fluidsim/solvers/ns3d/solver.py 180-253): projection then
truncation of `fft(v x omega)`. -/
def ns3d (n : Fin 3 → ℕ) (S : Finset (Fin 3 → ℤ)) (δ : Fin 3 → ℝ) (f : Option ℝ) (p : Projection)
    (noVzKz0 : Bool) (v : (Fin 3 → ℤ) → V3) (k : Fin 3 → ℤ) : V3 :=
  if k ∈ S then (projectState p noVzKz0 (wave3 δ k) ⟨lamb n S δ f v k, none⟩).v else ⟨0, 0, 0⟩

/-- `oper.div_vb_fft_from_vb` (fluidfft operators3d; ns3d/strat/solver.py 205). -/
def divVb (n : Fin 3 → ℕ) (S : Finset (Fin 3 → ℤ)) (δ : Fin 3 → ℝ) (v : (Fin 3 → ℤ) → V3)
    (b : Fld (Fin 3)) (k : Fin 3 → ℤ) : ℂ :=
  let g := fftVec n (fun j =>
    let w := gridVec n S v j
    let c := gridVal n S b j
    ⟨w.x * c, w.y * c, w.z * c⟩) k
  Complex.I * ((wave3 δ k).x * g.x + (wave3 δ k).y * g.y + (wave3 δ k).z * g.z)

/-- `tendencies_nonlin` of ns3d.strat (fluidsim/solvers/ns3d/strat/solver.py 138-216, with
`compute_fb_fft` 29-33) and of ns3d.bouss (ns3d/bouss/solver.py 99-175), for which `N = 0`. -/
def ns3dStrat (n : Fin 3 → ℕ) (S : Finset (Fin 3 → ℤ)) (δ : Fin 3 → ℝ) (f : Option ℝ) (N : ℝ)
    (p : Projection) (noVzKz0 : Bool) (v : (Fin 3 → ℤ) → V3) (b : Fld (Fin 3)) (k : Fin 3 → ℤ) :
    ModeState :=
  if k ∈ S then
    let F := lamb n S δ f v k
    projectState p noVzKz0 (wave3 δ k)
      ⟨⟨F.x, F.y, F.z + b k⟩, some (-divVb n S δ v b k - N ^ 2 * (v k).z)⟩
  else ⟨⟨0, 0, 0⟩, some 0⟩

/-! ### 2D -/

/-- `gradfft_from_fft` (fluidfft operators2d; ns2d/solver.py 161): derivative in the direction `d`. -/
def deriv {D : Type*} (δ : D → ℝ) (d : D) (u : Fld D) : Fld D := fun k => Complex.I * (δ d * k d : ℝ) * u k

/-- Velocity of a vorticity field (`oper.vecfft_from_rotfft`; ns2d/solver.py 154). -/
def ux2 (δ : Fin 2 → ℝ) (rot : Fld (Fin 2)) : Fld (Fin 2) := fun k =>
  (Forcing.vecFromRot (δ 0 * k 0) (δ 1 * k 1) (rot k)).1

def uy2 (δ : Fin 2 → ℝ) (rot : Fld (Fin 2)) : Fld (Fin 2) := fun k =>
  (Forcing.vecFromRot (δ 0 * k 0) (δ 1 * k 1) (rot k)).2

/-- `compute_Frot` (fluidsim/solvers/ns2d/solver.py 33-39) at one grid point. -/
def computeFrot (ux uy px py : ℂ) (beta : ℝ) : ℂ :=
  if beta = 0 then -ux * px - uy * py else -ux * px - uy * (py + beta)

/-- `tendencies_nonlin` of ns2d (ns2d/solver.py 111-194). -/
def ns2d (n : Fin 2 → ℕ) (S : Finset (Fin 2 → ℤ)) (δ : Fin 2 → ℝ) (beta : ℝ) (rot : Fld (Fin 2)) :
    Fld (Fin 2) := fun k =>
  if k ∈ S then
    fftCoef n (fun j => computeFrot (gridVal n S (ux2 δ rot) j) (gridVal n S (uy2 δ rot) j)
      (gridVal n S (deriv δ 0 rot) j) (gridVal n S (deriv δ 1 rot) j) beta) k
  else 0

/-- `tendencies_nonlin` of ns2d.strat (fluidsim/solvers/ns2d/strat/solver.py 20-27, 71-181): the
tendencies of the vorticity and of the buoyancy. -/
def ns2dStrat (n : Fin 2 → ℕ) (S : Finset (Fin 2 → ℤ)) (δ : Fin 2 → ℝ) (N : ℝ)
    (rot b : Fld (Fin 2)) : Fld (Fin 2) × Fld (Fin 2) :=
  let ux := gridVal n S (ux2 δ rot)
  let uy := gridVal n S (uy2 δ rot)
  (fun k => if k ∈ S then
      fftCoef n (fun j => -ux j * gridVal n S (deriv δ 0 rot) j - uy j * gridVal n S (deriv δ 1 rot) j) k
        + deriv δ 0 b k
    else 0,
   fun k => if k ∈ S then
      fftCoef n (fun j => -ux j * gridVal n S (deriv δ 0 b) j - uy j * gridVal n S (deriv δ 1 b) j
        - N ^ 2 * uy j) k
    else 0)

/-! ### Plates -/

/-- `monge_ampere_from_fft` (fluidsim/solvers/plate2d/operators.py 23-84) at one grid point; `S` and
`S'` are the sets of modes of the two fields. -/
def mongeAmpere (n : Fin 2 → ℕ) (δ : Fin 2 → ℝ) (S S' : Finset (Fin 2 → ℤ)) (a b : Fld (Fin 2))
    (j : Pt n) : ℂ :=
  let pxx := fun (c : Fld (Fin 2)) k => -c k * ((δ 0 * k 0 : ℝ) : ℂ) ^ 2
  let pyy := fun (c : Fld (Fin 2)) k => -c k * ((δ 1 * k 1 : ℝ) : ℂ) ^ 2
  let pxy := fun (c : Fld (Fin 2)) k => -c k * (((δ 0 * k 0 : ℝ) : ℂ) * ((δ 1 * k 1 : ℝ) : ℂ))
  gridVal n S (pxx a) j * gridVal n S' (pyy b) j + gridVal n S (pyy a) j * gridVal n S' (pxx b) j
    - 2 * gridVal n S (pxy a) j * gridVal n S' (pxy b) j

/-- `chi_fft = -oper.invlaplacian_fft(oper.fft2(mamp_zz), order=4)` (plate2d/solver.py 188-189;
`invlaplacian_fft` puts the mean to zero, see C30). -/
def chiFft (n : Fin 2 → ℕ) (δ : Fin 2 → ℝ) (S : Finset (Fin 2 → ℤ)) (z : Fld (Fin 2)) :
    Fld (Fin 2) := fun k =>
  if k = 0 then 0
  else -(fftCoef n (mongeAmpere n δ S S z z) k / (((δ 0 * k 0) ^ 2 + (δ 1 * k 1) ^ 2) ^ 2 : ℝ))

/-- `tendencies_nonlin` of plate2d (plate2d/solver.py 167-203): tendencies of `w` and `z`. `G` is the
set of all the modes of the arrays: `chi_fft` is not truncated. -/
def plate2d (n : Fin 2 → ℕ) (δ : Fin 2 → ℝ) (S G : Finset (Fin 2 → ℤ)) (w z : Fld (Fin 2)) :
    Fld (Fin 2) × Fld (Fin 2) :=
  let chi := chiFft n δ S z
  (fun k => if k ∈ S then
      -((((δ 0 * k 0) ^ 2 + (δ 1 * k 1) ^ 2) ^ 2 : ℝ) : ℂ) * z k
        + fftCoef n (mongeAmpere n δ S G z chi) k
    else 0,
   fun k => if k ∈ S then w k else 0)

end

end Verif.Energy
