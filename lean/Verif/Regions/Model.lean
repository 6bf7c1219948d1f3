import Verif.Reduce.Model
import Verif.Energy.Model

/-!
# Energy budgets over regions (C81)

`SpatialMeansRegions` (fluidsim/extend_simul/spatial_means_regions_milestone.py), an extension of ns3d.strat. The
reductions over the processes (`meanRegion`, `fluxes`) are those of `Verif.Reduce.Model` (C46). The numbers are
elements of a field: the rounding of the floats is not modelled, nor are the NaN of empty regions.
-/

namespace Verif.Regions

open Verif.Reduce

inductive Err | value | assertion | unboundLocal | zeroDivision
  deriving DecidableEq, Repr

/-! ### The limits of the regions -/

section limits

variable {K : Type} [Field K] [LinearOrder K]

/-- `np.argmin` of `f 0, …, f n`: the first index of the minimum. -/
def argmin (f : ℕ → K) : ℕ → ℕ
  | 0 => 0
  | n + 1 => if f (n + 1) < f (argmin f n) then n + 1 else argmin f n

/-- `np.argmin(abs(x_seq - x))` (spatial_means_regions_milestone.py 124, 132), `x_seq` has the `nx` values
`i * dx`. -/
def snap (nx : ℕ) (dx x : K) : ℕ := argmin (fun i => |(i : K) * dx - x|) (nx - 1)

/-- The indices of the regions (93-106, 121-133): `ValueError` if the numbers of limits differ. `xmin` and `xmax` are
fractions of `Lx`. -/
def regions (nx : ℕ) (Lx : K) (xmin xmax : List K) : Except Err (List (ℕ × ℕ)) :=
  if xmax.length ≠ xmin.length then .error .value
  else .ok ((xmin.zip xmax).map fun p => (snap nx (Lx / nx) (Lx * p.1), snap nx (Lx / nx) (Lx * p.2)))

end limits

/-! ### The quantities -/

variable {K : Type} [Field K]

/-- What is known at one point of the grid when the line is computed: the state, the fields `ifft(f_d * ...)`, the
force and the parts of the pressure. -/
structure Cell (K : Type) where
  vx : K
  vy : K
  vz : K
  b : K
  dvx : K
  dvy : K
  dvz : K
  db : K
  fx : K
  fy : K
  pNl : K
  pDzB : K
  pForcing : K

structure Config (K : Type) where
  nx : ℕ
  dx : K
  N : K
  deltat : K
  forcing : Bool
  /-- `np.allclose(forcing_fft.get_var("vz_fft"), 0)` -/
  fzZero : Bool

/-- `_compute_means_regions` of a field for one region. -/
def mean (r : ℕ × ℕ) (blocks : List (Block (Cell K))) (g : Cell K → K) : K :=
  meanRegion r.1 r.2 (blocks.map (Block.mapLevel fun _ c => g c))

/-- `_compute_fluxes_regions(field, vx)` for one region. -/
def fluxPair (c : Config K) (r : ℕ × ℕ) (blocks : List (Block (Cell K))) (g : Cell K → K) : K × K :=
  fluxes c.nx r.1 r.2 c.dx (blocks.map (Block.mapLevel fun _ p => p.vx * g p))

/-- `N2b2` (316). -/
def eA (N : K) (c : Cell K) : K := 1 / 2 / N ^ 2 * c.b * c.b

/-- `vh2` (319). -/
def vh2 (c : Cell K) : K := 1 / 2 * (c.vx * c.vx + c.vy * c.vy)

/-- `vz2` (320). -/
def vz2 (c : Cell K) : K := 1 / 2 * c.vz * c.vz

/-- The second line of the files (213-217). -/
def header : List String :=
  ["time", "EK", "EKz", "EA", "epsK", "epsA", "conv_K2A", "PK", "PA",
   "flux_Pnl_xmin", "flux_Pnl_xmax", "flux_v2_xmin", "flux_v2_xmax",
   "flux_P_dz_b_xmin", "flux_P_dz_b_xmax",
   "flux_Pforcing_xmin", "flux_Pforcing_xmax",
   "flux_A_xmin", "flux_A_xmax"]

/-- The line written for one region by `_save_one_time` (299-449), with the forcing. -/
def row (c : Config K) (t : K) (blocks : List (Block (Cell K))) (r : ℕ × ℕ) : List K :=
  let EA := mean r blocks (eA c.N)
  let EKh := mean r blocks vh2
  let EKz := mean r blocks vz2
  let EK := EKh + EKz
  let conv := -mean r blocks fun p => p.b * p.vz
  let epsK := mean r blocks fun p => p.vx * p.dvx + p.vy * p.dvy + p.vz * p.dvz
  let epsA := mean r blocks (fun p => p.b * p.db) / c.N ^ 2
  let PK := mean r blocks fun p => p.vx * p.fx + p.vy * p.fy + (p.fx ^ 2 + p.fy ^ 2) * c.deltat / 2
  let nl := fluxPair c r blocks (·.pNl)
  let v2 := fluxPair c r blocks fun p => vh2 p + vz2 p
  let dzb := fluxPair c r blocks (·.pDzB)
  let fo := fluxPair c r blocks (·.pForcing)
  let a := fluxPair c r blocks (eA c.N)
  [t, EK, EKz, EA, epsK, epsA, conv, PK, 0, nl.1, nl.2, v2.1, v2.2, dzb.1, dzb.2, fo.1, fo.2, a.1, a.2]

/-- `_save_one_time` (299-449): the lines written in the files of the regions. `0.5 / N**2` with `N = 0`: an
error (316). Without forcing `P_forcing` is not defined at line 427. -/
def saveOne [DecidableEq K] (c : Config K) (t : K) (blocks : List (Block (Cell K))) (rs : List (ℕ × ℕ)) :
    Except Err (List (List K)) :=
  if c.N = 0 then .error .zeroDivision
  else if c.forcing then
    if c.fzZero then .ok (rs.map (row c t blocks)) else .error .assertion
  else .error .unboundLocal

/-- `df[name]` for one line of the file (`load`, 451-453: the columns are named by the second line). -/
def col (name : String) (line : List K) : K := line.getD (header.idxOf name) 0

/-- `plot_budget` (468-516): the curves "Forcing", "Viscosity", "Surface fluxes" and "All terms". -/
def forcingCurve (line : List K) : K := col "PK" line + col "PA" line

def viscosityCurve (line : List K) : K := -(col "epsK" line + col "epsA" line)

def fluxCurve (line : List K) : K :=
  (["flux_Pnl", "flux_Pforcing", "flux_A", "flux_P_dz_b"].map fun k =>
    col (k ++ "_xmin") line + col (k ++ "_xmax") line).sum

def allTerms (line : List K) : K :=
  col "PK" line + col "PA" line - (col "epsK" line + col "epsA" line) + fluxCurve line

/-! ### The files -/

/-- One file: the limits written in its first line and its lines of data. -/
structure File (K : Type) where
  xmin : K
  xmax : K
  lines : List (List K)

/-- `_init_files` for one region (204-228): the file is created, or its limits are compared. The text of a float
gives back the float. -/
def initFile [DecidableEq K] (lim : K × K) : Option (File K) → Except Err (File K)
  | none => .ok ⟨lim.1, lim.2, []⟩
  | some f => if f.xmin ≠ lim.1 ∨ f.xmax ≠ lim.2 then .error .value else .ok f

/-- What happens to the file of one region: the creation of the output in a new or restarted simulation
(`__init__`, with the first line, 152-195), or an online save. The numbers are the lines which are saved. -/
inductive Op (K : Type) | start (lim : K × K) (line : List K) | save (line : List K)

/-- `open(path, "a")` (441): a save. -/
def step [DecidableEq K] (f : Option (File K)) : Op K → Except Err (Option (File K))
  | .start lim line => do
    let g ← initFile lim f
    return some { g with lines := g.lines ++ [line] }
  | .save line => .ok (f.map fun g => { g with lines := g.lines ++ [line] })

def run [DecidableEq K] : Option (File K) → List (Op K) → Except Err (Option (File K))
  | f, [] => .ok f
  | f, o :: os => do
    let g ← step f o
    run g os

end Verif.Regions

/-! ### The pressure -/

namespace Verif.Regions

open Verif.Fourier Verif.Energy Verif.Vectors

noncomputable section

/-- `oper.K2_not0` (fluidfft: the zero is replaced by a positive number `e0`). -/
def k2not0 (e0 : ℝ) (k : K3) : ℝ := if k2 k = 0 then e0 else k2 k

/-- `P_nl_fft` (374-412); the Coriolis parameter is not in the vorticity (374-376). -/
def pNlFft (n : Fin 3 → ℕ) (S : Finset (Fin 3 → ℤ)) (δ : Fin 3 → ℝ) (e0 : ℝ) (v : (Fin 3 → ℤ) → V3)
    (k : Fin 3 → ℤ) : ℂ :=
  let q := wave3 δ k
  let f := lamb n S δ none v k;
  -(f.x * (Complex.I * q.x) + f.y * (Complex.I * q.y) + f.z * (Complex.I * q.z)) / ((k2not0 e0 q : ℝ) : ℂ)

/-- The coefficients of `P_forcing` (417-421). -/
def pForcingFft (δ : Fin 3 → ℝ) (e0 : ℝ) (F : (Fin 3 → ℤ) → V3) (k : Fin 3 → ℤ) : ℂ :=
  let q := wave3 δ k;
  -(Complex.I * (q.x * (F k).x + q.y * (F k).y + q.z * (F k).z) / ((k2not0 e0 q : ℝ) : ℂ))

/-- The coefficients of `P_dz_b` (423). -/
def pDzBFft (δ : Fin 3 → ℝ) (e0 : ℝ) (b : Fld (Fin 3)) (k : Fin 3 → ℤ) : ℂ :=
  let q := wave3 δ k;
  -(Complex.I * q.z * b k / ((k2not0 e0 q : ℝ) : ℂ))

/-- The velocity part of `tendencies_nonlin` with forcing (fluidsim/solvers/ns3d/strat/solver.py 138-216), without
truncation: the force is added before the projection (211-214). -/
def velocityTendency (n : Fin 3 → ℕ) (S : Finset (Fin 3 → ℤ)) (δ : Fin 3 → ℝ) (f : Option ℝ)
    (v F : (Fin 3 → ℤ) → V3) (b : Fld (Fin 3)) (k : Fin 3 → ℤ) : V3 :=
  let l := lamb n S δ f v k
  projector .none (wave3 δ k) ⟨l.x + (F k).x, l.y + (F k).y, l.z + b k + (F k).z⟩

end

end Verif.Regions
