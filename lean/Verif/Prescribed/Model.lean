import Verif.Motion.Model
import Verif.Energy.Model
import Mathlib.Analysis.Complex.Trigonometric
import Mathlib.Analysis.Real.Sqrt

/-!
# Model of the prescribed forces: moving objects, Taylor-Green and Kolmogorov flows, wave makers

Real arithmetic instead of floating point. A field on the grid is a function of the grid point; the positions of
the objects come from `Verif.Motion.Model`.
-/

namespace Verif.Prescribed

open Verif.Fourier Verif.Energy Verif.Motion Finset

noncomputable section

/-! ### Moving objects (`milestone`) -/

/-- `step` (fluidsim/base/forcing/milestone.py 23-24). -/
def step (x limit smoothness : ℝ) : ℝ := 0.5 * (Real.tanh ((-x + limit) / smoothness) + 1)

/-- `self.y_coors` (milestone.py 219-221): `mesh * (1 / 2 + np.arange(number_objects))`. -/
def yCoors (ly : ℝ) (number : ℕ) : List ℝ :=
  (List.range number).map fun i : ℕ => ly / number * (1 / 2 + (i : ℝ))

/-- `get_solid_field` (milestone.py 262-283) at the grid point `(X, Y)`: the sum over the objects and over the
images -1, 0, 1 in the direction x. -/
def solidAt (lx radius width : ℝ) (xs ys : List ℝ) (X Y : ℝ) : ℝ :=
  ((xs.zip ys).map fun c => (([-1, 0, 1] : List ℝ).map fun i =>
    step (√((X - (c.1 + i * lx)) ^ 2 + (Y - c.2) ^ 2)) radius width).sum).sum

/-- `get_locations` for the objects, all at the same `x` (milestone.py 248-252, 285-304), and `get_solid_field`. -/
def solidField (lx ly diameter width x : ℝ) (number : ℕ) (X Y : ℝ) : ℝ :=
  solidAt lx (diameter / 2) width (List.replicate number x) (yCoors ly number) X Y

/-- `self.sigma` (milestone.py 210-217, also ns3d/forcing/watu.py 168-177): `gamma = 2`, `n_dt = 4`. -/
def sigma (deltatMax : ℝ) : ℝ := 2 / 4 / deltatMax

/-- `fx` (milestone.py 424-425; ns3d/forcing/milestone.py 112-113). -/
def forceX (sig solid speed ux : ℝ) : ℝ := sig * solid * (speed - ux)

/-- `fy` (milestone.py 433-434; ns3d/forcing/milestone.py 116). -/
def forceY (sig solid uy : ℝ) : ℝ := -sig * solid * uy

/-- The treatment of `params.forcing.milestone.nx_max` (milestone.py 198-206): the value which is used. -/
def nxMaxUsed (nxMax : Option ℕ) (nx : ℕ) : Except String (Option ℕ) :=
  match nxMax with
  | none => .ok none
  | some m => if m > nx then .error "ValueError" else if m = nx then .ok none else .ok (some m)

/-- `params.oper.ny` of the coarse operator (milestone.py 178-179; ns3d/forcing/milestone.py 37-38):
`2 * int(nx * ly / lx / 2)`. -/
def nyCoarse (nx : ℕ) (lx ly : ℝ) : ℕ := 2 * ⌊nx * ly / lx / 2⌋₊

/-- The forcing of `rot_fft` for the solvers of the vorticity (milestone.py 424-431, `init_from_rotfft` of
ns2d/state.py 113-117): `fy_fft = 0`; the modes out of `S` are truncated. -/
def milestoneRot (n : Fin 2 → ℕ) (S : Finset (Fin 2 → ℤ)) (δ : Fin 2 → ℝ) (fx : Pt n → ℝ) : Fld (Fin 2) :=
  fun k => if k ∈ S then
    Forcing.rotFromVec (δ 0 * k 0) (δ 1 * k 1) (fftCoef n (fun j => (fx j : ℂ)) k) 0 else 0

/-- `ForcingMilestone.compute` (milestone.py 413-431) for a solver of the vorticity. -/
def computeRot (n : Fin 2 → ℕ) (S : Finset (Fin 2 → ℤ)) (δ : Fin 2 → ℝ) (sig speed : ℝ)
    (solid ux _uy : Pt n → ℝ) : Fld (Fin 2) :=
  milestoneRot n S δ fun j => forceX sig (solid j) speed (ux j)

/-- `ForcingMilestone3D.compute` (ns3d/forcing/milestone.py 101-121), in physical space; `vz_fft` is set to zero by
`init_statespect_from` (ns3d/state.py 110-113). -/
def compute3 (sig speed solid vx vy _vz : ℝ) : ℝ × ℝ × ℝ :=
  (forceX sig solid speed vx, forceY sig solid vy, 0)

/-! ### Taylor-Green -/

/-- `fx` of `ForcingTaylorGreen` (fluidsim/solvers/ns3d/forcing/__init__.py 66-74). -/
def tgX (F0 lx ly lz x y z : ℝ) : ℝ :=
  F0 * Real.sin (2 * Real.pi * x / lx) * Real.cos (2 * Real.pi * y / ly) * Real.cos (2 * Real.pi * z / lz)

/-- `fy` of `ForcingTaylorGreen` (ns3d/forcing/__init__.py 75). -/
def tgY (F0 lx ly lz x y z : ℝ) : ℝ :=
  -F0 * Real.cos (2 * Real.pi * x / lx) * Real.sin (2 * Real.pi * y / ly) * Real.cos (2 * Real.pi * z / lz)

/-! ### Kolmogorov flow -/

/-- The forced variable and the direction of the gradient (fluidsim/base/forcing/kolmogorov.py 82-110), for a
`letter_gradient` of at most one letter. Directions: 0, 1, 2 for x, y, z. -/
def kolmoSetup (dim3 : Bool) (keyForced letter : Option String) : Except String (String × ℕ) :=
  let key := keyForced.getD (if dim3 then "vx" else "ux")
  let key := if key.endsWith "_fft" then (key.dropEnd 4).toString else key
  let letters := if dim3 then ["x", "y", "z"] else ["x", "y"]
  let letter := letter.getD (letters.getLastD "")
  if letter ∈ letters then .ok (key, letters.idxOf letter) else .error "ValueError"

/-- `amplitude * np.sin(2 * np.pi * ik / length * variable)` (kolmogorov.py 153-155, 211) on a grid: the coordinate
of the point `j` in the direction `d` is `length * j / n`. -/
def kolmoField {D : Type} (n : D → ℕ) (d : D) (amplitude length : ℝ) (ik : ℕ) (j : Pt n) : ℝ :=
  amplitude * Real.sin (2 * Real.pi * ik / length * (length * ((j d : ℕ) : ℝ) / n d))

/-- `init_statephys_from_ux` and `statespect_from_statephys` of ns2d (ns2d/state.py 149-153, 104-110). -/
def rotFromUx (n : Fin 2 → ℕ) (δ : Fin 2 → ℝ) (ux : Pt n → ℝ) : Fld (Fin 2) := fun k =>
  Forcing.rotFromVec (δ 0 * k 0) (δ 1 * k 1) (fftCoef n (fun j => (ux j : ℂ)) k) 0

/-- `init_statephys_from_uy` (ns2d/state.py 155-159). -/
def rotFromUy (n : Fin 2 → ℕ) (δ : Fin 2 → ℝ) (uy : Pt n → ℝ) : Fld (Fin 2) := fun k =>
  Forcing.rotFromVec (δ 0 * k 0) (δ 1 * k 1) 0 (fftCoef n (fun j => (uy j : ℂ)) k)

/-! ### Wave makers (`watu_coriolis`) -/

/-- `step_func` (fluidsim/solvers/ns3d/forcing/watu.py 138-140). -/
def stepFunc (width x : ℝ) : ℝ := 0.5 * (Real.tanh (x / width) + 1)

/-- `width` (watu.py 131-136). -/
def watuWidth (amplitude lx : ℝ) (nx : ℕ) : ℝ := max (4 * (lx / nx)) (amplitude / 5)

/-- `maskx` (watu.py 142-149) at the point `(X, Y)`; `masky` (151-155) is the same with the two directions
exchanged. -/
def watuMask (width amplitude lx ly X Y : ℝ) : ℝ :=
  (stepFunc width (-(X - amplitude)) + stepFunc width (X - (lx - amplitude)))
    * stepFunc width (Y - (amplitude + 0.15)) * stepFunc width (-(Y - (ly - (amplitude + 0.15))))

/-- The times of the signal (fluidsim/util/frequency_modulation.py 7-10), with the point added at the end
(watu.py 103-106); the point `i` for `i ≤ nb`. -/
def watuTime (period : ℝ) (nb i : ℕ) : ℝ := if i < nb then period / nb * i else period

/-- The values of the signal, with the point added for periodicity (watu.py 101-102). -/
def watuValue (signal : ℕ → ℝ) (nb i : ℕ) : ℝ := if i < nb then signal i else signal 0

/-- `interp1d(times, signal)(t)` (watu.py 108-112): linear interpolation between the samples around `t`
(`i` is the index of the interval); out of the range of the times: `ValueError`. -/
def interp (period : ℝ) (signal : ℕ → ℝ) (nb : ℕ) (t : ℝ) : Except String ℝ :=
  if t < watuTime period nb 0 ∨ t > watuTime period nb nb then .error "ValueError"
  else
    let i := min ⌊t / (period / nb)⌋₊ (nb - 1)
    let t0 := watuTime period nb i
    let t1 := watuTime period nb (i + 1)
    let y0 := watuValue signal nb i
    let y1 := watuValue signal nb (i + 1)
    .ok (y0 + (y1 - y0) / (t1 - t0) * (t - t0))

/-- `coef_forcing_time_x` (watu.py 184-185). -/
def watuCoef (period : ℝ) (signal : ℕ → ℝ) (nb : ℕ) (t : ℝ) : Except String ℝ :=
  interp period signal nb (pymod t period)

/-- `compute_watu_coriolis_forcing_component` (watu.py 199-208). -/
def watuForce (sig mask coef target velocity : ℝ) : ℝ := sig * mask * (coef * target - velocity)

/-- `compute_forcing_fft_each_time` (watu.py 182-199): the forced components, for `nb_wave_makers` boards (1 or 2,
otherwise `NotImplementedError`, watu.py 62-64) and the number of signals in the file. -/
def watuComponents (nbMakers nbSignals : ℕ) : Except String (List String) :=
  if nbMakers ≠ 1 ∧ nbMakers ≠ 2 then .error "NotImplementedError"
  else if nbSignals < 1 then .error "IndexError"
  else if nbMakers = 1 then .ok ["vx_fft"]
  else if nbSignals < 2 then .error "IndexError"
  else .ok ["vx_fft", "vy_fft"]

/-- The number of signals (watu.py 70-100): those of the file of the directory if it exists, otherwise one signal
for each board is created and saved. -/
def watuSignals (file : Option ℕ) (nbMakers : ℕ) : ℕ := file.getD nbMakers

end

end Verif.Prescribed
