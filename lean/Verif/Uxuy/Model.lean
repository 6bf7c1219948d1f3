import Verif.EndToEnd.Model
import Verif.InitFields.Model

/-!
# The solver ns2d.with_uxuy (C90)

`fluidsim/solvers/ns2d/with_uxuy.py`: two-dimensional flow whose spectral state is the velocity. The initialisation of its state is in
`Verif.StateInit`. As in `Verif.Energy`, the modes kept by the truncation are `S`: the fields in physical space are those of the modes
of `S` (the states of a simulation have no other modes).
-/

namespace Verif.Uxuy

open Verif.Fourier Verif.Energy Verif.Schemes Verif.EndToEnd Finset

noncomputable section

/-- `oper.rotfft_from_vecfft(ux_fft, uy_fft)` for all modes (with_uxuy.py 100, 106). -/
def rotOf (δ : Fin 2 → ℝ) (u : Fin 2 → Fld (Fin 2)) : Fld (Fin 2) := fun k =>
  Forcing.rotFromVec (δ 0 * k 0) (δ 1 * k 1) (u 0 k) (u 1 k)

/-- `oper.vecfft_from_rotfft(rot_fft)` for all modes (with_uxuy.py 40, 131). -/
def vecOf (δ : Fin 2 → ℝ) (rot : Fld (Fin 2)) : Fin 2 → Fld (Fin 2)
  | 0 => ux2 δ rot
  | 1 => uy2 δ rot

/-- `Frot_fft` (with_uxuy.py 98-129): the velocities in physical space are those of the state (`state_phys` or `ifft_as_arg`, which are
the same), the gradient is the one of the vorticity of the state. -/
def frotFft (n : Fin 2 → ℕ) (S : Finset (Fin 2 → ℤ)) (δ : Fin 2 → ℝ) (beta : ℝ) (u : Fin 2 → Fld (Fin 2)) : Fld (Fin 2) := fun k =>
  if k ∈ S then
    fftCoef n (fun j => computeFrot (gridVal n S (u 0) j) (gridVal n S (u 1) j)
      (gridVal n S (Energy.deriv δ 0 (rotOf δ u)) j) (gridVal n S (Energy.deriv δ 1 (rotOf δ u)) j) beta) k
  else 0

/-- `tendencies_nonlin` (with_uxuy.py 91-139), without the force, which is added with `EndToEnd.forced` (136-137). -/
def tendUxuy (n : Fin 2 → ℕ) (S : Finset (Fin 2 → ℤ)) (δ : Fin 2 → ℝ) (beta : ℝ) (u : Fin 2 → Fld (Fin 2)) : Fin 2 → Fld (Fin 2) :=
  vecOf δ (frotFft n S δ beta u)

/-- `oper.projection_perp(ux_fft, uy_fft)` (fluidfft operators2d; with_uxuy.py 19) for all modes. -/
def perpOf (δ : Fin 2 → ℝ) (u : Fin 2 → Fld (Fin 2)) : Fin 2 → Fld (Fin 2)
  | 0 => fun k => (InitFields.projPerp (δ 0 * k 0) (δ 1 * k 1) (u 0 k, u 1 k)).1
  | 1 => fun k => (InitFields.projPerp (δ 0 * k 0) (δ 1 * k 1) (u 0 k, u 1 k)).2

/-- The same for the arrays. -/
def projectUxuy (G : Finset (Fin 2 → ℤ)) (δ : Fin 2 → ℝ) (a : Arr (Fin 2 × G)) : Arr (Fin 2 × G) := array G (perpOf δ (fields G a))

/-- `one_time_step_computation` (with_uxuy.py 12-22): the scheme, the truncation, then the projection. The conversion to physical space
and the test for nan do not change the spectral state. -/
def oneStepUxuy {ι : Type*} (project : Arr ι → Arr ι) (sc : Scheme) (N : Arr ι → Arr ι) (mask : ι → Bool) (ps pa pb : Arr ι)
    (s : TS ι) (dt : ℝ) : TS ι :=
  let r := s.coefs.get dt
  let h := Schemes.dealias mask .state (timeStepRK sc (fun _ => N) dt r.2.1 r.2.2 ps pa pb s.heap)
  { heap := h.set .state (project (h .state)), coefs := r.1 }

/-- The attributes of the time stepping after `k` steps, from the state `u0` (as `Convergence.simulation` for the other solvers). -/
def simulationUxuy {ι : Type*} (project : Arr ι → Arr ι) (sc : Scheme) (N : Arr ι → Arr ι) (f : Arr ι) (mask : ι → Bool)
    (ps pa pb : ℕ → Arr ι) (heap : Heap ι) (g1 g2 : Arr ι) (useCFL : Bool) (u0 : Arr ι) (dt : ℕ → ℝ) : ℕ → TS ι
  | 0 => ⟨heap.set .state u0, Coefs.init f useCFL (dt 0) g1 g2⟩
  | k + 1 => oneStepUxuy project sc N mask (ps k) (pa k) (pb k)
      (simulationUxuy project sc N f mask ps pa pb heap g1 g2 useCFL u0 dt k) (dt k)

/-- `compute_energy_fft` (with_uxuy.py 61-65) at a mode. -/
def energyFft (u : Fin 2 → Fld (Fin 2)) (k : Fin 2 → ℤ) : ℝ := (‖u 0 k‖ ^ 2 + ‖u 1 k‖ ^ 2) / 2

/-- A run of ns2d.with_uxuy: the fields `ux_fft` (0) and `uy_fft` (1) after `k` steps. The phase shifts are the same for the two
variables (arrays of modes, broadcast). -/
def runUxuy (n : Fin 2 → ℕ) (S G : Finset (Fin 2 → ℤ)) (δ : Fin 2 → ℝ) (beta : ℝ) (nu : Dissip.Nu) (sc : Scheme)
    (F : Fin 2 → Fld (Fin 2)) (ps pa pb : ℕ → G → ℂ) (heap : Heap (Fin 2 × G)) (g1 g2 : Arr (Fin 2 × G)) (cfl : Bool)
    (u0 : Fin 2 → Fld (Fin 2)) (dt : ℕ → ℝ) (k : ℕ) : Fin 2 → Fld (Fin 2) :=
  fields G ((simulationUxuy (projectUxuy G δ) sc (onArrays G (forced F (tendUxuy n S δ beta))) (freqDiss G δ nu) (truncated G S)
    (fun m i => ps m i.2) (fun m i => pa m i.2) (fun m i => pb m i.2) heap g1 g2 cfl (array G u0) dt k).heap .state)

end

end Verif.Uxuy
