import Verif.EndToEnd.Model
import Verif.Uxuy.Model

/-!
# The runs of the solvers with forces which depend on the step (C95, C96)

The same time steps as in `Verif.EndToEnd` (`oneStep3d`), for all the solvers: `project` is the identity for the solvers in two
dimensions and `project_state_spect` for ns3d. No new code is modelled.
-/

namespace Verif.Symmetry

open Verif.Fourier Verif.Vectors Verif.Energy Verif.Schemes Verif.EndToEnd Finset

noncomputable section

/-- The attributes of the time stepping after `k` steps, from the state `u0`; `N m` are the tendencies (with the force) of the step `m`:
`one_time_step_computation` (fluidsim/base/time_stepping/pseudo_spect.py 236-240, with the projection of ns3d/time_stepping.py 8-20),
called in the loop of fluidsim/base/time_stepping/base.py 209-213, where the force is computed once per step. -/
def stepping {ι : Type*} (project : Arr ι → Arr ι) (sc : Scheme) (N : ℕ → Arr ι → Arr ι) (f : Arr ι) (mask : ι → Bool)
    (ps pa pb : ℕ → Arr ι) (heap : Heap ι) (g1 g2 : Arr ι) (useCFL : Bool) (u0 : Arr ι) (dt : ℕ → ℝ) : ℕ → TS ι
  | 0 => ⟨heap.set .state u0, Coefs.init f useCFL (dt 0) g1 g2⟩
  | k + 1 => oneStep3d project sc (N k) mask (ps k) (pa k) (pb k)
      (stepping project sc N f mask ps pa pb heap g1 g2 useCFL u0 dt k) (dt k)

/-- What is not the physics in a run: the time scheme, the phase shifts of the steps at each mode, the contents of the memory when the
arrays are allocated, `params.time_stepping.USE_CFL` and the time steps. -/
structure Numerics (D V : Type*) where
  sc : Scheme
  ps : ℕ → (D → ℤ) → ℂ
  pa : ℕ → (D → ℤ) → ℂ
  pb : ℕ → (D → ℤ) → ℂ
  heap : Buf → V → (D → ℤ) → ℂ
  g1 : V → (D → ℤ) → ℂ
  g2 : V → (D → ℤ) → ℂ
  cfl : Bool
  dt : ℕ → ℝ

/-- The fields after `k` steps of a run: `S` are the modes kept by the truncation and `G` those of the arrays, `F m` the force of the step
`m` and `u0` the initial fields. -/
def run {D V : Type*} [Fintype D] [DecidableEq (D → ℤ)] (S G : Finset (D → ℤ)) (δ : D → ℝ) (nu : Dissip.Nu)
    (project : Arr (V × G) → Arr (V × G)) (tend : (V → Fld D) → V → Fld D) (c : Numerics D V) (F : ℕ → V → Fld D) (u0 : V → Fld D)
    (k : ℕ) : V → Fld D :=
  fields G ((stepping project c.sc (fun m => onArrays G (forced (F m) tend)) (freqDiss G δ nu) (truncated G S) (fun m i => c.ps m i.2.1)
    (fun m i => c.pa m i.2.1) (fun m i => c.pb m i.2.1) (fun b i => c.heap b i.1 i.2.1) (fun i => c.g1 i.1 i.2.1) (fun i => c.g2 i.1 i.2.1)
    c.cfl (array G u0) c.dt k).heap .state)

/-- The same with the damping frequencies `freq` of the solvers which have their own (`compute_freq_diss`, `compute_freq_complex`). -/
def runFreq {D V : Type*} [Fintype D] [DecidableEq (D → ℤ)] (S G : Finset (D → ℤ)) (freq : V → Fld D)
    (project : Arr (V × G) → Arr (V × G)) (tend : (V → Fld D) → V → Fld D) (c : Numerics D V) (F : ℕ → V → Fld D) (u0 : V → Fld D)
    (k : ℕ) : V → Fld D :=
  fields G ((stepping project c.sc (fun m => onArrays G (forced (F m) tend)) (fun i => freq i.1 i.2.1) (truncated G S)
    (fun m i => c.ps m i.2.1) (fun m i => c.pa m i.2.1) (fun m i => c.pb m i.2.1) (fun b i => c.heap b i.1 i.2.1) (fun i => c.g1 i.1 i.2.1)
    (fun i => c.g2 i.1 i.2.1) c.cfl (array G u0) c.dt k).heap .state)

/-- A run of ns2d: `rot_fft`. -/
def runNs2d (n : Fin 2 → ℕ) (S G : Finset (Fin 2 → ℤ)) (δ : Fin 2 → ℝ) (beta : ℝ) (nu : Dissip.Nu) (c : Numerics (Fin 2) Unit)
    (F : ℕ → Unit → Fld (Fin 2)) (u0 : Unit → Fld (Fin 2)) (k : ℕ) : Unit → Fld (Fin 2) :=
  run S G δ nu id (tend2d n S δ beta) c F u0 k

/-- A run of ns2d.strat: `rot_fft` (0) and `b_fft` (1). -/
def runStrat2d (n : Fin 2 → ℕ) (S G : Finset (Fin 2 → ℤ)) (δ : Fin 2 → ℝ) (N : ℝ) (nu : Dissip.Nu) (c : Numerics (Fin 2) (Fin 2))
    (F : ℕ → Fin 2 → Fld (Fin 2)) (u0 : Fin 2 → Fld (Fin 2)) (k : ℕ) : Fin 2 → Fld (Fin 2) :=
  run S G δ nu id (tendStrat n S δ N) c F u0 k

/-- A run of ns3d: `vx_fft`, `vy_fft`, `vz_fft`. -/
def runNs3d (n : Fin 3 → ℕ) (S G : Finset (Fin 3 → ℤ)) (δ : Fin 3 → ℝ) (f : Option ℝ) (p : Projection) (noVzKz0 : Bool) (nu : Dissip.Nu)
    (c : Numerics (Fin 3) (Fin 3)) (F : ℕ → Fin 3 → Fld (Fin 3)) (u0 : Fin 3 → Fld (Fin 3)) (k : ℕ) : Fin 3 → Fld (Fin 3) :=
  run S G δ nu (project3d G δ p noVzKz0) (tend3d n S δ f p noVzKz0) c F u0 k

/-- A run of ns3d.strat (ns3d.bouss for `N = 0`): `vx_fft`, `vy_fft`, `vz_fft`, `b_fft`. -/
def runStrat3d (n : Fin 3 → ℕ) (S G : Finset (Fin 3 → ℤ)) (δ : Fin 3 → ℝ) (f : Option ℝ) (N : ℝ) (p : Projection) (noVzKz0 : Bool)
    (nu : Dissip.Nu) (c : Numerics (Fin 3) (Fin 4)) (F : ℕ → Fin 4 → Fld (Fin 3)) (u0 : Fin 4 → Fld (Fin 3)) (k : ℕ) :
    Fin 4 → Fld (Fin 3) :=
  run S G δ nu (project3dStrat G δ p noVzKz0) (tend3dStrat n S δ f N p noVzKz0) c F u0 k

end

end Verif.Symmetry
