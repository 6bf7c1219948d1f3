import Verif.Convergence.Spec

/-! # C83: time stepping with a force which depends on the time and on the state

The force is computed once at the beginning of each time step, with the time and the state of this moment
(`one_time_step` of fluidsim/base/time_stepping/base.py 209-213: `self.sim.forcing.compute()`), and the same array is added to
all the tendencies computed during the step (`tendencies_fft += self.forcing.get_forcing()`,
fluidsim/solvers/ns2d/solver.py 191-192, fluidsim/solvers/ns3d/solver.py 243-244; see C33). -/

namespace Verif.Convergence

open Verif Schemes

noncomputable section

variable {ι : Type*}

/-- The simulation with the force `F t u`: in the step `k`, the tendencies are `N(x) + F t_k u_k`, whatever the substep (`u_k` is
the state at the beginning of the step). Models fluidsim/base/time_stepping/base.py 209-213 and pseudo_spect.py 236-240. -/
def simulationForced (sc : Scheme) (N : Arr ι → Arr ι) (F : ℝ → Arr ι → Arr ι) (f : Arr ι) (mask : ι → Bool)
    (ps pa pb : ℕ → Arr ι) (heap : Heap ι) (g1 g2 : Arr ι) (useCFL : Bool) (u0 : Arr ι) (dt : ℕ → ℝ) : ℕ → TS ι
  | 0 => ⟨heap.set .state u0, Coefs.init f useCFL (dt 0) g1 g2⟩
  | k + 1 =>
    let ts := simulationForced sc N F f mask ps pa pb heap g1 g2 useCFL u0 dt k
    let force := F (elapsed dt k) (ts.heap .state)
    oneStep sc (fun _ x => N x + force) mask (ps k) (pa k) (pb k) ts (dt k)

/-- The spectral states computed by a simulation with a force. -/
abbrev statesForced (sc : Scheme) (N : Arr ι → Arr ι) (F : ℝ → Arr ι → Arr ι) (f : Arr ι) (mask : ι → Bool)
    (ps pa pb : ℕ → Arr ι) (heap : Heap ι) (g1 g2 : Arr ι) (cfl : Bool) (u0 : Arr ι) (dt : ℕ → ℝ) (k : ℕ) : Arr ι :=
  (simulationForced sc N F f mask ps pa pb heap g1 g2 cfl u0 dt k).heap .state

/-- `s` is a solution of the truncated equations with the force, `ds/dt = - f s + N(s) + F(t, s)`, on the interval `[0, T]`. -/
structure SolutionForced [Fintype ι] (N : Arr ι → Arr ι) (F : ℝ → Arr ι → Arr ι) (f : Arr ι) (mask : ι → Bool) (T : ℝ)
    (s : ℝ → Arr ι) : Prop where
  deriv : ∀ t ∈ Set.Icc 0 T, HasDerivAt s (N (s t) + F t (s t) - f * s t) t
  truncated : ∀ t ∈ Set.Icc 0 T, ∀ i, mask i = true → s t i = 0

/-- The force is Lipschitz in time and in the state, for the states of a ball. -/
def LocallyLipschitz [Fintype ι] (T : ℝ) (F : ℝ → Arr ι → Arr ι) : Prop :=
  ∀ R : ℝ, ∃ L : ℝ, ∀ t ∈ Set.Icc 0 T, ∀ t' ∈ Set.Icc 0 T, ∀ x y : Arr ι, ‖x‖ ≤ R → ‖y‖ ≤ R →
    ‖F t x - F t' y‖ ≤ L * (|t - t'| + ‖x - y‖)

/-- The schemes without phase shifts. -/
def plain : List Scheme := [.Euler, .RK2, .RK2_trapezoid, .RK4]

end

end Verif.Convergence
