import Verif.Schemes.Spec
import Mathlib.Analysis.Calculus.ContDiff.Defs
import Mathlib.Analysis.Normed.Group.Constructions

/-! # C83: specification of the convergence of the time schemes

The code modelled is `Verif/Schemes/Model.lean`: `one_time_step_computation` with a fixed time step
(fluidsim/base/time_stepping/pseudo_spect.py 236-240). -/

namespace Verif.Convergence

open Verif Schemes

noncomputable section

variable {ι : Type*}

/-- `s` is a solution of the equations of the truncated system, `ds/dt = - f s + N(s)`, around the interval `[0, T]`,
and vanishes at the truncated modes. -/
structure Solution [Fintype ι] (N : Arr ι → Arr ι) (f : Arr ι) (mask : ι → Bool) (T : ℝ) (s : ℝ → Arr ι) : Prop where
  /-- the equation, around the interval -/
  deriv : ∃ δ > 0, ∀ t ∈ Set.Ioo (-δ) (T + δ), HasDerivAt s (N (s t) - f * s t) t
  truncated : ∀ t ∈ Set.Icc 0 T, ∀ i, mask i = true → s t i = 0

/-- The simulation: the attributes of the time stepping after `k` calls of `one_time_step_computation`, from the state
`u0`; the increment of the call `k` is `dt k` (with `useCFL`, it may change at each step; it is computed by the CFL
condition, see C03). The contents of the work arrays and of the arrays of coefficients before the initialisation are
those of `heap`, `g1` and `g2`; `ps k`, `pa k` and `pb k` are the phase shifts used for the step `k`. -/
def simulation (sc : Scheme) (N : Arr ι → Arr ι) (f : Arr ι) (mask : ι → Bool) (ps pa pb : ℕ → Arr ι) (heap : Heap ι)
    (g1 g2 : Arr ι) (useCFL : Bool) (u0 : Arr ι) (dt : ℕ → ℝ) : ℕ → TS ι
  | 0 => ⟨heap.set .state u0, Coefs.init f useCFL (dt 0) g1 g2⟩
  | k + 1 => oneStep sc (fun _ => N) mask (ps k) (pa k) (pb k)
      (simulation sc N f mask ps pa pb heap g1 g2 useCFL u0 dt k) (dt k)

/-- The spectral states computed by a simulation. -/
abbrev states (sc : Scheme) (N : Arr ι → Arr ι) (f : Arr ι) (mask : ι → Bool) (ps pa pb : ℕ → Arr ι)
    (heap : Heap ι) (g1 g2 : Arr ι) (cfl : Bool) (u0 : Arr ι) (dt : ℕ → ℝ) (k : ℕ) : Arr ι :=
  (simulation sc N f mask ps pa pb heap g1 g2 cfl u0 dt k).heap .state

/-- The time after `k` steps. -/
def elapsed (dt : ℕ → ℝ) (k : ℕ) : ℝ := ∑ j ∈ Finset.range k, dt j

/-- The states computed with time steps smaller than `h` converge to the solution, with an error smaller than a constant
times `h ^ order`, uniformly in time. Without the CFL condition, the time step does not change. -/
def ConvergesWithOrder [Fintype ι] (order : ℕ) (T : ℝ) (s : ℝ → Arr ι) (useCFL : Bool)
    (u : (ℕ → ℝ) → ℕ → Arr ι) : Prop :=
  ∃ C h0 : ℝ, 0 < h0 ∧ ∀ (h : ℝ) (dt : ℕ → ℝ), h ≤ h0 → (∀ k, 0 < dt k ∧ dt k ≤ h) →
    (useCFL = false → ∀ k, dt k = dt 0) → ∀ k : ℕ, elapsed dt k ≤ T →
      ‖u dt k - s (elapsed dt k)‖ ≤ C * h ^ order

end

end Verif.Convergence
