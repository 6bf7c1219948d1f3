import Verif.Convergence.Spec

/-! # C83: time stepping with perturbations (rounding errors)

Every step of a run adds rounding errors to the state. They are represented by arbitrary perturbations `e k`: of the initial state (`e 0`) and of the
state computed by the step `k` (`e (k + 1)`). The size of the errors of the steps is not derived from the floating-point operations. -/

namespace Verif.Convergence

open Verif Schemes

noncomputable section

variable {ι : Type*}

/-- The simulation with perturbations of the states. Models fluidsim/base/time_stepping/pseudo_spect.py 236-240. -/
def simulationPerturbed (sc : Scheme) (N : Arr ι → Arr ι) (f : Arr ι) (mask : ι → Bool) (ps pa pb : ℕ → Arr ι) (heap : Heap ι)
    (g1 g2 : Arr ι) (useCFL : Bool) (u0 : Arr ι) (e : ℕ → Arr ι) (dt : ℕ → ℝ) : ℕ → TS ι
  | 0 => ⟨heap.set .state (u0 + e 0), Coefs.init f useCFL (dt 0) g1 g2⟩
  | k + 1 =>
    let ts := oneStep sc (fun _ => N) mask (ps k) (pa k) (pb k)
      (simulationPerturbed sc N f mask ps pa pb heap g1 g2 useCFL u0 e dt k) (dt k)
    { ts with heap := ts.heap.set .state (ts.heap .state + e (k + 1)) }

/-- The spectral states computed by a simulation with perturbations. -/
abbrev statesPerturbed (sc : Scheme) (N : Arr ι → Arr ι) (f : Arr ι) (mask : ι → Bool) (ps pa pb : ℕ → Arr ι)
    (heap : Heap ι) (g1 g2 : Arr ι) (cfl : Bool) (u0 : Arr ι) (e : ℕ → Arr ι) (dt : ℕ → ℝ) (k : ℕ) : Arr ι :=
  (simulationPerturbed sc N f mask ps pa pb heap g1 g2 cfl u0 e dt k).heap .state

/-- With an initial error `ε0`, an error `ε` at each step and time steps between `hmin` and `h`, the distance to the solution is bounded by a constant
times `ε0 + h ^ order + ε / hmin`, uniformly in time, when this quantity is small: the errors of the steps accumulate but are not amplified. -/
def ConvergesPerturbed [Fintype ι] (order : ℕ) (T : ℝ) (s : ℝ → Arr ι) (useCFL : Bool)
    (u : (ℕ → Arr ι) → (ℕ → ℝ) → ℕ → Arr ι) : Prop :=
  ∃ C h0 η : ℝ, 0 < h0 ∧ 0 < η ∧ ∀ (h hmin ε0 ε : ℝ) (e : ℕ → Arr ι) (dt : ℕ → ℝ), h ≤ h0 → 0 < hmin → (∀ k, hmin ≤ dt k ∧ dt k ≤ h) →
    (useCFL = false → ∀ k, dt k = dt 0) → ‖e 0‖ ≤ ε0 → (∀ k, ‖e (k + 1)‖ ≤ ε) → ε0 + ε / hmin ≤ η → ∀ k : ℕ, elapsed dt k ≤ T →
      ‖u e dt k - s (elapsed dt k)‖ ≤ C * (ε0 + h ^ order + ε / hmin)

end

end Verif.Convergence
