import Verif.Symmetry.Model
import Mathlib.Analysis.Calculus.ContDiff.Operations

/-! # C112: what smooth dependence on the data means

A user varies a simulation (the initial fields, the forces, the time steps) and compares the results: sensitivities, ensembles, gradients
by finite differences. The data depend on a parameter `p` of any normed space, with coefficients `r` times continuously differentiable. -/

namespace Verif.Smooth

open Verif.Fourier Verif.Energy Verif.Schemes Verif.EndToEnd Verif.Symmetry

variable {D V : Type*}

/-- All the coefficients of the fields are `r` times continuously differentiable functions of the parameter. -/
def SmoothFields {E : Type} [NormedAddCommGroup E] [NormedSpace ℝ E] (r : ℕ) (x : E → V → Fld D) : Prop :=
  ∀ v k, ContDiff ℝ r fun p => x p v k

/-- The time steps of a family of runs: never zero, the same for all the steps without `USE_CFL`, smooth in the parameter. -/
structure SmoothSteps {E : Type} [NormedAddCommGroup E] [NormedSpace ℝ E] (r : ℕ) (cfl : Bool) (dt : E → ℕ → ℝ) : Prop where
  ne : ∀ p k, dt p k ≠ 0
  fix : cfl = false → ∀ p k, dt p k = dt p 0
  smooth : ∀ k, ContDiff ℝ r fun p => dt p k

/-- The fields after each step are smooth functions of the initial fields, of the forces of the steps and of the time steps. -/
def DependsSmoothly (run : Numerics D V → (ℕ → V → Fld D) → (V → Fld D) → ℕ → V → Fld D) : Prop :=
  ∀ (c : Numerics D V) (E : Type) [NormedAddCommGroup E] [NormedSpace ℝ E] (r : ℕ) (dt : E → ℕ → ℝ) (F : E → ℕ → V → Fld D)
    (u0 : E → V → Fld D), SmoothSteps r c.cfl dt → (∀ m, SmoothFields r fun p => F p m) → SmoothFields r u0 →
    ∀ k, SmoothFields r fun p => run { c with dt := dt p } (F p) (u0 p) k

end Verif.Smooth
