import Verif.Symmetry.Model
import Verif.Symmetry.ModelSw1l
import Verif.Galerkin.Spec
import Verif.EndToEnd.Spec
import Verif.Convergence.Spec

/-! # C108: specification

The flows for which the nonlinear terms of the equations vanish: each Fourier mode decays on its own, with the rate of its viscosities. -/

namespace Verif.ExactFlows

open Verif.Fourier Verif.Vectors Verif.Energy Verif.Schemes Verif.EndToEnd Verif.Symmetry Finset

noncomputable section

/-- `K²` for the wavevector of the mode `k`. -/
def wavenumberSq {D : Type*} [Fintype D] (δ : D → ℝ) (k : D → ℤ) : ℝ := ∑ d, (δ d * k d) ^ 2

/-- The fields after the time `t`: the mode `k` is multiplied by `exp(-(nu_2 K² + nu_4 K⁴ + nu_8 K⁸) t)`. -/
def decayed {D V : Type*} [Fintype D] (δ : D → ℝ) (nu : Dissip.Nu) (u0 : V → Fld D) (t : ℝ) : V → Fld D := fun v k =>
  u0 v k * Complex.exp (-(t * (nu.nu2 * wavenumberSq δ k + nu.nu4 * wavenumberSq δ k ^ 2 + nu.nu8 * wavenumberSq δ k ^ 4) : ℝ))

/-- The time steps: not zero and, without `USE_CFL`, fixed. -/
structure TimeSteps {D V : Type*} (c : Numerics D V) : Prop where
  dt : ∀ k, c.dt k ≠ 0
  fix : c.cfl = false → ∀ k, c.dt k = c.dt 0

/-- No force. -/
def noForce {D V : Type*} : ℕ → V → Fld D := fun _ _ _ => 0

/-- Sets of wavevectors such that any two are parallel or have the same length: those of the parallel flows and, for example, of the
Taylor-Green vortices. -/
def ParallelOrSameLength (δ : Fin 2 → ℝ) (A : Set (Fin 2 → ℤ)) : Prop :=
  ∀ p ∈ A, ∀ q ∈ A, (δ 0 * p 0) * (δ 1 * q 1) = (δ 1 * p 1) * (δ 0 * q 0) ∨ wavenumberSq δ p = wavenumberSq δ q

/-- The fields have modes only in `A` and in the modes kept. -/
def Only {D V : Type*} (S : Finset (D → ℤ)) (A : Set (D → ℤ)) (u : V → Fld D) : Prop := ∀ v k, u v k ≠ 0 → k ∈ A ∧ k ∈ S

/-- The modes which vary only in the direction of the vector `a`. -/
def along {D : Type*} (δ : D → ℝ) (a : D → ℝ) : Set (D → ℤ) := {k | ∃ s : ℝ, ∀ d, δ d * k d = s * a d}

/-- The velocity is perpendicular to `a`. -/
def Perpendicular {D : Type*} [Fintype D] (a : D → ℝ) (u : D → Fld D) : Prop := ∀ k, ∑ d, (a d : ℂ) * u d k = 0

/-- Beltrami flows: the vorticity is `lam` times the velocity. -/
structure Beltrami (δ : Fin 3 → ℝ) (lam : ℂ) (v : Fin 3 → Fld (Fin 3)) : Prop where
  x : ∀ k, Galerkin.pd δ 1 (v 2) k - Galerkin.pd δ 2 (v 1) k = lam * v 0 k
  y : ∀ k, Galerkin.pd δ 2 (v 0) k - Galerkin.pd δ 0 (v 2) k = lam * v 1 k
  z : ∀ k, Galerkin.pd δ 0 (v 1) k - Galerkin.pd δ 1 (v 0) k = lam * v 2 k

/-- Geostrophic balance of the shallow water: `f ez × u = -c² ∇η`. -/
structure Geostrophic (p : Sw1l.Par) (u : Fin 3 → Fld (Fin 2)) : Prop where
  x : ∀ k, p.f * u 1 k = p.c2 * Galerkin.pd p.δ 0 (u 2) k
  y : ∀ k, -(p.f * u 0 k) = p.c2 * Galerkin.pd p.δ 1 (u 2) k

end

end Verif.ExactFlows
