import Verif.SpectBudget.Model
import Verif.Galerkin.Spec
import Mathlib.Analysis.Calculus.Deriv.Basic

/-! # Specification for C58: histories of the modes -/

namespace Verif.SpectBudget

open Verif.Fourier Verif.Energy Verif.Vectors Verif.Galerkin Finset

noncomputable section

/-- At the time `t` the coefficients of `a` change with the tendency `T` and are damped with the
frequency `σ`. -/
def Evolves {D : Type*} (S : Finset (D → ℤ)) (a : ℝ → Fld D) (T : Fld D) (σ : (D → ℤ) → ℝ) (t : ℝ) :
    Prop := ∀ k ∈ S, HasDerivAt (fun s => a s k) (T k - σ k * a t k) t

/-- The same for the three components of a velocity. -/
def EvolvesV (S : Finset (Fin 3 → ℤ)) (v : ℝ → (Fin 3 → ℤ) → V3) (T : (Fin 3 → ℤ) → V3)
    (σ : (Fin 3 → ℤ) → ℝ) (t : ℝ) : Prop :=
  Evolves S (fun s k => (v s k).x) (fun k => (T k).x) σ t ∧
  Evolves S (fun s k => (v s k).y) (fun k => (T k).y) σ t ∧
  Evolves S (fun s k => (v s k).z) (fun k => (T k).z) σ t

/-- `1/2 |a(k)|²`. -/
def half (a : ℂ) : ℝ := ‖a‖ ^ 2 / 2

/-- Kinetic energy of a mode. -/
def energy3 (v : V3) : ℝ := half v.x + half v.y + half v.z

/-- Each mode is shared between the bins. -/
def Shared {D : Type*} (S : Finset (D → ℤ)) (w : (D → ℤ) → ℕ → ℝ) (nb : ℕ) : Prop :=
  ∀ k ∈ S, ∑ i ∈ range nb, w k i = 1

def SharedKzkh (S : Finset (Fin 3 → ℤ)) (w : (Fin 3 → ℤ) → ℕ → ℕ → ℝ) (nkz nkh : ℕ) : Prop :=
  ∀ k ∈ S, ∑ z ∈ range nkz, ∑ h ∈ range nkh, w k z h = 1

end

end Verif.SpectBudget
