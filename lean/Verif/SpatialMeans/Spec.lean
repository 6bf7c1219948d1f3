import Verif.SpatialMeans.Model
import Verif.SpectBudget.Spec

/-! # Specification for C59: means over the grid, and the effect of the forcing alone -/

namespace Verif.SpatialMeans

open Verif.Fourier Verif.Energy Verif.Vectors Finset

noncomputable section

/-- Mean over the points of the grid. -/
def gridMean {D : Type*} [Fintype D] [DecidableEq D] (n : D → ℕ) (f : Pt n → ℝ) : ℝ :=
  (∑ j, f j) / ∏ d, (n d : ℝ)

/-- Value at a grid point of the field with the coefficients `a` on `S`. -/
def phys {D : Type*} [Fintype D] [DecidableEq D] (n : D → ℕ) (S : Finset (D → ℤ)) (a : Fld D)
    (j : Pt n) : ℝ := (gridVal n S a j).re

/-- The coefficients after a constant forcing `F` has acted alone during `dt`. -/
def kick {D : Type*} (dt : ℝ) (a F : Fld D) : Fld D := fun k => a k + dt * F k

def kickV (dt : ℝ) (v F : (Fin 3 → ℤ) → V3) : (Fin 3 → ℤ) → V3 := fun k =>
  ⟨(v k).x + dt * (F k).x, (v k).y + dt * (F k).y, (v k).z + dt * (F k).z⟩

def kickSw (dt : ℝ) (s F : Sw) : Sw := ⟨kick dt s.ux F.ux, kick dt s.uy F.uy, kick dt s.eta F.eta⟩

def RealSw (S : Finset (Fin 2 → ℤ)) (s : Sw) : Prop := RealOn S s.ux ∧ RealOn S s.uy ∧ RealOn S s.eta

end

end Verif.SpatialMeans
