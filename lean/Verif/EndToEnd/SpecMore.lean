import Verif.EndToEnd.Spec
import Verif.EndToEnd.ModelMore
import Verif.Galerkin.PropsSw1lMod

/-! # C87: specification for the other solvers -/

namespace Verif.EndToEnd

open Verif.Fourier Verif.Energy Verif.Galerkin Verif.Schemes Verif.Convergence Finset

noncomputable section

/-- Boussinesq two-dimensional flow: `∂t ζ = -u·∇ζ + ∂x b`, `∂t b = -u·∇b`, with the dissipation and forces. -/
structure FlowBouss (S : Finset (Fin 2 → ℤ)) (δ : Fin 2 → ℝ) (nu : Dissip.Nu) (F H : Fld (Fin 2)) (T : ℝ)
    (rot b : ℝ → Fld (Fin 2)) : Prop where
  real : ∀ t ∈ Set.Icc 0 T, RealField S (rot t) ∧ RealField S (b t)
  eq : ∀ t ∈ Set.Icc 0 T, ∀ ux uy, Velocity2 S δ (rot t) ux uy → ∀ k ∈ S,
    HasDerivAt (fun t => rot t k) (-advect S δ ![ux, uy] (rot t) k + pd δ 0 (b t) k - dissipation δ nu (rot t) k + F k) t ∧
    HasDerivAt (fun t => b t k) (-advect S δ ![ux, uy] (b t) k - dissipation δ nu (b t) k + H k) t

/-- The Burgers equation: `∂t u = -u ∂x u - dissipation + F`. -/
structure FlowBurgers (S : Finset (Unit → ℤ)) (δ : ℝ) (nu : Dissip.Nu) (F : Fld Unit) (T : ℝ) (u : ℝ → Fld Unit) : Prop where
  real : ∀ t ∈ Set.Icc 0 T, RealField S (u t)
  eq : ∀ t ∈ Set.Icc 0 T, ∀ k ∈ S, HasDerivAt (fun t => u t k)
    (-advect S (fun _ => δ) (fun _ => u t) (u t) k - dissipation (fun _ => δ) nu (u t) k + F k) t

/-- The rotating shallow-water equations, for `u = (ux, uy, η)`: `∂t u = -(u·∇)u - f ez × u - c² ∇η`, `∂t η = -∇·((1 + η) u)`, with the
dissipation of the three variables and forces. -/
structure FlowSw (p : Sw1l.Par) (S : Finset (Fin 2 → ℤ)) (nu : Dissip.Nu) (F : Fin 3 → Fld (Fin 2)) (T : ℝ)
    (u : ℝ → Fin 3 → Fld (Fin 2)) : Prop where
  real : ∀ t ∈ Set.Icc 0 T, ∀ v, RealField S (u t v)
  eqx : ∀ t ∈ Set.Icc 0 T, ∀ k ∈ S, HasDerivAt (fun t => u t 0 k)
    (-advect S p.δ ![u t 0, u t 1] (u t 0) k + p.f * u t 1 k - p.c2 * pd p.δ 0 (u t 2) k - dissipation p.δ nu (u t 0) k + F 0 k) t
  eqy : ∀ t ∈ Set.Icc 0 T, ∀ k ∈ S, HasDerivAt (fun t => u t 1 k)
    (-advect S p.δ ![u t 0, u t 1] (u t 1) k - p.f * u t 0 k - p.c2 * pd p.δ 1 (u t 2) k - dissipation p.δ nu (u t 1) k + F 1 k) t
  eqeta : ∀ t ∈ Set.Icc 0 T, ∀ k ∈ S, HasDerivAt (fun t => u t 2 k)
    (-(pd p.δ 0 (u t 0) k + pd p.δ 1 (u t 1) k)
      - (pd p.δ 0 (exactProduct S (u t 2) (u t 0)) k + pd p.δ 1 (exactProduct S (u t 2) (u t 1)) k)
      - dissipation p.δ nu (u t 2) k + F 2 k) t

/-- The equations of sw1l.modified: the advection is by the rotational part of the velocity only, and `∂t η = -(u_r·∇)η - ∇·u`. -/
structure FlowModified (p : Sw1l.Par) (S : Finset (Fin 2 → ℤ)) (nu : Dissip.Nu) (F : Fin 3 → Fld (Fin 2)) (T : ℝ)
    (u : ℝ → Fin 3 → Fld (Fin 2)) : Prop where
  real : ∀ t ∈ Set.Icc 0 T, ∀ v, RealField S (u t v)
  eqx : ∀ t ∈ Set.Icc 0 T, ∀ vx vy, RotationalPart S p.δ (u t 0) (u t 1) vx vy → ∀ k ∈ S, HasDerivAt (fun t => u t 0 k)
    (-advect S p.δ ![vx, vy] (u t 0) k + p.f * u t 1 k - p.c2 * pd p.δ 0 (u t 2) k - dissipation p.δ nu (u t 0) k + F 0 k) t
  eqy : ∀ t ∈ Set.Icc 0 T, ∀ vx vy, RotationalPart S p.δ (u t 0) (u t 1) vx vy → ∀ k ∈ S, HasDerivAt (fun t => u t 1 k)
    (-advect S p.δ ![vx, vy] (u t 1) k - p.f * u t 0 k - p.c2 * pd p.δ 1 (u t 2) k - dissipation p.δ nu (u t 1) k + F 1 k) t
  eqeta : ∀ t ∈ Set.Icc 0 T, ∀ vx vy, RotationalPart S p.δ (u t 0) (u t 1) vx vy → ∀ k ∈ S, HasDerivAt (fun t => u t 2 k)
    (-advect S p.δ ![vx, vy] (u t 2) k - (pd p.δ 0 (u t 0) k + pd p.δ 1 (u t 1) k) - dissipation p.δ nu (u t 2) k + F 2 k) t

/-- As `SimulationsConverge`, for any frequencies `freq` of the linear terms. -/
def SimulationsConvergeFreq {D V : Type*} [DecidableEq (D → ℤ)] [Fintype V] (S : Finset (D → ℤ)) (freq : V → Fld D)
    (tend : (V → Fld D) → V → Fld D) (T : ℝ) (u : ℝ → V → Fld D) : Prop :=
  ∀ G : Finset (D → ℤ), S ⊆ G → ∀ c ∈ orders, ∀ (ps pa pb : ℕ → Arr (V × G)) (heap : Heap (V × G)) (g1 g2 : Arr (V × G)) (cfl : Bool),
    ConvergesWithOrder c.2 T (fun t => array G (u t)) cfl
      (states c.1 (onArrays G tend) (array G freq) (truncated G S) ps pa pb heap g1 g2 cfl (array G (u 0)))

end

end Verif.EndToEnd
