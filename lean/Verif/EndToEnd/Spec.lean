import Verif.Galerkin.Spec
import Verif.Convergence.Spec
import Verif.EndToEnd.Model

/-!
# C87: specification

The documented equations, truncated to the modes `S`, with the dissipation `ν2 k² + ν4 k⁴ + ν8 k⁸`, and what it means that the
simulations give their solution.
-/

namespace Verif.EndToEnd

open Verif.Fourier Verif.Vectors Verif.Energy Verif.Galerkin Verif.Schemes Verif.Convergence Finset

noncomputable section

/-- `(ν2 (-Δ) + ν4 Δ² + ν8 Δ⁴) a` at a mode. -/
def dissipation {D : Type*} [Fintype D] (δ : D → ℝ) (nu : Dissip.Nu) (a : Fld D) (k : D → ℤ) : ℂ :=
  ((nu.nu2 * ∑ d, (δ d * k d) ^ 2 + nu.nu4 * (∑ d, (δ d * k d) ^ 2) ^ 2 + nu.nu8 * (∑ d, (δ d * k d) ^ 2) ^ 4 : ℝ) : ℂ) * a k

/-- The viscosities are not negative and there is no hypo-viscosity. -/
def Nu.Ok (nu : Dissip.Nu) : Prop := 0 ≤ nu.nu2 ∧ 0 ≤ nu.nu4 ∧ 0 ≤ nu.nu8 ∧ nu.num4 = 0

/-- A real field with modes in `S`. -/
def RealField {D : Type*} (S : Finset (D → ℤ)) (a : Fld D) : Prop := RealOn S a ∧ ∀ k, k ∉ S → a k = 0

/-- Two-dimensional flow on a beta plane with a constant force `F`: `∂t ζ = -u·∇ζ - β uy - dissipation + F`, for `0 ≤ t ≤ T`; `ζ` is
real and has its modes in `S`. -/
structure Flow2 (S : Finset (Fin 2 → ℤ)) (δ : Fin 2 → ℝ) (beta : ℝ) (nu : Dissip.Nu) (F : Fld (Fin 2)) (T : ℝ)
    (rot : ℝ → Fld (Fin 2)) : Prop where
  real : ∀ t ∈ Set.Icc 0 T, RealField S (rot t)
  eq : ∀ t ∈ Set.Icc 0 T, ∀ ux uy, Velocity2 S δ (rot t) ux uy → ∀ k ∈ S,
    HasDerivAt (fun t => rot t k) (-advect S δ ![ux, uy] (rot t) k - beta * uy k - dissipation δ nu (rot t) k + F k) t

/-- Stratified two-dimensional flow: `∂t ζ = -u·∇ζ + ∂x b`, `∂t b = -u·∇b - N² uy`, with the dissipation and forces. -/
structure FlowStrat (S : Finset (Fin 2 → ℤ)) (δ : Fin 2 → ℝ) (N : ℝ) (nu : Dissip.Nu) (F H : Fld (Fin 2)) (T : ℝ)
    (rot b : ℝ → Fld (Fin 2)) : Prop where
  real : ∀ t ∈ Set.Icc 0 T, RealField S (rot t) ∧ RealField S (b t)
  eq : ∀ t ∈ Set.Icc 0 T, ∀ ux uy, Velocity2 S δ (rot t) ux uy → ∀ k ∈ S,
    HasDerivAt (fun t => rot t k) (-advect S δ ![ux, uy] (rot t) k + pd δ 0 (b t) k - dissipation δ nu (rot t) k + F k) t ∧
    HasDerivAt (fun t => b t k) (-advect S δ ![ux, uy] (b t) k - N ^ 2 * uy k - dissipation δ nu (b t) k + H k) t

/-- The projection of a vector: perpendicular to the wavevector (default), or its toroidal or poloidal part; with `noVz`, without
vertical velocity for the modes with `kz = 0` (the projections are characterised in C28 and C29). -/
def projV (p : Projection) (noVz : Bool) (k : K3) (v : V3) : V3 :=
  let w := projector p k v
  if noVz = true ∧ k.z = 0 then ⟨w.x, w.y, 0⟩ else w

/-- A real velocity field, with modes in `S`, unchanged by the projection. -/
def Admissible (S : Finset (Fin 3 → ℤ)) (δ : Fin 3 → ℝ) (p : Projection) (noVz : Bool) (v : Fin 3 → Fld (Fin 3)) : Prop :=
  (∀ c, RealField S (v c)) ∧ ∀ k ∈ S, projV p noVz (wave3 δ k) (vec v k) = vec v k

/-- Incompressible flow in a rotating frame: `∂t v = Π(-(v·∇)v - f ez × v) - dissipation + F`, with `Π` the projection. -/
structure Flow3 (S : Finset (Fin 3 → ℤ)) (δ : Fin 3 → ℝ) (f : ℝ) (p : Projection) (noVz : Bool) (nu : Dissip.Nu)
    (F : Fin 3 → Fld (Fin 3)) (T : ℝ) (v : ℝ → Fin 3 → Fld (Fin 3)) : Prop where
  adm : ∀ t ∈ Set.Icc 0 T, Admissible S δ p noVz (v t)
  eq : ∀ t ∈ Set.Icc 0 T, ∀ c, ∀ k ∈ S, HasDerivAt (fun t => v t c k)
    (components (fun k => projV p noVz (wave3 δ k) (navierStokes S δ f (vec (v t)) k)) c k - dissipation δ nu (v t c) k + F c k) t

/-- The three components of the velocity, among the four variables. -/
def velocity (u : Fin 4 → Fld (Fin 3)) : Fin 3 → Fld (Fin 3) := ![u 0, u 1, u 2]

/-- Stratified flow: `∂t v = Π(-(v·∇)v - f ez × v + b ez) - dissipation + F`, `∂t b = -v·∇b - N² vz - dissipation + F`. -/
structure Flow3Strat (S : Finset (Fin 3 → ℤ)) (δ : Fin 3 → ℝ) (f N : ℝ) (p : Projection) (nu : Dissip.Nu)
    (F : Fin 4 → Fld (Fin 3)) (T : ℝ) (u : ℝ → Fin 4 → Fld (Fin 3)) : Prop where
  adm : ∀ t ∈ Set.Icc 0 T, Admissible S δ p false (velocity (u t)) ∧ RealField S (u t 3)
  eqv : ∀ t ∈ Set.Icc 0 T, ∀ c, ∀ k ∈ S, HasDerivAt (fun t => velocity (u t) c k)
    (components (fun k => projector p (wave3 δ k) (add (navierStokes S δ f (vec (velocity (u t))) k) ⟨0, 0, u t 3 k⟩)) c k
      - dissipation δ nu (velocity (u t) c) k + velocity F c k) t
  eqb : ∀ t ∈ Set.Icc 0 T, ∀ k ∈ S, HasDerivAt (fun t => u t 3 k)
    (-advect S δ (velocity (u t)) (u t 3) k - N ^ 2 * u t 2 k - dissipation δ nu (u t 3) k + F 3 k) t

/-- The orders of the schemes without phase shifts. -/
def orders : List (Scheme × ℕ) := [(.Euler, 1), (.RK2, 2), (.RK2_trapezoid, 2), (.RK4, 4)]

/-- All the simulations with the tendencies `tend` and the dissipation `nu` converge to `u`, with the order of their scheme: whatever
the arrays of the modes (`G`, which contain the modes kept `S`), the contents of the work arrays, the phase shifts (not used) and
the choice of the time steps. -/
def SimulationsConverge {D V : Type*} [Fintype D] [DecidableEq (D → ℤ)] [Fintype V] (S : Finset (D → ℤ)) (δ : D → ℝ)
    (nu : Dissip.Nu) (tend : (V → Fld D) → V → Fld D) (T : ℝ) (u : ℝ → V → Fld D) : Prop :=
  ∀ G : Finset (D → ℤ), S ⊆ G → ∀ c ∈ orders, ∀ (ps pa pb : ℕ → Arr (V × G)) (heap : Heap (V × G)) (g1 g2 : Arr (V × G)) (cfl : Bool),
    ConvergesWithOrder c.2 T (fun t => array G (u t)) cfl
      (states c.1 (onArrays G tend) (freqDiss G δ nu) (truncated G S) ps pa pb heap g1 g2 cfl (array G (u 0)))

/-- The same for ns3d and ns3d.strat, whose time steps contain a projection. -/
def SimulationsConverge3d {V : Type*} [Fintype V] (S : Finset (Fin 3 → ℤ)) (δ : Fin 3 → ℝ) (nu : Dissip.Nu)
    (project : (G : Finset (Fin 3 → ℤ)) → Arr (V × G) → Arr (V × G)) (tend : (V → Fld (Fin 3)) → V → Fld (Fin 3)) (T : ℝ)
    (u : ℝ → V → Fld (Fin 3)) : Prop :=
  ∀ G : Finset (Fin 3 → ℤ), S ⊆ G → ∀ c ∈ orders, ∀ (ps pa pb : ℕ → Arr (V × G)) (heap : Heap (V × G)) (g1 g2 : Arr (V × G)) (cfl : Bool),
    ConvergesWithOrder c.2 T (fun t => array G (u t)) cfl fun dt k =>
      (simulation3d (project G) c.1 (onArrays G tend) (freqDiss G δ nu) (truncated G S) ps pa pb heap g1 g2 cfl
        (array G (u 0)) dt k).heap .state

end

end Verif.EndToEnd
