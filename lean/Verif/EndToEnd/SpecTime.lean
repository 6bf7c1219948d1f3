import Verif.EndToEnd.Spec
import Verif.Convergence.SpecForced

/-!
# C87: specification, with forces which depend on the time

The force is a given function of the time (`forcing.enable`, a force prescribed by the user: C63); it is computed at the beginning of
each time step (C33).
-/

namespace Verif.EndToEnd

open Verif.Fourier Verif.Vectors Verif.Energy Verif.Galerkin Verif.Schemes Verif.Convergence Finset

noncomputable section

/-- The time steps of ns3d with a force (fluidsim/base/time_stepping/base.py 209-213, fluidsim/solvers/ns3d/time_stepping.py 8-20,
ns3d/solver.py 243-244): as `simulation3d`, with the force computed at the beginning of each step. -/
def simulation3dForced {ι : Type*} (project : Arr ι → Arr ι) (sc : Scheme) (N : Arr ι → Arr ι) (F : ℝ → Arr ι → Arr ι) (f : Arr ι)
    (mask : ι → Bool) (ps pa pb : ℕ → Arr ι) (heap : Heap ι) (g1 g2 : Arr ι) (useCFL : Bool) (u0 : Arr ι) (dt : ℕ → ℝ) : ℕ → TS ι
  | 0 => ⟨heap.set .state u0, Coefs.init f useCFL (dt 0) g1 g2⟩
  | k + 1 =>
    let ts := simulation3dForced project sc N F f mask ps pa pb heap g1 g2 useCFL u0 dt k
    let force := F (elapsed dt k) (ts.heap .state)
    oneStep3d project sc (fun x => N x + force) mask (ps k) (pa k) (pb k) ts (dt k)

/-- Two-dimensional flow on a beta plane with a force which depends on the time. -/
structure Flow2Time (S : Finset (Fin 2 → ℤ)) (δ : Fin 2 → ℝ) (beta : ℝ) (nu : Dissip.Nu) (F : ℝ → Fld (Fin 2)) (T : ℝ)
    (rot : ℝ → Fld (Fin 2)) : Prop where
  real : ∀ t ∈ Set.Icc 0 T, RealField S (rot t)
  eq : ∀ t ∈ Set.Icc 0 T, ∀ ux uy, Velocity2 S δ (rot t) ux uy → ∀ k ∈ S,
    HasDerivAt (fun t => rot t k) (-advect S δ ![ux, uy] (rot t) k - beta * uy k - dissipation δ nu (rot t) k + F t k) t

/-- Stratified two-dimensional flow with forces which depend on the time. -/
structure FlowStratTime (S : Finset (Fin 2 → ℤ)) (δ : Fin 2 → ℝ) (N : ℝ) (nu : Dissip.Nu) (F H : ℝ → Fld (Fin 2)) (T : ℝ)
    (rot b : ℝ → Fld (Fin 2)) : Prop where
  real : ∀ t ∈ Set.Icc 0 T, RealField S (rot t) ∧ RealField S (b t)
  eq : ∀ t ∈ Set.Icc 0 T, ∀ ux uy, Velocity2 S δ (rot t) ux uy → ∀ k ∈ S,
    HasDerivAt (fun t => rot t k) (-advect S δ ![ux, uy] (rot t) k + pd δ 0 (b t) k - dissipation δ nu (rot t) k + F t k) t ∧
    HasDerivAt (fun t => b t k) (-advect S δ ![ux, uy] (b t) k - N ^ 2 * uy k - dissipation δ nu (b t) k + H t k) t

/-- Incompressible flow in a rotating frame with a force which depends on the time. -/
structure Flow3Time (S : Finset (Fin 3 → ℤ)) (δ : Fin 3 → ℝ) (f : ℝ) (p : Projection) (noVz : Bool) (nu : Dissip.Nu)
    (F : ℝ → Fin 3 → Fld (Fin 3)) (T : ℝ) (v : ℝ → Fin 3 → Fld (Fin 3)) : Prop where
  adm : ∀ t ∈ Set.Icc 0 T, Admissible S δ p noVz (v t)
  eq : ∀ t ∈ Set.Icc 0 T, ∀ c, ∀ k ∈ S, HasDerivAt (fun t => v t c k)
    (components (fun k => projV p noVz (wave3 δ k) (navierStokes S δ f (vec (v t)) k)) c k - dissipation δ nu (v t c) k + F t c k) t

/-- All the simulations with the tendencies `tend`, the force `F` and the dissipation `nu` converge to `u`, with the order 1, for all
the schemes without phase shifts. -/
def SimulationsConvergeTime {D V : Type*} [Fintype D] [DecidableEq (D → ℤ)] [Fintype V] (S : Finset (D → ℤ)) (δ : D → ℝ)
    (nu : Dissip.Nu) (tend : (V → Fld D) → V → Fld D) (F : ℝ → V → Fld D) (T : ℝ) (u : ℝ → V → Fld D) : Prop :=
  ∀ G : Finset (D → ℤ), S ⊆ G → ∀ sc ∈ plain, ∀ (ps pa pb : ℕ → Arr (V × G)) (heap : Heap (V × G)) (g1 g2 : Arr (V × G)) (cfl : Bool),
    ConvergesWithOrder 1 T (fun t => array G (u t)) cfl
      (statesForced sc (onArrays G tend) (fun t _ => array G (F t)) (freqDiss G δ nu) (truncated G S) ps pa pb heap g1 g2 cfl
        (array G (u 0)))

/-- The same for ns3d, whose time steps contain a projection. -/
def SimulationsConvergeTime3d {V : Type*} [Fintype V] (S : Finset (Fin 3 → ℤ)) (δ : Fin 3 → ℝ) (nu : Dissip.Nu)
    (project : (G : Finset (Fin 3 → ℤ)) → Arr (V × G) → Arr (V × G)) (tend : (V → Fld (Fin 3)) → V → Fld (Fin 3))
    (F : ℝ → V → Fld (Fin 3)) (T : ℝ) (u : ℝ → V → Fld (Fin 3)) : Prop :=
  ∀ G : Finset (Fin 3 → ℤ), S ⊆ G → ∀ sc ∈ plain, ∀ (ps pa pb : ℕ → Arr (V × G)) (heap : Heap (V × G)) (g1 g2 : Arr (V × G)) (cfl : Bool),
    ConvergesWithOrder 1 T (fun t => array G (u t)) cfl fun dt k =>
      (simulation3dForced (project G) sc (onArrays G tend) (fun t _ => array G (F t)) (freqDiss G δ nu) (truncated G S) ps pa pb heap
        g1 g2 cfl (array G (u 0)) dt k).heap .state

end

end Verif.EndToEnd
