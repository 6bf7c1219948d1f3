import Verif.EndToEnd.SpecMore
import Verif.EndToEnd.ModelPlate

/-!
# C106: specification

The simulations are those of `Verif.EndToEnd` (no new code is modelled). A run is made during the time `T`, the sign of some variables
(the velocities) is changed in its last state, a second simulation is started from this state and run during the time `T`, and the signs
are changed again.
-/

namespace Verif.Reversal

open Verif.Fourier Verif.Energy Verif.Schemes Verif.EndToEnd Verif.Convergence Finset

noncomputable section

/-- No viscosity. -/
def inviscid : Dissip.Nu := ⟨0, 0, 0, 0⟩

/-- Each variable is multiplied by its sign. -/
def flip {D V : Type*} (ε : V → ℝ) (u : V → Fld D) : V → Fld D := fun v k => (ε v : ℂ) * u v k

/-- The same for the arrays of a state. -/
def flipArr {V I : Type*} (ε : V → ℝ) (a : Arr (V × I)) : Arr (V × I) := fun i => (ε i.1 : ℂ) * a i

/-- The parameters of the shallow water with the opposite rotation. -/
def oppositeRotation (p : Sw1l.Par) : Sw1l.Par := ⟨p.δ, -p.f, p.c2⟩

/-- There and back: with time steps smaller than `h`, for all the sequences of time steps which reach the time `T` in the two runs, the
distance between the state reached at the end and the initial state is smaller than a constant times `h ^ order`. -/
def Returns {ι : Type*} [Fintype ι] (order : ℕ) (T : ℝ) (cfl : Bool) (R : Arr ι → Arr ι) (there back : Arr ι → (ℕ → ℝ) → ℕ → Arr ι)
    (a : Arr ι) : Prop :=
  ∃ C h0 : ℝ, 0 < h0 ∧ ∀ (h : ℝ) (dt dt' : ℕ → ℝ), h ≤ h0 → (∀ k, 0 < dt k ∧ dt k ≤ h) → (∀ k, 0 < dt' k ∧ dt' k ≤ h) →
    (cfl = false → (∀ k, dt k = dt 0) ∧ ∀ k, dt' k = dt' 0) →
    ∀ k k' : ℕ, elapsed dt k = T → elapsed dt' k' = T → ‖R (back (R (there a dt k)) dt' k') - a‖ ≤ C * h ^ order

/-- All the simulations without dissipation, with the tendencies `tend` for the first run and `tend'` for the second one, return to the
initial state `u0`, with the order of their scheme. -/
def SimulationsReturn {D V : Type*} [Fintype D] [DecidableEq (D → ℤ)] [Fintype V] (S : Finset (D → ℤ)) (δ : D → ℝ) (ε : V → ℝ)
    (tend tend' : (V → Fld D) → V → Fld D) (T : ℝ) (u0 : V → Fld D) : Prop :=
  ∀ G : Finset (D → ℤ), S ⊆ G → ∀ c ∈ orders, ∀ (ps pa pb ps' pa' pb' : ℕ → Arr (V × G)) (heap heap' : Heap (V × G))
    (g1 g2 g1' g2' : Arr (V × G)) (cfl : Bool),
    Returns c.2 T cfl (flipArr ε)
      (states c.1 (onArrays G tend) (freqDiss G δ inviscid) (truncated G S) ps pa pb heap g1 g2 cfl)
      (states c.1 (onArrays G tend') (freqDiss G δ inviscid) (truncated G S) ps' pa' pb' heap' g1' g2' cfl) (array G u0)

/-- The same for plate2d, with its frequencies. -/
def SimulationsReturnPlate (S : Finset (Fin 2 → ℤ)) (δ : Fin 2 → ℝ) (ε : Fin 2 → ℝ)
    (tend tend' : (Fin 2 → Fld (Fin 2)) → Fin 2 → Fld (Fin 2)) (T : ℝ) (u0 : Fin 2 → Fld (Fin 2)) : Prop :=
  ∀ G : Finset (Fin 2 → ℤ), S ⊆ G → ∀ c ∈ orders, ∀ (ps pa pb ps' pa' pb' : ℕ → Arr (Fin 2 × G)) (heap heap' : Heap (Fin 2 × G))
    (g1 g2 g1' g2' : Arr (Fin 2 × G)) (cfl : Bool),
    Returns c.2 T cfl (flipArr ε)
      (states c.1 (onArrays G tend) (array G (freqPlate δ inviscid)) (truncated G S) ps pa pb heap g1 g2 cfl)
      (states c.1 (onArrays G tend') (array G (freqPlate δ inviscid)) (truncated G S) ps' pa' pb' heap' g1' g2' cfl) (array G u0)

/-- The same for ns3d and ns3d.strat, whose time steps contain a projection. -/
def SimulationsReturn3d {V : Type*} [Fintype V] (S : Finset (Fin 3 → ℤ)) (δ : Fin 3 → ℝ) (ε : V → ℝ)
    (project : (G : Finset (Fin 3 → ℤ)) → Arr (V × G) → Arr (V × G))
    (tend tend' : (V → Fld (Fin 3)) → V → Fld (Fin 3)) (T : ℝ) (u0 : V → Fld (Fin 3)) : Prop :=
  ∀ G : Finset (Fin 3 → ℤ), S ⊆ G → ∀ c ∈ orders, ∀ (ps pa pb ps' pa' pb' : ℕ → Arr (V × G)) (heap heap' : Heap (V × G))
    (g1 g2 g1' g2' : Arr (V × G)) (cfl : Bool),
    Returns c.2 T cfl (flipArr ε)
      (fun a dt k => (simulation3d (project G) c.1 (onArrays G tend) (freqDiss G δ inviscid) (truncated G S) ps pa pb heap g1 g2 cfl
        a dt k).heap .state)
      (fun a dt k => (simulation3d (project G) c.1 (onArrays G tend') (freqDiss G δ inviscid) (truncated G S) ps' pa' pb' heap' g1' g2' cfl
        a dt k).heap .state) (array G u0)

end

end Verif.Reversal
