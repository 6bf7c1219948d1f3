import Verif.Sw1l.Props

/-! # Model of the solver sw1l.exactlin.modified -/

namespace Verif.Sw1l

open Verif.Fourier Verif.Energy Verif.Forcing Finset

noncomputable section

variable (p : Par)

/-- `state.get_var("rot_fft")` of sw1l.exactlin (fluidsim/solvers/sw1l/exactlin/state.py 56-66). -/
def rotModes (s : Mode → QA) : Fld (Fin 2) := fun k => rotFromQ p k (s k).q + rotFromA p k ((s k).ap + (s k).am)

/-- The nonlinear terms for `ux`, `uy` and `eta` of sw1l.exactlin.modified
(fluidsim/solvers/sw1l/exactlin/modified/solver.py 52-74): divergence of the fluxes by the rotational velocity of the
vorticity `rotFft`. -/
def exactlinModN (n : Fin 2 → ℕ) (S : Finset Mode) (u : Mode → UEta) (rotFft : Fld (Fin 2)) (k : Mode) : UEta :=
  let ux := gridVal n S (fun k => (u k).ux)
  let uy := gridVal n S (fun k => (u k).uy)
  let eta := gridVal n S (fun k => (u k).eta)
  let uxr := gridVal n S (fun k => (vecFromRot (p.kx k) (p.ky k) (rotFft k)).1)
  let uyr := gridVal n S (fun k => (vecFromRot (p.kx k) (p.ky k) (rotFft k)).2)
  ⟨-divOf p k (fftCoef n (fun j => uxr j * ux j) k) (fftCoef n (fun j => uyr j * ux j) k),
   -divOf p k (fftCoef n (fun j => uxr j * uy j) k) (fftCoef n (fun j => uyr j * uy j) k),
   -divOf p k (fftCoef n (fun j => uxr j * eta j) k) (fftCoef n (fun j => uyr j * eta j) k)⟩

/-- `tendencies_nonlin(state_spect)` of sw1l.exactlin.modified (exactlin/modified/solver.py 40-98), without forcing:
`s` is the state given as argument, `g` is the global state of the simulation, from which the vorticity is taken
(line 57). -/
def exactlinMod (n : Fin 2 → ℕ) (S : Finset Mode) (g s : Mode → QA) : Mode → QA :=
  fun k => if k ∈ S then qapam p k (exactlinModN p n S (fun k => uEtaFrom p k (s k)) (rotModes p g) k) else ⟨0, 0, 0⟩

/-- The right-hand side of the equation integrated by sw1l.exactlin.modified: `dS/dt = N(S) - omega S`. -/
def exactlinModRhs (n : Fin 2 → ℕ) (S : Finset Mode) (g s : Mode → QA) (k : Mode) : QA :=
  ⟨(exactlinMod p n S g s k).q - (freqComplex p k).q * (s k).q,
   (exactlinMod p n S g s k).ap - (freqComplex p k).ap * (s k).ap,
   (exactlinMod p n S g s k).am - (freqComplex p k).am * (s k).am⟩

end

end Verif.Sw1l
