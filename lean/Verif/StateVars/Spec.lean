import Verif.StateVars.Model

/-!
# Specification of the variables of the states

A flow is given by the Fourier coefficients of the two components of the velocity and of the surface displacement
(zero for the incompressible solvers). `doc` says what the names mean. Nothing in this file depends on how the
states compute their variables.
-/

namespace Verif.StateVars

open Verif.Fourier Verif.Energy Verif.Sw1l

noncomputable section

variable (p : Par) (n : Fin 2 → ℕ) (S : Finset Mode)

/-- The meaning of the names for the flow `u`: velocity, surface displacement, vorticity `∂x uy - ∂y ux`, divergence
`∂x ux + ∂y uy`, linear potential vorticity `q = rot - f eta`, ageostrophic part `a = k² eta + f/c² rot`, flux
`J = (1 + eta) u`, height `h = 1 + eta`, local Froude number `|u| / (c √h)`; in physical space and, with the suffix
`_fft`, in spectral space. -/
def doc (u : Mode → UEta) : Var → Option (Arr n)
  | .ux_fft => some (.K fun k => (u k).ux)
  | .uy_fft => some (.K fun k => (u k).uy)
  | .eta_fft => some (.K fun k => (u k).eta)
  | .rot_fft => some (.K fun k => Complex.I * p.kx k * (u k).uy - Complex.I * p.ky k * (u k).ux)
  | .div_fft => some (.K fun k => Complex.I * p.kx k * (u k).ux + Complex.I * p.ky k * (u k).uy)
  | .q_fft => some (.K fun k =>
      Complex.I * p.kx k * (u k).uy - Complex.I * p.ky k * (u k).ux - p.f * (u k).eta)
  | .a_fft => some (.K fun k => (p.kx k ^ 2 + p.ky k ^ 2) * (u k).eta
      + p.f / p.c2 * (Complex.I * p.kx k * (u k).uy - Complex.I * p.ky k * (u k).ux))
  | .ux => some (.X (gridVal n S fun k => (u k).ux))
  | .uy => some (.X (gridVal n S fun k => (u k).uy))
  | .eta => some (.X (gridVal n S fun k => (u k).eta))
  | .rot => some (.X (gridVal n S fun k =>
      Complex.I * p.kx k * (u k).uy - Complex.I * p.ky k * (u k).ux))
  | .div => some (.X (gridVal n S fun k =>
      Complex.I * p.kx k * (u k).ux + Complex.I * p.ky k * (u k).uy))
  | .q => some (.X (gridVal n S fun k =>
      Complex.I * p.kx k * (u k).uy - Complex.I * p.ky k * (u k).ux - p.f * (u k).eta))
  | .Jx => some (.X fun j =>
      (1 + gridVal n S (fun k => (u k).eta) j) * gridVal n S (fun k => (u k).ux) j)
  | .Jy => some (.X fun j =>
      (1 + gridVal n S (fun k => (u k).eta) j) * gridVal n S (fun k => (u k).uy) j)
  | .Jx_fft => some (.K (fftCoef n fun j =>
      (1 + gridVal n S (fun k => (u k).eta) j) * gridVal n S (fun k => (u k).ux) j))
  | .Jy_fft => some (.K (fftCoef n fun j =>
      (1 + gridVal n S (fun k => (u k).eta) j) * gridVal n S (fun k => (u k).uy) j))
  | .h => some (.X fun j => 1 + gridVal n S (fun k => (u k).eta) j)
  | .Floc => some (.X fun j =>
      (√((gridVal n S (fun k => (u k).ux) j ^ 2 + gridVal n S (fun k => (u k).uy) j ^ 2)
        / (p.c2 * (1 + gridVal n S (fun k => (u k).eta) j))).re : ℝ))
  | _ => none

/-- Two arrays have the same values: at every point of the grid, or for every mode kept by the truncation. -/
def Same : Arr n → Arr n → Prop
  | .K a, .K b => ∀ k ∈ S, a k = b k
  | .X a, .X b => ∀ j, a j = b j
  | _, _ => False

/-- The value of a variable of a state without dictionary: the stored array, or the branch of `compute` applied
to the values without dictionary of its arguments. -/
def evalF {St V : Type} (sys : Sys St V) (st : St) : ℕ → Var → Option V
  | 0, _ => none
  | f + 1, key =>
    match sys.rules key with
    | none => none
    | some r =>
      match r.deps.mapM (evalF sys st f) with
      | none => none
      | some l => r.value st l

def value {St V : Type} (sys : Sys St V) (st : St) (key : Var) : Option V :=
  if key ∈ sys.spect ++ sys.phys then some (sys.read st key) else evalF sys st 8 key

/-- `get_var(key)`, called after any other calls of `get_var` in the same iteration, gives `a`. -/
def Gives {St V : Type} (sys : Sys St V) (st : St) (key : Var) (R : V → Prop) : Prop :=
  ∀ before : List Var, ∃ v, (reads sys st (before ++ [key]) Cache.empty)[before.length]? = some (some v) ∧ R v

end

end Verif.StateVars
