import Verif.Continuation.Model
import Verif.TimeLoop.Spec
import Verif.Schemes.Spec

/-! Specification of C82: what is compared between the two runs. -/

namespace Verif.Continuation

open Verif Schemes

noncomputable section

variable {ι Φ : Type*}

/-- The states reached by a run, from `s`, before each step and at the end. -/
inductive Run (p : TimeLoop.Params ℝ) (c : TimeLoop.Calls (Sim ι Φ) ℝ) (e : TimeLoop.Env ℝ)
    (s : TimeLoop.St (Sim ι Φ) ℝ) : TimeLoop.St (Sim ι Φ) ℝ → Prop
  | refl : Run p c e s s
  | step {a b : TimeLoop.St (Sim ι Φ) ℝ} : Run p c e s a → TimeLoop.loopCond p a = true →
      TimeLoop.oneTimeStep p c e a = .ok b → Run p c e s b

/-- What the user sees of a run at its end: the time, the iteration, the spectral state and the physical state, or
the exception; `none` while the run is not finished. -/
def outcome : TimeLoop.Res (TimeLoop.St (Sim ι Φ) ℝ) → Option (Except String (ℝ × ℕ × Arr ι × Φ))
  | .done s => some (.ok (s.t, s.it, s.sim.ts.heap .state, s.sim.phys))
  | .raised e => some (.error e)
  | .outOfFuel => none

/-- The scheme draws random phase shifts. -/
def Random : Scheme → Prop
  | .Euler_phaseshift_random => True
  | .RK2_phaseshift_random => True
  | _ => False

/-- One step of the scheme, from the spectral state `u` at the time `t`, with the exact coefficients. -/
def stepOf (S : Solver ι Φ) (forcingEnabled : Bool) (t : ℝ) (u : Arr ι) (dt : ℝ) : Arr ι :=
  dealias S.mask .state (timeStepRK S.scheme (S.tend (if forcingEnabled then S.force t u else 0)) dt
    (expLin S.freq dt) (expLin S.freq (dt / 2)) S.ps 0 0 fun _ => u) .state

/-- The set `Good` of spectral states contains what the simulation computes, and a state of this set is recovered
from the physical fields. -/
structure Consistent (S : Solver ι Φ) (forcingEnabled : Bool) (Good : Arr ι → Prop) : Prop where
  roundtrip : ∀ u, Good u → S.toSpect (S.toPhys u) = u
  step : ∀ t u dt, Good u → Good (stepOf S forcingEnabled t u dt)

/-- The increments of the CFL condition are positive. -/
def PosDt (S : Solver ι Φ) (useCFL : Bool) (dt0 : ℝ) : Prop := useCFL = true → 0 < dt0 ∧ ∀ φ, 0 < S.dtCfl φ

/-- The second run is not asked to end before the first one. -/
def NotBefore (p1 p2 : TimeLoop.Params ℝ) : Prop :=
  p1.useTEnd = p2.useTEnd ∧ p1.tEnd ≤ p2.tEnd ∧ p1.itEnd ≤ p2.itEnd

/-- Real fields: the coefficients of opposite wavenumbers are conjugate. -/
def Hermitian {D V : Type*} (u : Arr (V × (D → ℤ))) : Prop := ∀ v k, u (v, -k) = star (u (v, k))

end

end Verif.Continuation
