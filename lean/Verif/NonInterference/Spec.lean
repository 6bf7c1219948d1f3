import Verif.NonInterference.Model

/-!
# C105: what must not depend on the outputs
-/

namespace Verif.NonInterference

variable {K : Type} {U F O : Type}

/-- What a user sees of the flow: the state, the time, the number of time steps, the time increment
and whether the run has been told to stop. -/
structure Flow (K U : Type) where
  u : U
  t : K
  it : ℕ
  dt : K
  stop : Bool
  deriving DecidableEq

/-- The flow of a simulation. -/
def flow (s : Sim K U F O) : Flow K U :=
  ⟨s.phys.u, s.phys.t, s.phys.it, s.phys.dt, s.phys.stop⟩

end Verif.NonInterference
