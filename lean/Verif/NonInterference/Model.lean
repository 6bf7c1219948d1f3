import Verif.Cfl.Model

/-!
# C105: the calls made for the outputs during a simulation

Where the outputs are created, called and finalised, with the calls of the time increment and of the
forcing which are made on this occasion: `fluidsim/base/output/base.py`,
`fluidsim/base/time_stepping/base.py`, `fluidsim/base/forcing/base.py`,
`fluidsim/base/solvers/base.py` and `fluidsim/base/preprocess/pseudo_spect.py`.

* `U` is the state of the flow. `F` is all what the forcing object contains: the arrays of the force,
  and the state of the random generator.
* The output objects are arbitrary: they have a state `O` (attributes, files) which they change when
  they are called, and they can read everything in the simulation. Simplification: they change
  nothing else (the cache of `state.get_var` is the subject of C12, the arrays changed in place of
  C53).
* The elapsed time (`max_elapsed`) is not modelled: when it is used, the duration of the outputs
  matters.
-/

namespace Verif.NonInterference

/-- What is called by the time stepping and does not depend on the outputs: whether `USE_CFL`, the
largest increment allowed for a state (base/time_stepping/base.py 341-352), whether there is a
forcing, `forcing_maker.compute` (function of the time, the increment, the state and the forcing
object) and `one_time_step_computation`. -/
structure Solver (K U F : Type) where
  useCfl : Bool
  limit : U → K
  forced : Bool
  maker : K → K → U → F → F
  scheme : K → K → U → F → U

/-- The simulation without its outputs: `state`, the attributes of `time_stepping`, and the
attributes of `forcing` (`last` is `_t_last_computed`, `none` for `-inf`). -/
structure Phys (K U F : Type) where
  u : U
  t : K
  it : ℕ
  dt : K
  stop : Bool
  last : Option K
  forcing : F

/-- The configuration of the outputs: `params.output.HAS_TO_SAVE`, the instantiation of the output
objects (base/output/base.py 287-306), `output.one_time_step` (313-329: the prints, the plots and the
saves with their periods), the save of the fields at the end or at the beginning. -/
structure Outputs (K U F O : Type) where
  save : Bool
  create : Phys K U F → O
  each : O → Phys K U F → O
  saveFields : O → Phys K U F → O

/-- The whole simulation; `ready` is `output._has_been_initialized_with_state`. -/
structure Sim (K U F O : Type) where
  phys : Phys K U F
  out : O
  ready : Bool

variable {K : Type} [Field K] [LinearOrder K] {U F O : Type}

/-- `compute_time_increment_CLF` if `USE_CFL` (base/time_stepping/base.py 210-211, 341-354). -/
def cfl (S : Solver K U F) (p : Phys K U F) : Phys K U F :=
  if S.useCfl then { p with dt := Cfl.hysteresis p.dt (S.limit p.u) } else p

/-- Whether `time > self._t_last_computed` (base/forcing/base.py 145). -/
def due (p : Phys K U F) : Bool :=
  match p.last with
  | none => true
  | some l => decide (l < p.t)

/-- `sim.forcing.compute()` if there is a forcing (base/forcing/base.py 143-147). -/
def compute (S : Solver K U F) (p : Phys K U F) : Phys K U F :=
  if S.forced && due p then
    { p with last := some p.t, forcing := S.maker p.t p.dt p.u p.forcing }
  else p

/-- `Output.init_with_initialized_state` (base/output/base.py 263-306). -/
def initWith (S : Solver K U F) (A : Outputs K U F O) (s : Sim K U F O) : Sim K U F O :=
  if s.ready then s
  else
    let p1 := cfl S s.phys
    let p2 := if A.save then compute S p1 else p1
    ⟨p2, A.create p2, true⟩

/-- The end of `SimulBase.__init__` and `Output.post_init` (base/solvers/base.py 215-216,
base/output/base.py 240-249): the outputs are initialised if the state and the forcing are. -/
def postInit (S : Solver K U F) (A : Outputs K U F O) (p : Phys K U F) (o : O)
    (stateInit forcingInit : Bool) : Sim K U F O :=
  if stateInit && (!S.forced || forcingInit) then initWith S A ⟨p, o, false⟩ else ⟨p, o, false⟩

/-- `one_time_step` (base/time_stepping/base.py 208-244); `signal it` tells that a stop signal has
been received during the iteration `it`. -/
def oneStep (S : Solver K U F) (A : Outputs K U F O) (signal : ℕ → Bool) (s : Sim K U F O) :
    Sim K U F O :=
  let p1 := compute S (cfl S s.phys)
  let p2 := { p1 with stop := p1.stop || signal p1.it }
  let o := A.each s.out p2
  ⟨{ p2 with u := S.scheme p2.t p2.dt p2.u p2.forcing, t := p2.t + p2.dt, it := p2.it + 1 }, o,
    s.ready⟩

/-- The condition of the loop (base/time_stepping/base.py 199-206): `t_end` or `it_end`. -/
def goesOn (stopAt : K ⊕ ℕ) (p : Phys K U F) : Bool :=
  (match stopAt with
    | .inl tEnd => decide (p.t < tEnd)
    | .inr itEnd => decide (p.it < itEnd)) && !p.stop

/-- The loop `while ...: self.one_time_step()`, at most `n` times (the theorems are for every `n`). -/
def loop (S : Solver K U F) (A : Outputs K U F O) (signal : ℕ → Bool) (stopAt : K ⊕ ℕ) :
    ℕ → Sim K U F O → Sim K U F O
  | 0, s => s
  | n + 1, s => if goesOn stopAt s.phys then loop S A signal stopAt n (oneStep S A signal s) else s

/-- `main_loop` (base/time_stepping/base.py 182-206): preparation (153-172), save of the initial
fields, loop. -/
def mainLoop (S : Solver K U F) (A : Outputs K U F O) (signal : ℕ → Bool) (stopAt : K ⊕ ℕ) (n : ℕ)
    (s : Sim K U F O) : Sim K U F O :=
  let s1 := initWith S A s
  let s2 := if A.save then { s1 with out := A.saveFields s1.out s1.phys } else s1
  loop S A signal stopAt n s2

/-- `end_of_simul` (base/output/base.py 354-361). -/
def endOfSimul (S : Solver K U F) (A : Outputs K U F O) (s : Sim K U F O) : Sim K U F O :=
  if A.save then
    let p := compute S s.phys
    ⟨p, A.saveFields (A.each s.out p) p, s.ready⟩
  else s

/-- `start` (base/time_stepping/base.py 144-151). -/
def start (S : Solver K U F) (A : Outputs K U F O) (signal : ℕ → Bool) (stopAt : K ⊕ ℕ) (n : ℕ)
    (s : Sim K U F O) : Sim K U F O :=
  endOfSimul S A (mainLoop S A signal stopAt n s)

/-- Several successive calls of `start`, each with its own end (a script which changes
`params.time_stepping.t_end` and calls `start` again). -/
def starts (S : Solver K U F) (A : Outputs K U F O) (sg : ℕ → Bool) :
    List ((K ⊕ ℕ) × ℕ) → Sim K U F O → Sim K U F O
  | [], s => s
  | (e, n) :: l, s => starts S A sg l (start S A sg e n s)

/-- A script which changes the state of the simulation (`sim.state.init_statephys_from(...)`, ...). -/
def changeState (f : U → U) (s : Sim K U F O) : Sim K U F O :=
  { s with phys := { s.phys with u := f s.phys.u } }

/-- The preprocessing: the normalised fields, the new parameters (viscosities, rate of forcing), the
initial increment, and `sim.forcing.__init__` (base/preprocess/pseudo_spect.py). -/
structure Preprocess (K U F : Type) where
  normalize : U → U
  solver : U → Solver K U F
  deltat0 : K
  reinit : F → F

/-- `PreprocessPseudoSpectral.__call__` (base/preprocess/pseudo_spect.py 19-38), called after
`output.post_init` (base/solvers/base.py 215-223): `set_viscosity` calls `time_stepping.__init__`
(182) and `set_forcing_rate` calls `forcing.__init__` (225). -/
def preprocess (P : Preprocess K U F) (s : Sim K U F O) : Sim K U F O :=
  { s with phys := {
      u := P.normalize s.phys.u, t := 0, it := 0, dt := P.deltat0, stop := false,
      last := none, forcing := P.reinit s.phys.forcing } }

end Verif.NonInterference
