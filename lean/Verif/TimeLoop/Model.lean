import Mathlib.Algebra.Order.Field.Basic
import Mathlib.Algebra.Order.Archimedean.Basic
import Mathlib.Tactic.Linarith

/-!
# Model of the main time loop

Models `fluidsim/base/time_stepping/base.py` (`TimeSteppingBase0`).

* `K` is the type of times (an ordered field; floats are idealised).
* `σ` is the rest of the simulation (state arrays, forcing, outputs).  The functions that
  the loop calls are parameters of type `Calls`, so that the theorems hold for every solver.
* The wall clock and the signals are an oracle `Env`, indexed by the number of calls of
  `one_time_step` made so far: every schedule of clock readings and signal deliveries is an
  `Env`.
* The field `log` is ghost: it records the observable calls in order.
-/

namespace Verif.TimeLoop

/-- Parameters read by the loop: `params.time_stepping` (base.py:35-46) and
`sim.is_forcing_enabled`.  `timeShouldStop = none` models `max_elapsed is None`
(base.py:141-142), `some x` the attribute `_time_should_stop` (base.py:140). -/
structure Params (K : Type*) where
  useTEnd : Bool
  tEnd : K
  itEnd : ℕ
  useCFL : Bool
  forcingEnabled : Bool
  timeShouldStop : Option K
  hasToSave : Bool

/-- The functions called by the loop: `compute_time_increment_CLF` (base.py:210-211),
`sim.forcing.compute` (212-213), `sim.output.one_time_step` (241) and
`one_time_step_computation` (242), which may raise (`ValueError` for nan, see
pseudo_spect.py:242-243). -/
structure Calls (σ K : Type*) where
  incrementCFL : σ → K → K
  forcing : σ → K → σ
  output : σ → K → ℕ → σ
  compute : σ → K → K → Except String σ

/-- What the outside world does: `now n` is the value of `time()` read by call number `n` of
`one_time_step` (base.py:216); `signal n` tells whether a stop signal was delivered after
the check of call `n-1` and before the check of call `n` (base.py:106-108 and
base/solvers/base.py:157-165). -/
structure Env (K : Type*) where
  now : ℕ → K
  signal : ℕ → Bool

/-- Observable calls. -/
inductive Ev (K : Type*) where
  /-- `output.phys_fields.save()` of the initial field (base.py:194-195) -/
  | saveInit (t : K)
  /-- `sim.forcing.compute()` -/
  | forcing (t : K)
  /-- `sim.output.one_time_step()` -/
  | output (t : K) (it : ℕ)
  /-- `one_time_step_computation()` has completed -/
  | compute (t : K) (it : ℕ) (dt : K)
  /-- `sim.__exit__()` (base.py:174-180) -/
  | finalize (t : K)
  deriving DecidableEq, Repr

/-- Attributes of the time stepping object (base.py:100-104) and the simulation. -/
structure St (σ K : Type*) where
  it : ℕ
  t : K
  deltat : K
  stopSignal : Bool
  hasToStop : Bool
  sim : σ
  /-- number of calls of `one_time_step` so far (index into `Env`) -/
  calls : ℕ
  log : List (Ev K)

variable {σ K : Type*} [Field K] [LinearOrder K]

/-- base.py:214-225: the elapsed-time check. -/
def elapsedCheck (p : Params K) (e : Env K) (s : St σ K) : St σ K :=
  match p.timeShouldStop with
  | none => s
  | some lim => if e.now s.calls > lim then { s with hasToStop := true } else s

/-- base.py:227-239: the stop-signal check (sequential case; the MPI case is `Mpi` below).
The handler (base.py:106-108) has set the sticky attribute `_stop_signal_received`. -/
def signalCheck (e : Env K) (s : St σ K) : St σ K :=
  let s := { s with stopSignal := s.stopSignal || e.signal s.calls }
  if s.stopSignal then { s with hasToStop := true } else s

/-- base.py:210-211. -/
def cflUpdate (p : Params K) (c : Calls σ K) (s : St σ K) : St σ K :=
  if p.useCFL then { s with deltat := c.incrementCFL s.sim s.deltat } else s

/-- base.py:212-213. -/
def forcingUpdate (p : Params K) (c : Calls σ K) (s : St σ K) : St σ K :=
  if p.forcingEnabled then
    { s with sim := c.forcing s.sim s.t, log := s.log ++ [Ev.forcing s.t] }
  else s

/-- base.py:208-244 `one_time_step`. -/
def oneTimeStep (p : Params K) (c : Calls σ K) (e : Env K) (s : St σ K) :
    Except String (St σ K) :=
  let s := cflUpdate p c s
  let s := forcingUpdate p c s
  let s := elapsedCheck p e s
  let s := signalCheck e s
  -- base.py:241
  let s := { s with sim := c.output s.sim s.t s.it, log := s.log ++ [Ev.output s.t s.it] }
  -- base.py:242
  match c.compute s.sim s.t s.deltat with
  | .error err => .error err
  | .ok sim' =>
    -- base.py:243-244
    .ok { s with
          sim := sim'
          log := s.log ++ [Ev.compute s.t s.it s.deltat]
          t := s.t + s.deltat
          it := s.it + 1
          calls := s.calls + 1 }

/-- base.py:201 and 205: the condition of the `while`. -/
def loopCond (p : Params K) (s : St σ K) : Bool :=
  (if p.useTEnd then decide (s.t < p.tEnd) else decide (s.it < p.itEnd)) && !s.hasToStop

/-- Result of running a `while` loop with a bounded number of iterations. -/
inductive Res (α : Type*) where
  | done (s : α)
  | raised (err : String)
  | outOfFuel

/-- base.py:199-206: the two `while` loops, with fuel. -/
def loop (p : Params K) (c : Calls σ K) (e : Env K) : ℕ → St σ K → Res (St σ K)
  | 0, s => if loopCond p s then .outOfFuel else .done s
  | n + 1, s =>
    if loopCond p s then
      match oneTimeStep p c e s with
      | .error err => .raised err
      | .ok s' => loop p c e n s'
    else .done s

/-- base.py:144-151 `start` = `main_loop(save_init_field=True)` then `finalize_main_loop`
(printing and `prepare_main_loop` omitted: they change neither the clock nor the state). -/
def start (p : Params K) (c : Calls σ K) (e : Env K) (fuel : ℕ) (s : St σ K) :
    Res (St σ K) :=
  let s := if p.hasToSave then { s with log := s.log ++ [Ev.saveInit s.t] } else s
  match loop p c e fuel s with
  | .done s' => .done { s' with log := s'.log ++ [Ev.finalize s'.t] }
  | r => r

/-- base.py:309-318 `is_simul_completed`. -/
def isSimulCompleted (p : Params K) (s : St σ K) : Bool :=
  if p.useTEnd then decide (s.t ≥ p.tEnd) else decide (s.it ≥ p.itEnd)

/-- base.py:100-104, with the log and the call counter empty: the state in which a
`TimeStepping` object leaves `__init__` (and possibly `InitFields` has restored `t`, `it`). -/
def fresh (sim : σ) (t : K) (it : ℕ) (deltat : K) : St σ K :=
  { it := it, t := t, deltat := deltat, stopSignal := false, hasToStop := false,
    sim := sim, calls := 0, log := [] }

/-! ### MPI: one state per rank, decisions broadcast from rank 0 -/

/-- One lock-step `one_time_step` on `nproc` ranks (base.py:214-244 with
`mpi.comm.bcast(..., root=0)` at 219-220 and 229-231): each rank has its own oracle `e r`
and its own sticky `_stop_signal_received`, but uses the clock and signal flag of rank 0.
Only the attributes that control the loop are kept. -/
structure RankSt (K : Type*) where
  it : ℕ
  t : K
  deltat : K
  stopSignal : Bool
  hasToStop : Bool

/-- The collective step, with `newDt` the increment obtained by `allreduce(MAX)`
(base.py:342-343), identical on all ranks; `n` is the call number. -/
def mpiStep {nproc : ℕ} (p : Params K) (newDt : K → K) (e : Fin (nproc + 1) → Env K) (n : ℕ)
    (s : Fin (nproc + 1) → RankSt K) : Fin (nproc + 1) → RankSt K := fun r =>
  let sig : Fin (nproc + 1) → Bool := fun q => (s q).stopSignal || (e q).signal n
  let now := (e 0).now n
  let late := match p.timeShouldStop with
    | none => false
    | some lim => decide (now > lim)
  let dt := if p.useCFL then newDt (s r).deltat else (s r).deltat
  { it := (s r).it + 1
    t := (s r).t + dt
    deltat := dt
    stopSignal := sig r
    hasToStop := (s r).hasToStop || late || sig 0 }

end Verif.TimeLoop
