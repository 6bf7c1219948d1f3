import Mathlib.Algebra.Order.Floor.Ring
import Mathlib.Algebra.Order.Field.Basic
import Mathlib.Data.Rat.Floor

/-!
# Periodic outputs (C15)

Model of the tests deciding when a specific output saves a record.
Times are elements of an ordered field with a floor (floats are idealised; Python's
`x // p` is `⌊x / p⌋`).
-/

namespace Verif.Cadence

variable {K : Type*} [Field K] [LinearOrder K] [FloorRing K]

/-- The two tests used by the outputs.
`diff`: fluidsim/base/output/base.py 600 (also spectra.py 417, spectra_multidim.py 79,
time_signals_fft.py 206).
`floor`: fluidsim/base/output/base.py 675-678 (phys_fields.py 115, spectra3d.py 177), and
the same expression in spatial_means.py 90-92, print_stdout.py 89-91,
temporal_spectra.py 374-376, spatiotemporal_spectra.py 443-445. -/
inductive Kind where
  | diff
  | floor
  deriving DecidableEq

/-- The constant `1e-15` of fluidsim/base/output/base.py 677. -/
def eps : K := 1 / 10 ^ 15

/-- The test itself: `t - t_last_save >= period_save`, or
`(t + 1e-15) // period_save > t_last_save // period_save`. -/
def due (kind : Kind) (p tLast t : K) : Bool :=
  match kind with
  | .diff => decide (t - tLast ≥ p)
  | .floor => decide (⌊(t + eps) / p⌋ > ⌊tLast / p⌋)

/-- A specific output object (fluidsim/base/output/base.py 527-575): its period, the time
of the last save, and (ghost) the times at which it has saved, oldest first. -/
structure Out (K : Type*) where
  kind : Kind
  period : K
  tLast : K
  saved : List K

/-- How the constructor behaves.
`record`: a first record is made at construction and `t_last_save` is the current time
(fluidsim/base/output/base.py 580-595, spatial_means.py 70-73, spectra.py 412).
`silent`: no record, `t_last_save` is the current time (phys_fields.py 70-75, 104-106).
`eager`: no record, `t_last_save = -period` (temporal_spectra.py 291,
spatiotemporal_spectra.py 369, print_stdout.py 72). -/
inductive InitStyle where
  | record
  | silent
  | eager
  deriving DecidableEq

/-- `SpecificOutput.__init__` for an output with a non-zero period, at time `t0`
(fluidsim/base/output/base.py 570-574 and the overrides cited in `InitStyle`). -/
def mkOut (kind : Kind) (style : InitStyle) (p t0 : K) : Out K :=
  match style with
  | .record => ⟨kind, p, t0, [t0]⟩
  | .silent => ⟨kind, p, t0, []⟩
  | .eager => ⟨kind, p, -p, []⟩

/-- `_online_save` at time `t` (fluidsim/base/output/base.py 597-605 and overrides): the
test, then `t_last_save = t` and one record. -/
def onlineSave (o : Out K) (t : K) : Out K :=
  if due o.kind o.period o.tLast t then
    { o with tLast := t, saved := o.saved ++ [t] }
  else o

/-- The saving part of `Output.one_time_step` (fluidsim/base/output/base.py 323-327): all
outputs whose period is not zero, and only if `_has_to_save`. -/
def oneTimeStep (hasToSave : Bool) (outs : List (Out K)) (t : K) : List (Out K) :=
  if hasToSave then
    outs.map fun o => if o.period ≠ 0 then onlineSave o t else o
  else outs

/-- The outputs along a run: `one_time_step` is called at each of the times of the list
(fluidsim/base/time_stepping/base.py 248, and once more in `end_of_simul`,
fluidsim/base/output/base.py 359). -/
def run (hasToSave : Bool) (outs : List (Out K)) (times : List K) : List (Out K) :=
  times.foldl (oneTimeStep hasToSave) outs

/-- Physical fields: time of the last periodic save (`none` = `-inf`), (ghost) times of all
calls of `save` (fluidsim/base/output/phys_fields.py 70-75). -/
structure Phys (K : Type*) where
  period : K
  tLast : Option K
  saved : List K

/-- `PhysFieldsBase.__init__` at time `t0` (fluidsim/base/output/phys_fields.py 70-75). -/
def mkPhys (periodSave periodPlot t0 : K) : Phys K :=
  if periodSave = 0 ∧ periodPlot = 0 then ⟨periodSave, none, []⟩
  else ⟨periodSave, some t0, []⟩

/-- `PhysFieldsBase._online_save` as called by `one_time_step`
(fluidsim/base/output/phys_fields.py 112-117, base.py 323-327). With a non-zero period
`t_last_save` is never `-inf`. -/
def physStep (f : Phys K) (t : K) : Phys K :=
  if f.period ≠ 0 then
    match f.tLast with
    | none => { f with tLast := some t, saved := f.saved ++ [t] }
    | some l =>
      if due .floor f.period l t then { f with tLast := some t, saved := f.saved ++ [t] }
      else f
  else f

/-- The test `t_last_save < t`, with `none` for `-inf`
(fluidsim/base/output/base.py 360). -/
def beforeTime (tLast : Option K) (t : K) : Bool :=
  match tLast with
  | none => true
  | some l => decide (l < t)

/-- A whole run seen from the physical fields: `main_loop` saves the initial state
(fluidsim/base/time_stepping/base.py 194-195, `save_init_field`), `one_time_step` is called
at each time of the list, then `end_of_simul` at time `tEnd`
(fluidsim/base/output/base.py 355-361): `one_time_step` once more and a last save if
`t_last_save < t`. -/
def physRun (hasToSave saveInit : Bool) (periodSave periodPlot t0 : K) (times : List K)
    (tEnd : K) : Phys K :=
  let f := mkPhys periodSave periodPlot t0
  if hasToSave then
    let f := if saveInit then { f with saved := f.saved ++ [t0] } else f
    let f := times.foldl physStep f
    let f := physStep f tEnd
    if beforeTime f.tLast tEnd then { f with saved := f.saved ++ [tEnd] } else f
  else f

end Verif.Cadence
