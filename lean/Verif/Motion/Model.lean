import Mathlib.Analysis.SpecialFunctions.Trigonometric.Basic
import Mathlib.Algebra.Order.Floor.Ring
import Mathlib.Data.Sign.Basic

/-!
# Motion of the objects of the milestone forcing (C35)

Real arithmetic instead of floating point. `%` is Python's modulo, with the sign of the divisor.
-/

namespace Verif.Motion

noncomputable section

/-- Python's `a % b` for floats, in real arithmetic. -/
def pymod (a b : ℝ) : ℝ := a - b * ⌊a / b⌋

/-- Attributes of `PeriodicUniform` (fluidsim/base/forcing/milestone.py 27-44). -/
structure PU where
  speedMax : ℝ
  acc : ℝ
  period : ℝ
  t1 : ℝ
  t2 : ℝ
  t3 : ℝ
  t4 : ℝ
  x0 : ℝ
  x1 : ℝ
  x2 : ℝ
  x3 : ℝ
  x4 : ℝ

/-- `PeriodicUniform.__init__` (milestone.py 27-44). `speed_max = 0` (a `ZeroDivisionError`) is
excluded by the hypotheses of the theorems. -/
def mkPU (speedMax length lengthAcc lx : ℝ) : PU :=
  let sign : ℝ := SignType.sign speedMax
  let xUni := length - 2 * lengthAcc
  let tUni := xUni / |speedMax|
  let acc := sign * speedMax ^ 2 / (2 * lengthAcc)
  let ta := speedMax / acc
  let t2 := ta + tUni
  let t3 := t2 + 2 * ta
  let x0 := lx / 2 - sign * length / 2
  { speedMax := speedMax
    acc := acc
    period := 4 * ta + 2 * tUni
    t1 := ta
    t2 := t2
    t3 := t3
    t4 := t3 + tUni
    x0 := x0
    x1 := x0 + sign * lengthAcc
    x4 := x0 + sign * lengthAcc
    x2 := x0 + sign * (lengthAcc + xUni)
    x3 := x0 + sign * (lengthAcc + xUni) }

/-- `PeriodicUniform.get_speed` (milestone.py 46-72); `none` is Python's `None` (no branch). -/
def getSpeed (p : PU) (time0 : ℝ) : Option ℝ :=
  let time := pymod time0 p.period
  if time ≤ p.t1 then some (p.acc * time)
  else if time > p.t1 ∧ time ≤ p.t2 then some p.speedMax
  else if time > p.t2 ∧ time ≤ p.t3 then some (p.speedMax - p.acc * (time - p.t2))
  else if time > p.t3 ∧ time ≤ p.t4 then some (-p.speedMax)
  else if time > p.t4 then some (-p.speedMax + p.acc * (time - p.t4))
  else none

/-- `PeriodicUniform.get_locations` (milestone.py 74-100). -/
def getLocation (p : PU) (time0 : ℝ) : Option ℝ :=
  let time := pymod time0 p.period
  if time ≤ p.t1 then some (p.x0 + p.acc / 2 * time ^ 2)
  else if time > p.t1 ∧ time ≤ p.t2 then some (p.x1 + p.speedMax * (time - p.t1))
  else if time > p.t2 ∧ time ≤ p.t3 then
    some (p.x2 + p.speedMax * (time - p.t2) - p.acc / 2 * (time - p.t2) ^ 2)
  else if time > p.t3 ∧ time ≤ p.t4 then some (p.x3 - p.speedMax * (time - p.t3))
  else if time > p.t4 then
    some (p.x4 - p.speedMax * (time - p.t4) + p.acc / 2 * (time - p.t4) ^ 2)
  else none

/-- `get_locations_sinusoidal` (milestone.py 303-308), with `_half_length = length / 2` and
`_omega = 2 * pi / period` (231-233). -/
def locSin (lx length period t : ℝ) : ℝ :=
  lx / 2 + length / 2 * Real.sin (2 * Real.pi / period * t - Real.pi / 2)

/-- `get_speed_sinusoidal` (milestone.py 310-311). -/
def speedSin (length period t : ℝ) : ℝ :=
  length / 2 * (2 * Real.pi / period) * Real.cos (2 * Real.pi / period * t - Real.pi / 2)

/-- `get_locations_uniform` (milestone.py 294-298). -/
def locUni (lx speed t : ℝ) : ℝ := pymod (speed * t) lx

/-- The default values of `params.forcing.milestone.movement.periodic_uniform`
(milestone.py 123-125): length, length_acc, speed. -/
def defaultPU (lx : ℝ) : PU := mkPU 1 1 1 lx

end

end Verif.Motion
