import Mathlib.Data.Int.Log
import Mathlib.Data.Rat.Floor
import Mathlib.Algebra.Order.Floor.Ring
import Verif.Cadence.Model

/-!
# The clock, the end of a run, the periodic outputs and the sums in floating point

The other models idealise the floats by elements of an ordered field. Here the numbers are the Python floats (binary64, round to nearest,
ties to even). Not modelled: overflow (the exponents are not bounded above), `nan`, signed zeros.
-/

namespace Verif.Floats

/-- The nearest integer, the even one for a tie. -/
def roundEven (x : ℚ) : ℤ :=
  if x - ⌊x⌋ < 1 / 2 then ⌊x⌋ else if 1 / 2 < x - ⌊x⌋ then ⌊x⌋ + 1 else if ⌊x⌋ % 2 = 0 then ⌊x⌋ else ⌊x⌋ + 1

/-- The exponent of the unit in the last place: 53 bits, and not less than 2^-1074 (subnormal numbers). -/
def ulpExp (x : ℚ) : ℤ := max (Int.log 2 |x| - 52) (-1074)

/-- The float given by an operation whose exact result is `x`. -/
def rnd (x : ℚ) : ℚ := roundEven (x / 2 ^ ulpExp x) * 2 ^ ulpExp x

/-- `x + y`. -/
def fadd (x y : ℚ) : ℚ := rnd (x + y)

/-- `x - y`. -/
def fsub (x y : ℚ) : ℚ := rnd (x - y)

/-- `x / y`. -/
def fdiv (x y : ℚ) : ℚ := rnd (x / y)

/-- The C function `fmod` (its result is exact): `v - w trunc(v / w)`. -/
def fmod (v w : ℚ) : ℚ := v - w * (if 0 ≤ v / w then ⌊v / w⌋ else ⌈v / w⌉ : ℤ)

/-- `v // w` for floats with `w > 0` (CPython, `_float_div_mod`). -/
def floorDiv (v w : ℚ) : ℚ :=
  let mod := fmod v w
  let div := fdiv (fsub v mod) w
  let div := if mod < 0 then fsub div 1 else div
  if fsub div ⌊div⌋ > 1 / 2 then fadd ⌊div⌋ 1 else ⌊div⌋

/-- The literal `1e-15`. -/
def eps15 : ℚ := rnd (1 / 10 ^ 15)

/-- `self.t += self.deltat` (fluidsim/base/time_stepping/base.py 243) after `n` steps; `dt i` is the increment of step `i` (constant without
CFL, base.py 253-268, or given by `compute_time_increment_CLF`). -/
def clock (t0 : ℚ) (dt : ℕ → ℚ) : ℕ → ℚ
  | 0 => t0
  | n + 1 => fadd (clock t0 dt n) (dt n)

/-- The loop `while self.t < t_end` (fluidsim/base/time_stepping/base.py 199-202) from iteration `it` at the time `t`, without stop
request: the final time and iteration, `none` if the loop has not ended after `fuel` steps. -/
def loop (tEnd : ℚ) (dt : ℕ → ℚ) : ℕ → ℚ → ℕ → Option (ℚ × ℕ)
  | 0, t, it => if t < tEnd then none else some (t, it)
  | fuel + 1, t, it => if t < tEnd then loop tEnd dt fuel (fadd t (dt it)) (it + 1) else some (t, it)

/-- The tests of the periodic outputs: `tsim - self.t_last_save >= self.period_save` (fluidsim/base/output/base.py 600, spectra.py 417,
spectra_multidim.py 79, time_signals_fft.py 206) and `(tsim + 1e-15) // self.period_save > self.t_last_save // self.period_save`
(fluidsim/base/output/base.py 675-678, spatial_means.py 90-92, print_stdout.py 89-91, temporal_spectra.py 374-376,
spatiotemporal_spectra.py 443-445). -/
def due (kind : Cadence.Kind) (p tLast t : ℚ) : Bool :=
  match kind with
  | .diff => decide (fsub t tLast ≥ p)
  | .floor => decide (floorDiv (fadd t eps15) p > floorDiv tLast p)

/-- The calls which save (index and time) among the calls `i`, `i + 1`, ... at the given times, with the last save at `tLast`
(`_online_save`, fluidsim/base/output/base.py 597-605, and the same in the other files). -/
def saves (kind : Cadence.Kind) (p : ℚ) : List ℚ → ℚ → ℕ → List (ℕ × ℚ)
  | [], _, _ => []
  | t :: ts, tLast, i =>
    if due kind p tLast t then (i, t) :: saves kind p ts t (i + 1) else saves kind p ts tLast (i + 1)

/-- A way to add numbers two by two: the sums of numpy on one process and `mpi.comm.allreduce(..., op=MPI.SUM)` of the sums of the processes
(`mean_space`, fluidsim/operators/base.py 74-81), whatever the order. -/
inductive Sum
  | one (x : ℚ)
  | add (a b : Sum)

/-- The numbers which are added. -/
def Sum.terms : Sum → List ℚ
  | .one x => [x]
  | .add a b => a.terms ++ b.terms

/-- The result with floats. -/
def Sum.eval : Sum → ℚ
  | .one x => x
  | .add a b => fadd a.eval b.eval

end Verif.Floats
