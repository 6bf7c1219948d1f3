import Verif.StdOut.Model

/-! # C66: the figure of the clock times -/

namespace Verif.StdOut

variable {Q : Type} [Field Q] [LinearOrder Q]

/-- `clock_times_per_timestep` (fluidsim/base/output/print_stdout.py 221); `none` is not finite. -/
def Entry.perStep (e : Entry Q) : Option Q :=
  match e.clock with
  | none => none
  | some c => if e.it - e.itLast = 0 then none else some (c / (e.it - e.itLast))

/-- `clock_times_per_timestep[-1] <= 0.0` (lib/fluidsim_core/output/remaining_clock_time.py 64): false for nan. -/
def notPositive : Option Q → Bool
  | none => false
  | some c => decide (c ≤ 0)

/-- `times2` and `clock_times_per_timestep2` (remaining_clock_time.py 68-76). Without entry, `times2[0] = ...` raises. -/
def stairs (start : Q) (l : List (Q × Option Q)) : Except String (List (Q × Option Q)) :=
  match l with
  | [] => .error "IndexError"
  | _ => .ok (List.zipWith Prod.mk (start :: ((l.map fun q => [q.1, q.1]).flatten).dropLast) (l.map fun q => [q.2, q.2]).flatten)

/-- The lower curve of `plot_clock_times` and the printed mean (remaining_clock_time.py 32-95); `none`: nothing is drawn, there are no entries.
The mean is `none` if no value is finite. -/
def plotClock (start : Q) (l : List (Entry Q)) : Except String (Option (List (Q × Option Q) × Option Q)) :=
  if l = [] then .ok none
  else
    let pts := l.map fun e => (e.time, e.perStep)
    let pts := if notPositive ((pts.getLast?.map fun q => q.2).getD none) then pts.dropLast else pts
    match stairs start pts with
    | .error e => .error e
    | .ok s =>
      let v := s.filterMap fun q => q.2
      .ok (some (s, if v = [] then none else some (v.sum / v.length)))

end Verif.StdOut
