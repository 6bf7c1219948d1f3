import Verif.PhysFiles.Model
import Verif.Sections.Model
import Mathlib.Algebra.Order.Floor.Ring
import Mathlib.Data.List.Sort

/-! # C71: the movies of the physical fields and of the spectra, and their player

Simplifications: floating-point numbers are elements of an ordered field (`np.arange(a, b, d)` has
`ceil((b - a) / d)` elements `a + i d`); the figures and the timer of matplotlib are not modelled: a tick of the timer
asks the generator of frames for one frame, and there is no tick while the player is paused. -/

namespace Verif.Movies

open Verif.PhysFiles (argmin)
open Verif.Sections (strided)

inductive Err where
  | value
  | zeroDivision
  deriving DecidableEq, Repr

variable {Q : Type*} [Field Q] [LinearOrder Q] [FloorRing Q]

/-- `np.arange(a, b, d)`; a zero step raises an exception. -/
def arange (a b d : Q) : Except Err (List Q) :=
  if d = 0 then .error .zeroDivision
  else .ok ((List.range ⌈(b - a) / d⌉.toNat).map fun i : ℕ => a + (i : Q) * d)

/-- `_init_ani_times` once the arguments are numbers (lib/fluidsim_core/output/movies.py 147-158). -/
def aniTimes (tmin tmax dt : Q) : Except Err (List Q) :=
  if tmax < tmin then .error .value
  else if tmax < dt then .ok [tmin, tmax]
  else arange tmin tmax dt

/-- `np.diff`. -/
def diffs : List Q → List Q
  | a :: b :: l => (b - a) :: diffs (b :: l)
  | _ => []

/-- `np.median` of a non-empty array; `none` is nan (empty array). -/
def median (l : List Q) : Option Q :=
  if l.length = 0 then none
  else
    let s := l.mergeSort (fun a b => decide (a ≤ b))
    some ((s.getD ((l.length - 1) / 2) 0 + s.getD (l.length / 2) 0) / 2)

/-- The step between the frames (movies.py 590-596): `dt_equations`, by default half of the median interval between the
files; `none` is nan. -/
def dtEquations (times : List Q) : Option Q → Option Q
  | some d => some d
  | none => (median (diffs times)).map (· / 2)

/-- `init_animation` of the movies of physical fields in two and three dimensions (movies.py 590-634): the times of the
frames; `times` are the times of the files, `dt` the argument `dt_equations`. A step equal to nan makes `np.arange`
raise ValueError. -/
def initPhys (times : List Q) (tmin tmax dt : Option Q) : Except Err (List Q) :=
  match times.max?, times.min? with
  | some hi, some lo =>
    match dtEquations times dt with
    | none => .error .value
    | some d =>
      let b := tmax.getD hi
      let a := tmin.getD lo
      if hi < b then .error .value
      else match aniTimes a b d with
        | .error e => .error e
        | .ok l =>
          let dtFile := (times.getLastD 0 - times.headD 0) / (times.length : Q)
          if d < dtFile / 4 then .error .value
          else if (b - a) / 2 < d then .error .value
          else .ok l
  | _, _ => .error .value

/-- `_init_ani_times` of the one-dimensional solvers (movies.py 137-158): `tnow` is the time of the simulation, `lo`
the first time of the files, `period` is `params.output.periods_save.phys_fields`. -/
def init1d (tnow lo period : Q) (tmin tmax dt : Option Q) : Except Err (List Q) :=
  aniTimes (tmin.getD lo) (tmax.getD tnow) (dt.getD period)

/-- `_init_ani_times` of the movies of spectra (base/output/spectra.py 45-62); `period` is
`params.output.periods_save.spectra`, `times` the saved times. -/
def initSpectra (times : List Q) (period : Q) (tmin tmax dt : Option Q) : Except Err (List Q) :=
  match times.max?, times.min? with
  | some hi, some lo =>
    let b := tmax.getD hi
    let a := tmin.getD lo
    let d := match dt with
      | some d => d
      | none => if period = 0 then
          if 1 < times.length then times.getD 1 0 - times.getD 0 0 else b / 2
        else period
    aniTimes a b d
  | _, _ => .error .value

/-- The time of a frame: `ani_times[frame % len(ani_times)]` (movies.py 538, 697), with Python's remainder. -/
def frameTime (ani : List Q) (frame : ℤ) : Except Err Q :=
  if ani.length = 0 then .error .zeroDivision
  else match ani[(frame % ani.length).toNat]? with
    | some t => .ok t
    | none => .error .value

/-! ### `animate` -/

/-- The argument `repeat`. -/
inductive Repeat where
  | bool (b : Bool)
  | int (n : ℤ)
  deriving DecidableEq, Repr

/-- `nb_repeat` and the value of `repeat` given to matplotlib (movies.py 305-309): in Python a `bool` is an `int`. -/
def repeats : Repeat → ℤ × Bool
  | .bool true => (1, false)
  | .bool false => (1, false)
  | .int n => if n ≠ 0 then (n, false) else (1, false)

/-- The frames of an animation which is not interactive (movies.py 311-313): `range(max + 1)`. -/
def frames (n : ℕ) (r : Repeat) : List ℕ := List.range ((repeats r).1 * n).toNat

/-! ### The player -/

/-- The player: `_index`, `_forwards`, `paused`, and the last frame shown. -/
structure Player where
  index : ℤ
  forwards : Bool
  paused : Bool
  shown : Option ℤ
  deriving DecidableEq, Repr

/-- The initial player (movies.py 314-317, 330). -/
def Player.init : Player := ⟨0, true, false, none⟩

/-- `self._forwards - (not self._forwards)`. -/
def dir (b : Bool) : ℤ := if b then 1 else -1

/-- One frame of the generator `_frames_iterative` (movies.py 341-351), with `_min = 0`. -/
def tick (mx : ℤ) (p : Player) : Player :=
  if p.paused then p
  else
    let f := p.index + dir p.forwards
    if f < 0 then { p with index := mx, shown := some mx }
    else if mx < f then { p with index := 0, shown := some 0 }
    else if f = mx ∨ f = 0 then { p with index := f, paused := true, shown := some f }
    else { p with index := f, shown := some f }

/-- `onestep` (movies.py 353-369). -/
def onestep (mx : ℤ) (p : Player) : Player :=
  let i :=
    if 0 < p.index ∧ p.index < mx then p.index + dir p.forwards
    else if p.index = 0 then (if p.forwards then p.index + 1 else mx)
    else if p.index = mx then (if !p.forwards then p.index - 1 else 0)
    else p.index
  { p with index := i, paused := true, shown := some i }

/-- The buttons, the click on the figure and the timer (movies.py 107-129, 371-378). -/
inductive Event where
  | tick
  | pause
  | toggle
  | forward
  | backward
  | oneForward
  | oneBackward
  deriving DecidableEq, Repr

def step (mx : ℤ) (p : Player) : Event → Player
  | .tick => tick mx p
  | .pause => { p with paused := true }
  | .toggle => { p with paused := !p.paused }
  | .forward => { p with forwards := true, paused := false }
  | .backward => { p with forwards := false, paused := false }
  | .oneForward => onestep mx { p with forwards := true }
  | .oneBackward => onestep mx { p with forwards := false }

def run (mx : ℤ) (p : Player) (es : List Event) : Player := es.foldl (step mx) p

/-! ### The arrows -/

/-- The factor applied to the arrows of the first frame (movies.py 660-685, base/output/phys_fields2d.py 424-429):
`normalize_vectors` is `{}` if it is not given. -/
def scaleFirst (arg : Option Bool) (vmax : Q) : Q := if arg = some true then 1 / vmax else 1

/-- The factor applied to the arrows of the other frames (movies.py 713-717). -/
def scaleNext (_arg : Option Bool) (vmax : Q) : Q := 1 / vmax

/-- The call of `quiver` for the first frame (movies.py 664-685, base/output/phys_fields2d.py 421-436) for `n` points
along an axis: the positions are strided by `step` then by `skip`, the components by `skip`; different numbers raise
ValueError. -/
def quiver (n stp skip : ℕ) : Except Err Unit :=
  if strided (strided n stp) skip = strided n skip then .ok () else .error .value

end Verif.Movies
