import Mathlib.Algebra.Order.Field.Basic
import Mathlib.Analysis.Real.Sqrt
import Mathlib.Analysis.SpecialFunctions.Trigonometric.Basic
import Mathlib.Tactic.Linarith

/-!
# Model of the adaptive time increment

Models `fluidsim/base/time_stepping/base.py` (`TimeSteppingBase._init_compute_time_step` and
`_compute_time_increment_CLF_*`), the order of the initialisations in
`fluidsim/base/time_stepping/pseudo_spect.py:173-189` and the variant of
`fluidsim/solvers/ns2d/strat/time_stepping.py`.

Arrays are lists (flattened); under MPI each rank has its own lists.  `K` is an ordered field
(floats idealised).
-/

namespace Verif.Cfl

variable {K : Type*} [Field K] [LinearOrder K]

/-- `arr.min()`; numpy raises `ValueError` on an empty array. -/
def arrMin : List K → Except String K
  | [] => .error "ValueError: zero-size array"
  | x :: xs => .ok (xs.foldl min x)

/-- `arr.max()`. -/
def arrMax : List K → Except String K
  | [] => .error "ValueError: zero-size array"
  | x :: xs => .ok (xs.foldl max x)

/-- base.py:25-26 `max_abs`. -/
def maxAbs (arr : List K) : Except String K :=
  match arrMin arr, arrMax arr with
  | .ok a, .ok b => .ok (max |a| |b|)
  | .error e, _ => .error e
  | _, .error e => .error e

/-- The velocity arrays held by one rank. -/
structure Rank (K : Type*) where
  ux : List K
  uy : List K
  uz : List K

/-- base.py:414-418: `tmp` of `_compute_time_increment_CLF_ux`. -/
def tmpUx (dx : K) (r : Rank K) : Except String K :=
  match maxAbs r.ux with
  | .ok mx => .ok (mx / dx)
  | .error e => .error e

/-- base.py:356-364 (and 393-395): `tmp` of `_compute_time_increment_CLF_uxuy`. -/
def tmpUxUy (dx dy : K) (r : Rank K) : Except String K :=
  match maxAbs r.ux, maxAbs r.uy with
  | .ok mx, .ok my => .ok (mx / dx + my / dy)
  | .error e, _ => .error e
  | _, .error e => .error e

/-- base.py:320-337: `tmp` of `_compute_time_increment_CLF_uxuyuz`, with the `ux.size > 0`
guard. -/
def tmpUxUyUz (dx dy dz : K) (r : Rank K) : Except String K :=
  if r.ux.length > 0 then
    match maxAbs r.ux, maxAbs r.uy, maxAbs r.uz with
    | .ok mx, .ok my, .ok mz => .ok (mx / dx + my / dy + mz / dz)
    | .error e, _, _ => .error e
    | _, .error e, _ => .error e
    | _, _, .error e => .error e
  else .ok 0

/-- `mpi.comm.allreduce(tmp, op=MPI.MAX)` over the ranks (base.py:342-343); with one rank it is
`tmp` itself.  An exception on a rank aborts the collective call. -/
def allreduceMax : List (Except String K) → Except String K
  | [] => .error "no rank"
  | [x] => x
  | x :: y :: l =>
    match x, allreduceMax (y :: l) with
    | .ok a, .ok b => .ok (max a b)
    | .error e, _ => .error e
    | _, .error e => .error e

/-- base.py:353-354 (and 409-412): the 2% hysteresis. -/
def hysteresis (deltat maybeNew : K) : K :=
  if |deltat - maybeNew| / maybeNew > 2 / 100 then maybeNew else deltat

/-- base.py:345-348 (and 400-403). -/
def deltatCFL (CFL deltatMax tmp : K) : K := if tmp > 0 then CFL / tmp else deltatMax

/-- base.py:341-354 `_compute_time_increment_CLF_from_tmp`, after the reduction. -/
def fromTmp (CFL deltatMax deltat tmp : K) : K :=
  hysteresis deltat (min (deltatCFL CFL deltatMax tmp) deltatMax)

/-- `_compute_time_increment_CLF_ux` (base.py:414-419) on all ranks. -/
def clfUx (CFL deltatMax dx deltat : K) (ranks : List (Rank K)) : Except String K :=
  match allreduceMax (ranks.map (tmpUx dx)) with
  | .ok tmp => .ok (fromTmp CFL deltatMax deltat tmp)
  | .error e => .error e

/-- `_compute_time_increment_CLF_uxuy` (base.py:356-366) on all ranks. -/
def clfUxUy (CFL deltatMax dx dy deltat : K) (ranks : List (Rank K)) : Except String K :=
  match allreduceMax (ranks.map (tmpUxUy dx dy)) with
  | .ok tmp => .ok (fromTmp CFL deltatMax deltat tmp)
  | .error e => .error e

/-- `_compute_time_increment_CLF_uxuyuz` (base.py:320-339) on all ranks. -/
def clfUxUyUz (CFL deltatMax dx dy dz deltat : K) (ranks : List (Rank K)) : Except String K :=
  match allreduceMax (ranks.map (tmpUxUyUz dx dy dz)) with
  | .ok tmp => .ok (fromTmp CFL deltatMax deltat tmp)
  | .error e => .error e

/-- `_compute_time_increment_CLF_U` (base.py:421-425): note that `U` is not made positive. -/
def clfU (CFL deltatMax dx deltat U : K) : K := fromTmp CFL deltatMax deltat (U / dx)

/-- `_compute_time_increment_CLF_uxuyeta` (base.py:368-412), with the phase speed `cph`. -/
def clfUxUyEta (CFL deltatMax dx dy cph deltat : K) (ranks : List (Rank K)) :
    Except String K :=
  match allreduceMax (ranks.map (tmpUxUy dx dy)) with
  | .ok tmp =>
    let deltatWave := CFL * min dx dy / cph
    .ok (hysteresis deltat (min (min (deltatCFL CFL deltatMax tmp) deltatWave) deltatMax))
  | .error e => .error e

/-- base.py:384-391: phase speed of the fastest wave. -/
noncomputable def phaseSpeed (f c2 Lx Ly : ℝ) : ℝ :=
  if f = 0 then Real.sqrt c2
  else
    let Lh := max Lx Ly
    let kMin := 2 * Real.pi / Lh
    Real.sqrt (f ^ 2 / kMin ^ 2 + c2)

/-- ns2d/strat/time_stepping.py:138-176 `_compute_time_increment_CFL_uxuyb`
(`abs(ux).max()` is `maxAbs`); `group = none` models a falsy `coef_group`, `forcing = none`
models `params.forcing.enable = False`. -/
def clfUxUyB (CFL deltatMax dx dy deltatDisp deltat : K) (group forcing : Option K)
    (ranks : List (Rank K)) : Except String K :=
  match allreduceMax (ranks.map (tmpUxUy dx dy)) with
  | .error e => .error e
  | .ok tmp =>
    let m := match group with
      | none => min (min (deltatCFL CFL deltatMax tmp) deltatDisp) deltatMax
      | some g => min (min (min (deltatCFL CFL deltatMax tmp) deltatDisp) g) deltatMax
    let m := match forcing with
      | none => m
      | some f => min m f
    .ok (hysteresis deltat m)

/-- base.py:251-262: choice of the CFL coefficient (`startswith` on the scheme name). -/
def cflCoef (cfl_coef : Option K) (scheme : String) : Except String K :=
  match cfl_coef with
  | some c => .ok c
  | none =>
    if "RK2".isPrefixOf scheme || "Euler".isPrefixOf scheme then .ok (4 / 10)
    else if "RK4".isPrefixOf scheme then .ok 1
    else .error "ValueError: Problem name time_scheme"

/-- The velocity methods that `_init_compute_time_step` can select. -/
inductive Method | uxuyuz | uxuyeta | uxuy | ux | U | unset
  deriving DecidableEq, Repr

/-- base.py:273-295: choice of the method from the available variables. -/
def chooseMethod (hasVar : String → Bool) (hasU useCFL : Bool) : Except String Method :=
  let has_ux := hasVar "ux" || hasVar "vx"
  let has_uy := hasVar "uy" || hasVar "vy"
  let has_uz := hasVar "uz" || hasVar "vz"
  let has_eta := hasVar "eta"
  if has_ux && has_uy && has_uz then .ok .uxuyuz
  else if has_ux && has_uy && has_eta then .ok .uxuyeta
  else if has_ux && has_uy then .ok .uxuy
  else if has_ux then .ok .ux
  else if hasU then .ok .U
  else if useCFL then .error "ValueError: params_ts.USE_CFL but no velocity."
  else .ok .unset

/-- The attribute `deltat_max` along `init_from_params` (pseudo_spect.py:173-177):
`_init_freq_lin` (179-189) sets it to `0.78 * pi / freq_max` when the solver has
`compute_freq_complex`; then `_init_compute_time_step` executes base.py:297. -/
noncomputable def initDeltatMax (freqMax : Option ℝ) (paramsDeltatMax : ℝ) : ℝ :=
  let attr : Option ℝ := none
  -- `_init_freq_lin`
  let attr := match freqMax with
    | some fm => some (78 / 100 * Real.pi / fm)
    | none => attr
  -- `_init_compute_time_step`: `self.deltat_max = params_ts.deltat_max`
  let _ := attr
  let attr := some paramsDeltatMax
  attr.getD 0

end Verif.Cfl
