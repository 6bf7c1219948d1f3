import Mathlib.Analysis.SpecialFunctions.Exp
import Mathlib.Analysis.SpecialFunctions.Complex.Log

/-!
# Model of the time schemes

Models `fluidsim/base/time_stepping/pseudo_spect.py` and
`fluidsim/base/time_stepping/simple.py`.

A spectral state is a function `ι → ℂ` (`ι` = variables × modes).  NumPy arrays that are
written in place are *buffers* of a heap: an instruction that writes a buffer changes what
every other name of this buffer sees.  The nonlinear tendencies are an arbitrary function
`N : Bool → (ι → ℂ) → (ι → ℂ)`; `compute_tendencies(src, old=dst)` writes `N b src` in `dst`
where `b` tells whether `dst` and `src` are the same array: some solvers write variables of
`dst` before they have read all variables of `src` (see `Verif/Tendencies`).
The forcing is constant during a step (it is part of `N`).  The transonic/pythran
compilation is not modelled.
-/

namespace Verif.Schemes

set_option linter.constructorNameAsVariable false

noncomputable section

variable {ι : Type*}

/-- Spectral arrays. -/
abbrev Arr (ι : Type*) := ι → ℂ

/-- The buffers used by the schemes: the state array, `self._state_spect_tmp`,
`self._state_spect_tmp1`, the array returned by a call of the tendencies without `old`
(`tend`, `tend'`), and the arrays `tmp0 ... tmp3` allocated by some schemes. -/
inductive Buf
  | state | tmp | tmp1 | tend | tend' | t0 | t1 | t2 | t3
  deriving DecidableEq

/-- Contents of the buffers. -/
abbrev Heap (ι : Type*) := Buf → Arr ι

/-- Write a buffer in place. -/
def Heap.set (h : Heap ι) (b : Buf) (v : Arr ι) : Heap ι :=
  fun c => if c = b then v else h c

/-- `tendencies_nonlin(src, old=dst)`. -/
def tendencies (N : Bool → Arr ι → Arr ι) (src dst : Buf) (h : Heap ι) : Heap ι :=
  h.set dst (N (decide (src = dst)) (h src))

/-- pseudo_spect.py:51-56 `step_Euler`: `output[:] = (state_spect + dt*tendencies) * diss`. -/
def stepEuler (src : Buf) (dt : ℂ) (tend : Buf) (diss : Arr ι) (out : Buf) (h : Heap ι) :
    Heap ι :=
  h.set out ((h src + dt • h tend) * diss)

/-- pseudo_spect.py:64-68 `step_like_RK2` (on the state array). -/
def stepLikeRK2 (dt : ℂ) (tend : Buf) (diss diss2 : Arr ι) (h : Heap ι) : Heap ι :=
  h.set .state (h .state * diss + dt • (diss2 * h tend))

/-- pseudo_spect.py:71-76 `mean_with_phaseshift`. -/
def meanWithPhaseshift (a b : Buf) (ps : Arr ι) (out : Buf) (h : Heap ι) : Heap ι :=
  h.set out ((1 / 2 : ℂ) • (h a + h b / ps))

/-- pseudo_spect.py:79-82 `mul`. -/
def mulShift (ps : Arr ι) (src out : Buf) (h : Heap ι) : Heap ι := h.set out (ps * h src)

/-- pseudo_spect.py:85-88 `div_inplace`. -/
def divInplace (a : Buf) (ps : Arr ι) (h : Heap ι) : Heap ι := h.set a (h a / ps)

/-- pseudo_spect.py:245-279 `_time_step_Euler`. -/
def euler (N : Bool → Arr ι → Arr ι) (dt : ℂ) (diss : Arr ι) (h : Heap ι) : Heap ι :=
  let h := tendencies N .state .tend h
  stepEuler .state dt .tend diss .state h

/-- pseudo_spect.py:374-419 `_time_step_Euler_phaseshift` (the temporaries of the NumPy
expressions are immutable values here). -/
def eulerPhaseshift (N : Bool → Arr ι → Arr ι) (dt : ℂ) (diss ps : Arr ι) (h : Heap ι) : Heap ι :=
  let h := tendencies N .state .tend h
  let shifted := N false (ps * h .state) / ps
  let h := h.set .t0 ((1 / 2 : ℂ) • (h .tend + shifted))
  stepEuler .state dt .t0 diss .state h

/-- pseudo_spect.py:421-467 `_time_step_Euler_phaseshift_random`. -/
def eulerPhaseshiftRandom (N : Bool → Arr ι → Arr ι) (dt : ℂ) (diss pa pb : Arr ι) (h : Heap ι) :
    Heap ι :=
  let ta := N false (pa * h .state) / pa
  let tb := N false (pb * h .state) / pb
  let h := h.set .t0 ((1 / 2 : ℂ) • (ta + tb))
  stepEuler .state dt .t0 diss .state h

/-- pseudo_spect.py:469-517 `_time_step_RK2`. -/
def rk2 (N : Bool → Arr ι → Arr ι) (dt : ℂ) (diss diss2 : Arr ι) (h : Heap ι) : Heap ι :=
  let h := tendencies N .state .tend h
  let h := stepEuler .state (dt / 2) .tend diss2 .tmp h
  let h := tendencies N .tmp .tend h
  stepLikeRK2 dt .tend diss diss2 h

/-- pseudo_spect.py:519-569 `_time_step_RK2_trapezoid`. -/
def rk2Trapezoid (N : Bool → Arr ι → Arr ι) (dt : ℂ) (diss : Arr ι) (h : Heap ι) : Heap ι :=
  let h := tendencies N .state .tend h
  let h := stepEuler .state dt .tend diss .tmp h
  let h := tendencies N .tmp .tend' h
  h.set .state ((h .state + (dt / 2) • h .tend) * diss + (dt / 2) • h .tend')

/-- pseudo_spect.py:571-639 `_time_step_RK2_phaseshift`. -/
def rk2Phaseshift (N : Bool → Arr ι → Arr ι) (dt : ℂ) (diss diss2 ps : Arr ι) (h : Heap ι) :
    Heap ι :=
  let h := tendencies N .state .tend h
  let h := stepEuler .state dt .tend diss .tmp h
  -- `compute_tendencies(phaseshift * state_spect_1)`
  let h := h.set .t0 (ps * h .tmp)
  let h := tendencies N .t0 .tend' h
  -- `tendencies_d = self._state_spect_tmp`
  let h := meanWithPhaseshift .tend .tend' ps .tmp h
  stepLikeRK2 dt .tmp diss diss2 h

/-- pseudo_spect.py:641-710 `_time_step_RK2_phaseshift_random`: the shifted state and the
tendencies share one buffer (`old=state_spect_shift`). -/
def rk2PhaseshiftRandom (N : Bool → Arr ι → Arr ι) (dt : ℂ) (diss diss2 pa pb : Arr ι)
    (h : Heap ι) : Heap ι :=
  let h := mulShift pa .state .t0 h
  let h := tendencies N .t0 .t0 h
  let h := divInplace .t0 pa h
  let h := stepEuler .state dt .t0 diss .tmp h
  let h := mulShift pb .tmp .t1 h
  let h := tendencies N .t1 .t1 h
  let h := meanWithPhaseshift .t0 .t1 pb .tmp h
  stepLikeRK2 dt .tmp diss diss2 h

/-- pseudo_spect.py:712-796 `_time_step_RK2_phaseshift_exact`. -/
def rk2PhaseshiftExact (N : Bool → Arr ι → Arr ι) (dt : ℂ) (diss diss2 ps : Arr ι) (h : Heap ι) :
    Heap ι :=
  let h := tendencies N .state .t0 h
  let h := mulShift ps .state .t1 h
  let h := tendencies N .t1 .t1 h
  let h := meanWithPhaseshift .t0 .t1 ps .t2 h
  let h := stepEuler .state dt .t2 diss .tmp h
  let h := tendencies N .tmp .t0 h
  let h := mulShift ps .tmp .t1 h
  let h := tendencies N .t1 .t1 h
  let h := h.set .t3 ((1 / 2 : ℂ) • (h .t2 + (1 / 2 : ℂ) • (h .t0 + h .t1 / ps)))
  stepLikeRK2 dt .t3 diss diss2 h

/-- pseudo_spect.py:798-984 `_time_step_RK4`. -/
def rk4 (N : Bool → Arr ι → Arr ι) (dt : ℂ) (diss diss2 : Arr ι) (h : Heap ι) : Heap ι :=
  let h := tendencies N .state .tend h
  -- rk4_step0
  let h := stepEuler .state (dt / 6) .tend diss .tmp h
  let h := stepEuler .state (dt / 2) .tend diss2 .tmp1 h
  let h := tendencies N .tmp1 .tend h
  -- rk4_step1
  let h := h.set .tmp (h .tmp + (dt / 3) • (diss2 * h .tend))
  let h := h.set .tmp1 (h .state * diss2 + (dt / 2) • h .tend)
  let h := tendencies N .tmp1 .tend h
  -- rk4_step2
  let h := h.set .tmp (h .tmp + (dt / 3) • (diss2 * h .tend))
  let h := h.set .tmp1 (h .state * diss + dt • (diss2 * h .tend))
  let h := tendencies N .tmp1 .tend h
  -- rk4_step3
  h.set .state (h .tmp + (dt / 6) • h .tend)

/-- The scheme names accepted by `_init_time_scheme` (pseudo_spect.py:191-224). -/
inductive Scheme
  | Euler | Euler_phaseshift | Euler_phaseshift_random | RK2 | RK2_trapezoid
  | RK2_phaseshift | RK2_phaseshift_random | RK2_phaseshift_exact | RK4
  deriving DecidableEq, Repr

/-- pseudo_spect.py:202-222: scheme selected by name. -/
def schemeOfName (s : String) : Except String Scheme :=
  if s = "Euler" then .ok .Euler
  else if s = "Euler_phaseshift" then .ok .Euler_phaseshift
  else if s = "Euler_phaseshift_random" then .ok .Euler_phaseshift_random
  else if s = "RK2" then .ok .RK2
  else if s = "RK2_trapezoid" then .ok .RK2_trapezoid
  else if s = "RK2_phaseshift" then .ok .RK2_phaseshift
  else if s = "RK2_phaseshift_random" then .ok .RK2_phaseshift_random
  else if s = "RK2_phaseshift_exact" then .ok .RK2_phaseshift_exact
  else if s = "RK4" then .ok .RK4
  else .error "ValueError: Problem name time_scheme"

/-- `self._time_step_RK()` with the coefficients `diss, diss2` returned by
`exact_linear_coefs.get_updated_coefs()` and the phase shifts of the step. -/
def timeStepRK (sc : Scheme) (N : Bool → Arr ι → Arr ι) (dt : ℂ) (diss diss2 ps pa pb : Arr ι)
    (h : Heap ι) : Heap ι :=
  match sc with
  | .Euler => euler N dt diss h
  | .Euler_phaseshift => eulerPhaseshift N dt diss ps h
  | .Euler_phaseshift_random => eulerPhaseshiftRandom N dt diss pa pb h
  | .RK2 => rk2 N dt diss diss2 h
  | .RK2_trapezoid => rk2Trapezoid N dt diss h
  | .RK2_phaseshift => rk2Phaseshift N dt diss diss2 ps h
  | .RK2_phaseshift_random => rk2PhaseshiftRandom N dt diss diss2 pa pb h
  | .RK2_phaseshift_exact => rk2PhaseshiftExact N dt diss diss2 ps h
  | .RK4 => rk4 N dt diss diss2 h

/-- `oper.dealiasing(state_spect)`: the masked modes are set to zero. -/
def dealias (mask : ι → Bool) (b : Buf) (h : Heap ι) : Heap ι :=
  h.set b (fun i => if mask i then 0 else h b i)

/-! ### simple.py: schemes without in-place buffers, scalar frequency -/

/-- simple.py:124-135 `_time_step_RK2`. -/
def simpleRK2 (N : Arr ι → Arr ι) (dt : ℂ) (diss diss2 : ℂ) (s : Arr ι) : Arr ι :=
  let n0 := N s
  let s12 := diss2 • (s + (dt / 2) • n0)
  let n12 := N s12
  diss • s + (dt * diss2) • n12

/-- simple.py:231-264 `_time_step_RK4`. -/
def simpleRK4 (N : Arr ι → Arr ι) (dt : ℂ) (diss diss2 : ℂ) (s : Arr ι) : Arr ι :=
  let n0 := N s
  let tmp := diss • (s + (dt / 6) • n0)
  let a1 := diss2 • (s + (dt / 2) • n0)
  let n1 := N a1
  let tmp := tmp + (dt / 3 * diss2) • n1
  let a2 := diss2 • s + (dt / 2) • n1
  let n2 := N a2
  let tmp := tmp + (dt / 3 * diss2) • n2
  let a3 := diss • s + (dt * diss2) • n2
  let n3 := N a3
  tmp + (dt / 6) • n3

/-! ### ExactLinearCoefs -/

/-- Attributes of `ExactLinearCoefs` (pseudo_spect.py:103-152; simple.py:18-52).  The arrays
are uninitialised (`np.empty_like`) before `compute`: their initial contents are arbitrary. -/
structure Coefs (ι : Type*) where
  freq : Arr ι
  exact1 : Arr ι
  exact2 : Arr ι
  dtOld : ℝ
  useCFL : Bool

/-- pseudo_spect.py:122-141 `compute`. -/
def Coefs.compute (c : Coefs ι) (dt : ℝ) : Coefs ι :=
  { c with
    exact1 := fun i => Complex.exp (-dt * c.freq i)
    exact2 := fun i => Complex.exp (-dt / 2 * c.freq i)
    dtOld := dt }

/-- pseudo_spect.py:106-120 `__init__`; `garbage` is the uninitialised memory. -/
def Coefs.init (freq : Arr ι) (useCFL : Bool) (deltat : ℝ)
    (garbage1 garbage2 : Arr ι) : Coefs ι :=
  let c : Coefs ι :=
    { freq := freq, exact1 := garbage1, exact2 := garbage2, dtOld := 0, useCFL := useCFL }
  if useCFL then c else c.compute deltat

/-- pseudo_spect.py:143-152: `get_updated_coefs` (= `get_updated_coefs_CLF` or `get_coefs`),
called with the present `time_stepping.deltat`. -/
def Coefs.get (c : Coefs ι) (deltat : ℝ) : Coefs ι × Arr ι × Arr ι :=
  let c := if c.useCFL then (if c.dtOld ≠ deltat then c.compute deltat else c) else c
  (c, c.exact1, c.exact2)

/-! ### One computation step: coefficients, scheme, truncation -/

/-- State of the time stepping: the heap and the coefficient cache. -/
structure TS (ι : Type*) where
  heap : Heap ι
  coefs : Coefs ι

/-- pseudo_spect.py:236-240 `one_time_step_computation` (the nan test and the conversion to
physical space do not change the spectral state and are omitted). -/
def oneStep (sc : Scheme) (N : Bool → Arr ι → Arr ι) (mask : ι → Bool)
    (ps pa pb : Arr ι) (s : TS ι) (dt : ℝ) : TS ι :=
  let r := s.coefs.get dt
  let h := timeStepRK sc N dt r.2.1 r.2.2 ps pa pb s.heap
  { heap := dealias mask .state h, coefs := r.1 }

end

end Verif.Schemes
