import Verif.Cfl.Model
import Mathlib.Analysis.SpecialFunctions.Pow.Real

/-!
# Model of the limits on the time increment set by the waves and the forcing of ns2d.strat

Models `fluidsim/solvers/ns2d/strat/time_stepping.py` 31-136 (`_init_compute_time_step`,
`_compute_time_increment_forcing`, `_compute_time_increment_group_and_phase`) and
`fluidsim/solvers/ns2d/strat/solver.py` 215-225 (`compute_dispersion_relation`).

Each process holds a list of the wavenumbers `(kx, kz)` of its modes.  Floats are real numbers;
a limit which is `inf` in the code (a division by a `numpy` zero) is `none`.  A negative
`forcing_rate` (whose cubic root is a complex number in Python) is not modelled.
-/

namespace Verif.Cfl

/-- `oper.K_not0` (fluidfft): the modulus of the wavenumber, and 1 for the mode 0. -/
noncomputable def kNot0 (k : ℝ × ℝ) : ℝ :=
  if k.1 = 0 ∧ k.2 = 0 then 1 else Real.sqrt (k.1 ^ 2 + k.2 ^ 2)

/-- ns2d/strat/solver.py 225. -/
noncomputable def dispersion (N : ℝ) (k : ℝ × ℝ) : ℝ := N * (k.1 / kNot0 k)

/-- time_stepping.py 122. -/
noncomputable def cgKx (N : ℝ) (k : ℝ × ℝ) : ℝ := N / kNot0 k * (k.2 ^ 2 / kNot0 k ^ 2)

/-- time_stepping.py 123. -/
noncomputable def cgKz (N : ℝ) (k : ℝ × ℝ) : ℝ :=
  -N / kNot0 k * (k.1 / kNot0 k * (k.2 / kNot0 k))

/-- time_stepping.py 125-128: the frequency of the group velocity of one process (the frequency
of the phase velocity, 131-134, is computed but not used, lines 154-156). -/
noncomputable def freqGroup (N dx dy : ℝ) (modes : List (ℝ × ℝ)) : Except String ℝ :=
  match arrMax (modes.map (cgKx N)), arrMax (modes.map (cgKz N)) with
  | .ok mx, .ok mz => .ok (mx / dx + mz / dy)
  | .error e, _ => .error e
  | _, .error e => .error e

/-- The limits on the time increment; `none`: no limit. -/
structure Limits where
  disp : Option ℝ
  group : Option ℝ
  forcing : Option ℝ

/-- A division by a number of `numpy`. -/
noncomputable def quot (c f : ℝ) : Option ℝ := if f = 0 then none else some (c / f)

/-- time_stepping.py 103-107; `1.0 / 0.0` with Python floats raises. -/
noncomputable def forcingLimit (rate : ℝ) : Except String ℝ :=
  if rate ^ (1 / 3 : ℝ) = 0 then .error "ZeroDivisionError: float division by zero"
  else .ok (1 / rate ^ (1 / 3 : ℝ))

/-- time_stepping.py 31-101: `coefGroup` is `params.time_stepping.cfl_coef_group` and `rate` is
`params.forcing.forcing_rate` if the forcing is enabled. -/
noncomputable def initLimits (N dx dy : ℝ) (coefGroup rate : Option ℝ)
    (modes : List (List (ℝ × ℝ))) : Except String Limits :=
  match allreduceMax (modes.map fun l => arrMax (l.map (dispersion N))) with
  | .error e => .error e
  | .ok fDisp =>
    let disp := quot (1 * (2 * Real.pi)) fDisp
    let group : Except String (Option ℝ) :=
      match coefGroup with
      | none => .ok none
      | some g =>
        if g = 0 then .ok none
        else
          match allreduceMax (modes.map (freqGroup N dx dy)) with
          | .error e => .error e
          | .ok f => .ok (quot g f)
    match group with
    | .error e => .error e
    | .ok group =>
      match rate with
      | none => .ok ⟨disp, group, none⟩
      | some r =>
        match forcingLimit r with
        | .error e => .error e
        | .ok f => .ok ⟨disp, group, some f⟩

/-- One call of `compute_time_increment_CLF` for ns2d.strat (time_stepping.py 138-176) with the
limits of the initialisation; in the `min` an infinite limit for the dispersion relation is the
same as `deltat_max`. -/
noncomputable def clfStrat (CFL deltatMax dx dy deltat : ℝ) (L : Limits)
    (ranks : List (Rank ℝ)) : Except String ℝ :=
  clfUxUyB CFL deltatMax dx dy (L.disp.getD deltatMax) deltat L.group L.forcing ranks

end Verif.Cfl
