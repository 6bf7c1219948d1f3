import Verif.PhysFiles.Model

/-!
# Restarting (C23), maximal elapsed time given as text (C49), patient opening of files (C50)
-/

namespace Verif.Restart

open PhysFiles (Str digitsVal isDig thousandths)

/-! ### C23 -/

/-- `params.time_stepping` and the other parameters used when restarting. -/
structure Params (K : Type*) where
  useTEnd : Bool
  tEnd : K
  itEnd : ℤ
  maxElapsed : Option Str
  newDir : Bool
  hasToSave : Bool
  deriving DecidableEq

/-- Command line of `fluidsim-restart` (fluidsim/util/scripts/restart.py 29-76,
lib/fluidsim_core/scripts/restart.py 27-61). -/
structure Args (K : Type*) where
  addTEnd : Option K := none
  addItEnd : Option ℤ := none
  tEnd : Option K := none
  itEnd : Option ℤ := none
  maxElapsed : Option Str := none
  newDir : Bool := false
  onlyCheck : Bool := false
  onlyInit : Bool := false

/-- The state file from which one restarts: exact time, time of its name, iteration. -/
structure StartFile (K : Type*) where
  time : K
  nameTime : K
  it : ℤ

variable {K : Type*} [Field K] [LinearOrder K]

/-- `_set_params_time_stepping` (fluidsim/util/scripts/restart.py 84-92). -/
def setTimeStepping (p : Params K) (a : Args K) : Params K :=
  let p := match a.addTEnd with
    | none => p
    | some x => { p with tEnd := p.tEnd + x }
  let p := match a.addItEnd with
    | none => p
    | some x => { p with itEnd := p.itEnd + x }
  let p := match a.tEnd with
    | none => p
    | some x => { p with tEnd := x }
  match a.itEnd with
    | none => p
    | some x => { p with itEnd := p.itEnd + x }

/-- `_check_params_time_stepping` (fluidsim/util/scripts/restart.py 97-109): `false` is the
ValueError. -/
def check (p : Params K) (f : StartFile K) : Bool :=
  if p.useTEnd then !decide (p.tEnd ≤ f.nameTime) else !decide (p.itEnd ≤ f.it)

/-- What `restart` does. -/
inductive Outcome where
  /-- the parameters are printed -/
  | checked
  /-- ValueError caught: no simulation -/
  | refused
  /-- the simulation object is made but not started -/
  | initialized
  /-- the simulation is run -/
  | started
  deriving DecidableEq

/-- `RestarterABC.restart` (lib/fluidsim_core/scripts/restart.py 63-109), without
`--modify-params`. `p` are the parameters given by `load_for_restart`. -/
def restart (p : Params K) (a : Args K) (f : StartFile K) : Params K × Outcome :=
  let p := { p with newDir := a.newDir }
  let p := setTimeStepping p a
  let p := if a.onlyCheck || a.onlyInit then { p with hasToSave := false } else p
  let p := match a.maxElapsed with
    | none => p
    | some s => { p with maxElapsed := some s }
  if a.onlyCheck then (p, .checked)
  else if !check p f then (p, .refused)
  else if a.onlyInit then (p, .initialized)
  else (p, .started)

/-- Exit code of `main` (lib/fluidsim_core/scripts/restart.py 140-161) on rank 0:
`hasToStop` is `sim.time_stepping._has_to_stop`, `noRelaunch` whether the file
IDEMPOTENT_NO_RELAUNCH exists in the run directory. -/
def exitCode (o : Outcome) (hasToStop noRelaunch : Bool) : ℕ :=
  let simIsNone := o == .checked || o == .refused
  if !simIsNone && hasToStop then (if noRelaunch then 0 else 99) else 0

/-! ### C49 -/

/-- The matches of a field of `strptime`: `%H` is `2[0-3]|[0-1]\d|\d`, `%M` is `[0-5]\d|\d`,
`%S` is `6[0-1]|[0-5]\d|\d`: two digits with a value at most `lim`, else one digit; in the
order in which the regular expression tries them. Only ASCII digits. -/
def cands (lim : ℕ) (s : Str) : List (ℕ × Str) :=
  (match s with
    | c :: d :: r => if isDig c && isDig d && decide (digitsVal [c, d] ≤ lim)
        then [(digitsVal [c, d], r)] else []
    | _ => []) ++
  (match s with
    | c :: r => if isDig c then [(digitsVal [c], r)] else []
    | [] => [])

/-- Removes a colon. -/
def colon : Str → Option Str
  | ':' :: r => some r
  | _ => none

/-- The part `%S` and the end: the first match, nothing may remain, and `datetime` refuses
seconds larger than 59. -/
def parseSec (s : Str) : Option ℕ :=
  match (cands 61 s).head? with
  | some (v, []) => if v ≤ 59 then some v else none
  | _ => none

/-- `datetime.strptime(text, "%H:%M:%S")` as a number of seconds; `none` is ValueError. The
regular expression goes back over the choices of `%H` and `%M`, not over what follows. -/
def strptime (s : Str) : Option ℕ :=
  ((cands 23 s).findSome? fun hr => (colon hr.2).bind fun r1 =>
    (cands 59 r1).findSome? fun mr => (colon mr.2).bind fun r2 =>
      if (cands 61 r2).isEmpty then none else some (hr.1, mr.1, r2)).bind
    fun x => (parseSec x.2.2).map fun sec => 3600 * x.1 + 60 * x.2.1 + sec

/-- `TimeSteppingBase0.__init__` (fluidsim/base/time_stepping/base.py 124-133): the number of
seconds of the parameter `max_elapsed`. `pyFloat` is Python's `float` (`none`: ValueError). -/
def maxElapsed (pyFloat : Str → Option K) (s : Str) : Except String K :=
  match pyFloat s with
  | some x => .ok x
  | none => match strptime s with
    | some n => .ok (n : K)
    | none => .error "ValueError"

/-! ### C50 -/

/-- Result of an attempt to open a file. -/
inductive Attempt (F : Type*) where
  | ok (f : F)
  /-- an OSError whose representation has the text `errno = n,` -/
  | errno (n : ℤ)
  /-- an OSError without this text -/
  | noErrno
  deriving DecidableEq

/-- Result of `open_patient`. -/
inductive Opened (F : Type*) where
  | file (f : F)
  | osError (n : ℤ)
  | indexError
  deriving DecidableEq

/-- `open_patient` (fluidsim/util/util.py 680-719): `att k` is the result of attempt `k`,
`elapsed k` the time since the beginning at the test that follows it. `fuel` bounds the number
of attempts (`none`: not finished). -/
def openPatient {F : Type*} (att : ℕ → Attempt F) (elapsed : ℕ → K) (total : K) :
    ℕ → ℕ → Option (Opened F)
  | 0, _ => none
  | fuel + 1, k => match att k with
    | .ok f => some (.file f)
    | .noErrno => some .indexError
    | .errno n =>
      if n ≠ 11 ∨ total < elapsed k then some (.osError n)
      else openPatient att elapsed total fuel (k + 1)

end Verif.Restart
