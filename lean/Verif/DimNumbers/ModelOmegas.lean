import Mathlib.Analysis.SpecialFunctions.Pow.Real
import Mathlib.Analysis.SpecialFunctions.Trigonometric.Basic

/-!
# Model of the numbers `F` and `gamma` of the forced simulations of ns2d.strat

Models `OutputStrat.__init__` (fluidsim/solvers/ns2d/strat/output/__init__.py 32-36),
`_init_froude_number` (138-149), `_compute_ratio_omegas` (151-186) and the choice of the numbers which
are written in the name of the run (188-196).
-/

namespace Verif.DimNumbers

noncomputable section
open Classical

/-- `params.forcing.tcrandom_anisotropic.angle`: a number of radians, a text which ends with the degree
symbol (the number written before the symbol is the parameter) or another text. -/
inductive Angle
  | radians (x : ℝ)
  | degrees (x : ℝ)
  | text
  deriving Inhabited

/-- What the constructor can raise. -/
inductive OErr
  | angle
  | key
  | rateOf
  | zeroDivision
  deriving DecidableEq

/-- The parameters which are used. -/
structure ForcedPars where
  type : String
  angle : Angle
  N : ℝ
  Lx : ℝ
  Ly : ℝ
  nkmin : ℝ
  nkmax : ℝ
  rate : ℝ
  keyForced : Option String
  rateOf : Option String

/-- `_init_froude_number` (138-149). -/
def froude (a : Angle) : Except OErr ℝ :=
  match a with
  | .radians x => .ok (Real.sin x)
  | .degrees x => .ok (Real.sin (x * (Real.pi / 180)))
  | .text => .error .angle

/-- The wavenumber of the forcing (160-164); `deltak` is a Python number, so that a division by
zero raises. -/
def forcingLength (p : ForcedPars) : Except OErr ℝ :=
  if p.Lx = 0 ∨ p.Ly = 0 then .error .zeroDivision else
  let deltak := max (2 * Real.pi / p.Lx) (2 * Real.pi / p.Ly)
  let kf := (p.nkmax + p.nkmin) / 2 * deltak
  if kf = 0 then .error .zeroDivision else .ok (2 * Real.pi / kf)

/-- The frequency of the forcing (170-184). -/
def omegaAf (p : ForcedPars) (lf : ℝ) : Except OErr ℝ :=
  match p.rateOf with
  | none =>
    if p.keyForced = none ∨ p.keyForced = some "rot_fft" then .ok (p.rate ^ (1 / 3 : ℝ))
    else if p.keyForced = some "ap_fft" then .ok (p.rate ^ (1 / 7 : ℝ) * lf ^ (-2 / 7 : ℝ))
    else .error .key
  | some s =>
    if s = "energy" ∨ s = "energyK" then .ok (p.rate ^ (1 / 3 : ℝ) * lf ^ (-2 / 3 : ℝ))
    else .error .rateOf

/-- `_compute_ratio_omegas` (151-186); `none` is `inf` or `nan`.  The powers of a negative number are
complex numbers in Python, the model is only meant for `0 ≤ rate`. -/
def ratioOmegas (p : ForcedPars) (F : ℝ) : Except OErr (Option ℝ) :=
  match forcingLength p with
  | .error e => .error e
  | .ok lf =>
    let omegaL := p.N * F / (2 * Real.pi)
    match omegaAf p lf with
    | .error e => .error e
    | .ok w => .ok (if w = 0 then none else some (omegaL / w))

/-- `OutputStrat.__init__` (32-36): the attributes `froude_number` and `ratio_omegas`, which are also
the numbers added to the name of the run (188-196), for the types of forcing whose name ends with
`"anisotropic"`. -/
def stratNumbers (p : ForcedPars) : Except OErr (Option (ℝ × Option ℝ)) :=
  if p.type.endsWith "anisotropic" then
    match froude p.angle with
    | .error e => .error e
    | .ok F =>
      match ratioOmegas p F with
      | .error e => .error e
      | .ok g => .ok (some (F, g))
  else .ok none

end

end Verif.DimNumbers
