import Verif.ForcedRegion.Model
import Mathlib.Analysis.SpecialFunctions.Trigonometric.Inverse
import Mathlib.Analysis.SpecialFunctions.Pow.Real

/-! # C72: the launcher of simulations forced by waves (fluidsim/util/scripts/turb_trandom_anisotropic.py)

Simplifications: floating-point numbers are real numbers; `round(number, 3)` is a parameter `r3`; the formatting of the
numbers of the name of the run is not modelled (tokens); the code given with `--modify-params` is a function on the
parameters; the parsing of the command line (argparse) is not modelled. A negative `k_max` (negative dealiasing
coefficient), for which the code computes a complex viscosity, is an error of the model. -/

namespace Verif.Launcher

open Real

noncomputable section

inductive Err where
  | value
  | key
  | zeroDivision
  | type
  deriving DecidableEq, Repr

/-- The arguments of the script (turb_trandom_anisotropic.py 70-272). -/
structure Args where
  nz : ℕ
  ratioNhNz : ℤ
  tEnd : ℝ
  N : ℝ
  nu : Option ℝ
  nu4 : Option ℝ
  Rb : Option ℝ
  Rb4 : Option ℝ
  coefNu4 : ℝ
  forcedField : String
  initVeloMax : ℝ
  nhForcing : ℤ
  ratioKfmin : ℝ
  ratioKfmax : ℝ
  F : ℝ
  deltaF : ℝ
  spatiotemporal : Bool
  projection : Option String
  disableNoVzKz0 : Bool
  disableNoShearModes : Bool
  coefDealiasing : ℝ

/-- The default arguments (turb_trandom_anisotropic.py 101-249). -/
def Args.default : Args where
  nz := 32
  ratioNhNz := 4
  tEnd := 10
  N := 10
  nu := none
  nu4 := none
  Rb := none
  Rb4 := none
  coefNu4 := 1
  forcedField := "polo"
  initVeloMax := 1 / 100
  nhForcing := 3
  ratioKfmin := 1 / 2
  ratioKfmax := 2
  F := 3 / 10
  deltaF := 1 / 10
  spatiotemporal := false
  projection := none
  disableNoVzKz0 := false
  disableNoShearModes := false
  coefDealiasing := 8 / 10

/-- The elements of `params.short_name_type_run`. -/
inductive Tok where
  | text (s : String)
  | num (s : String) (x : ℝ)

/-- The parameters which are set by `create_params`. -/
structure Params where
  shortName : List Tok
  projection : Option String
  noVzKz0 : Bool
  noShearModes : Bool
  coefDealiasing : ℝ
  nx : ℤ
  ny : ℤ
  nz : ℤ
  Lx : ℝ
  Ly : ℝ
  Lz : ℝ
  N : ℝ
  nu2 : ℝ
  nu4 : ℝ
  noiseLength : ℝ
  noiseVeloMax : ℝ
  forcingRate : ℝ
  keyForced : String
  nkmin : ℝ
  nkmax : ℝ
  tEnd : ℝ
  deltatMax : ℝ
  timeCorrelation : ℝ
  angle : ℝ
  deltaAngle : ℝ
  periodSpatiotemporal : Option ℝ
  probesRegion : ℤ × ℤ × ℤ

/-- `keys_versus_kind` (turb_trandom_anisotropic.py 62-67). -/
def keysVersusKind : String → Option String
  | "toro" => some "vt_fft"
  | "polo" => some "vp_fft"
  | "buoyancy" => some "b_fft"
  | "vert" => some "vz_fft"
  | _ => none

/-- A division of Python floats. -/
def pydiv (x y : ℝ) : Except Err ℝ := open Classical in if y = 0 then .error .zeroDivision else .ok (x / y)

/-- `math.asin`. -/
def asin (x : ℝ) : Except Err ℝ := open Classical in if |x| ≤ 1 then .ok (arcsin x) else .error .value

/-- `injection_rate` (turb_trandom_anisotropic.py 304). -/
def injectionRate : ℝ := 1

/-- The viscosity `params.nu_2` (turb_trandom_anisotropic.py 320-339). -/
def viscosity (a : Args) : Except Err ℝ :=
  match a.nu, a.Rb with
  | some _, some _ => .error .value
  | some nu, none => do
    let _ ← (open Classical in if nu ≠ 0 then pydiv injectionRate (nu * a.N ^ 2) else .ok 0)
    return nu
  | none, some Rb => pydiv injectionRate (Rb * a.N ^ 2)
  | none, none => pydiv injectionRate (5 * a.N ^ 2)

/-- The hyperviscosity `params.nu_4` (turb_trandom_anisotropic.py 341-373). The power of a negative number is complex and
its comparison with 1 raises TypeError. -/
def viscosity4 (a : Args) (nu deltaKz : ℝ) : Except Err ℝ :=
  match a.nu4, a.Rb4 with
  | some _, some _ => .error .value
  | some nu4, none => .ok nu4
  | none, some Rb4 => pydiv injectionRate (Rb4 * a.N ^ 4)
  | none, none =>
    let kmax := a.coefDealiasing * deltaKz * a.nz / 2
    open Classical in
    if nu < 0 ∨ kmax < 0 then .error .type
    else
      let eta := (nu ^ 3 / injectionRate) ^ (1 / 4 : ℝ)
      if eta * kmax > 1 then .ok 0
      else do
        let nu4 ← pydiv (a.coefNu4 * injectionRate ^ (1 / 3 : ℝ)) (kmax ^ (10 / 3 : ℝ))
        let _ ← pydiv injectionRate (nu4 * a.N ^ 4)
        return nu4

/-- The name of the run (turb_trandom_anisotropic.py 283-287, 316, 329, 334, 345, 350). -/
def shortName (a : Args) (Fh : ℝ) : List Tok :=
  [.text a.forcedField] ++ (match a.projection with | some _ => [.text "_proj"] | none => []) ++ [.num "_Fh" Fh] ++
    (match a.nu, a.Rb with | some nu, _ => [.num "_nu" nu] | none, some Rb => [.num "_Rb" Rb] | none, none => []) ++
    (match a.nu4, a.Rb4 with | some nu, _ => [.num "_nuh" nu] | none, some Rb => [.num "_Rbh" Rb] | none, none => [])

/-- `create_params` (turb_trandom_anisotropic.py 275-449). -/
def createParams (r3 : ℝ → ℝ) (modify : Option (Params → Except Err Params)) (a : Args) : Except Err Params := do
  if a.ratioNhNz < 1 then throw .value
  let nh : ℤ := a.nz * a.ratioNhNz
  let Lh : ℝ := a.nhForcing * 1
  let Lz := Lh / a.ratioNhNz
  let deltaKz ← pydiv (2 * π) Lz
  let Fh ← pydiv 1 (a.N * 1)
  let nu ← viscosity a
  let nu4 ← viscosity4 a nu deltaKz
  let key ← match keysVersusKind a.forcedField with | some k => Except.ok k | none => .error .key
  let angle ← asin a.F
  let deltaAngle ← asin a.deltaF
  let kf ← pydiv (2 * π / 1) (sin angle)
  let kfmin := kf * a.ratioKfmin
  let kfmax := kf * a.ratioKfmax
  let periodN := 2 * π / a.N
  let omega := a.N * a.F
  let p : Params := {
    shortName := shortName a Fh
    projection := a.projection
    noVzKz0 := !a.disableNoVzKz0
    noShearModes := !a.disableNoShearModes
    coefDealiasing := a.coefDealiasing
    nx := nh
    ny := nh
    nz := a.nz
    Lx := Lh
    Ly := Lh
    Lz := Lz
    N := a.N
    nu2 := nu
    nu4 := nu4
    noiseLength := Lz / 2
    noiseVeloMax := a.initVeloMax
    forcingRate := injectionRate
    keyForced := key
    nkmin := max 0 (r3 (kfmin / deltaKz))
    nkmax := min ((a.nz / 2 : ℕ) : ℝ) (r3 (kfmax / deltaKz))
    tEnd := a.tEnd
    deltatMax := min (1 / 10) (periodN / 16)
    timeCorrelation := 2 * π / omega
    angle := r3 angle
    deltaAngle := r3 deltaAngle
    periodSpatiotemporal := if a.spatiotemporal then some (periodN / 8) else none
    probesRegion := (16 * a.ratioNhNz, 16 * a.ratioNhNz, 16) }
  match modify with
  | none => return p
  | some f => f p

/-- The projection chosen by the solver (fluidsim/solvers/ns3d/solver.py 159-174). -/
inductive Projector where
  | perpk3d
  | toroidal
  | poloidal
  deriving DecidableEq, Repr

def projector : Option String → Except Err Projector
  | none => .ok .perpk3d
  | some "toroidal" => .ok .toroidal
  | some "vortical" => .ok .toroidal
  | some "poloidal" => .ok .poloidal
  | some _ => .error .value

/-- What `main` does once the parameters are created (turb_trandom_anisotropic.py 452-509). -/
inductive Action where
  | printCode
  | printParams
  | createSim (hasToSave : Bool)
  | plotForcing
  | start
  deriving DecidableEq, Repr

def main (onlyPlotForcing onlyPrintAsCode onlyPrint : Bool) : List Action :=
  let hasToSave := !(onlyPlotForcing || onlyPrintAsCode || onlyPrint)
  if onlyPrintAsCode then [.printCode]
  else if onlyPrint then [.printParams]
  else if onlyPlotForcing then [.createSim hasToSave, .plotForcing]
  else [.createSim hasToSave, .start]

end

end Verif.Launcher
