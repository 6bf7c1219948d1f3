import Mathlib.Analysis.SpecialFunctions.Pow.Real
import Mathlib.Analysis.SpecialFunctions.Trigonometric.Basic

/-!
# Model of the dimensionless numbers computed from the spatial means

Models `get_dimless_numbers_versus_time` (fluidsim/solvers/ns3d/output/spatial_means.py 332-383 and
fluidsim/solvers/ns3d/strat/output/spatial_means.py 382-408) and `get_dimless_numbers_averaged`
(ns3d/output/spatial_means.py 385-409).

The arithmetic of the code is done element by element on the arrays returned by `load`, so that
one record is modelled: a dictionary from the names to the numbers.  Floats are real numbers; a
result which is not finite (`nan` or `inf`, after a division by zero) is `none`.
-/

namespace Verif.DimNumbers

noncomputable section
open Classical

/-- A missing name in the dictionary returned by `load`. -/
inductive Err
  | key (name : String)
  deriving DecidableEq

/-- One record of the dictionary returned by `load`. -/
abbrev Data := String → Option ℝ

/-- `data[name]`. -/
def get (d : Data) (name : String) : Except Err ℝ :=
  match d name with
  | some x => .ok x
  | none => .error (.key name)

/-- The parameters used by these functions. -/
structure Pars where
  nu2 : ℝ
  nu4 : ℝ
  nu8 : ℝ
  N : ℝ
  Lz : ℝ
  nz : ℕ
  coefDealiasing : ℝ

/-- A division of arrays. -/
def ratio (a b : ℝ) : Option ℝ := if b = 0 then none else some (a / b)

/-- `(x) ** (1 / 4)` of an array (`nan` for a negative number). -/
def root4 (x : ℝ) : Option ℝ := if x < 0 then none else some (x ^ (1 / 4 : ℝ))

/-- A multiplication of an array by a number. -/
def scale (c : ℝ) (x : Option ℝ) : Option ℝ := x.map fun y => c * y

/-- The results; `none` for the names which are not in the dictionary. -/
structure Numbers where
  kMaxEta : Option (Option ℝ)
  fracEpsK2 : Option (Option ℝ)
  Uh2 : ℝ
  epsK : ℝ
  EKh : ℝ
  EKz : ℝ
  eta : Option (Option ℝ)

/-- `k_max` (ns3d/output/spatial_means.py 357-359 and 404-408). -/
def kMax (p : Pars) : ℝ := p.coefDealiasing * (2 * Real.pi / p.Lz) * p.nz / 2

/-- Lines 338-346: the names of ns3d, or those of ns3d.strat if one of the first ones is missing. -/
def energies (d : Data) : Except Err (ℝ × ℝ) :=
  match get d "Ex", get d "Ey", get d "Ez" with
  | .ok Ex, .ok Ey, .ok Ez => .ok (Ex + Ey, Ez)
  | _, _, _ =>
    match get d "EKhr", get d "EKhd", get d "EKhs", get d "EKz" with
    | .ok r, .ok dv, .ok s, .ok z => .ok (r + dv + s, z)
    | .error e, _, _, _ => .error e
    | _, .error e, _, _ => .error e
    | _, _, .error e, _ => .error e
    | _, _, _, .error e => .error e

/-- Lines 361-364: `if nu: epsK_hyper += data[name]`. -/
def addHyper (d : Data) (nu : ℝ) (name : String) (x : ℝ) : Except Err ℝ :=
  if nu ≠ 0 then
    match get d name with
    | .ok e => .ok (x + e)
    | .error e => .error e
  else .ok x

/-- Lines 355-356. -/
def etaOf (p : Pars) (epsK : ℝ) : Option ℝ := (ratio (p.nu2 ^ 3) epsK).bind root4

/-- `get_dimless_numbers_versus_time` of ns3d (332-383). -/
def ns3d (p : Pars) (d : Data) : Except Err Numbers :=
  match energies d with
  | .error e => .error e
  | .ok (EKh, EKz) =>
    match get d "epsK" with
    | .error e => .error e
    | .ok epsK =>
      match addHyper d p.nu4 "epsK4" 0 with
      | .error e => .error e
      | .ok h =>
        match addHyper d p.nu8 "epsK8" h with
        | .error e => .error e
        | .ok hyper =>
          .ok {
            kMaxEta := if p.nu2 ≠ 0 then some (scale (kMax p) (etaOf p epsK)) else none
            fracEpsK2 :=
              if p.nu2 ≠ 0 then
                if p.nu4 ≠ 0 ∨ p.nu8 ≠ 0 then some (ratio (epsK - hyper) epsK)
                else some (some 1)
              else none
            Uh2 := EKh
            epsK := epsK
            EKh := EKh
            EKz := EKz
            eta := if p.nu2 ≠ 0 then some (etaOf p epsK) else none }

/-- The results of ns3d.strat. -/
structure NumbersStrat where
  base : Numbers
  epsA : ℝ
  EA : ℝ
  Fh : Option ℝ
  R2 : Option (Option ℝ)
  R4 : Option (Option ℝ)
  R8 : Option (Option ℝ)
  Gamma : Option ℝ

/-- `get_dimless_numbers_versus_time` of ns3d.strat (382-408). -/
def ns3dStrat (p : Pars) (d : Data) : Except Err NumbersStrat :=
  match ns3d p d with
  | .error e => .error e
  | .ok r =>
    match get d "epsA" with
    | .error e => .error e
    | .ok epsA =>
      match get d "EA" with
      | .error e => .error e
      | .ok EA =>
        .ok {
          base := r
          epsA := epsA
          EA := EA
          Fh := ratio r.epsK (r.Uh2 * p.N)
          R2 := if p.nu2 ≠ 0 then some (ratio r.epsK (p.nu2 * p.N ^ 2)) else none
          R4 := if p.nu4 ≠ 0 then some (ratio (r.epsK * r.Uh2) (p.nu4 * p.N ^ 4)) else none
          R8 := if p.nu8 ≠ 0 then some (ratio (r.epsK * r.Uh2 ^ 3) (p.nu8 * p.N ^ 8)) else none
          Gamma := ratio epsA r.epsK }

/-- `q[itmin:stop].mean()` (ns3d/output/spatial_means.py 392-400) for the selected records of one
quantity: a value which is not finite gives a mean which is not finite. -/
def mean (l : List (Option ℝ)) : Option ℝ :=
  match l.mapM id with
  | none => none
  | some xs => if xs = [] then none else some (xs.sum / xs.length)

end

end Verif.DimNumbers
