import Verif.Fourier.Model
import Verif.Schemes.Model
import Mathlib.Algebra.Order.Round
import Mathlib.Data.Rat.Floor
import Mathlib.Data.Set.Basic

/-!
# The pseudo-spectral operators: size of the grid and modes removed (C91)

`OperatorsPseudoSpectral2D.__init__` and `OperatorsPseudoSpectral3D.__init__`. The base classes come from fluidfft; what is used of them
here: the truncation of fluidfft for a grid (`cubic`) and the attribute `_has_to_dealiase` (`has`) are arbitrary. The directions are `x, y`
(and `z`) in this order. The sizes are positive. A missing parameter (`AttributeError`) is `none`.
-/

namespace Verif.Oper

open Verif.Fourier Verif.Schemes

noncomputable section

/-- The parameters read (operators2d.py 98-112, operators3d.py 153-169). The numbers of points are Python numbers. -/
structure Params (D : Type*) where
  n : D → ℚ
  L : D → ℝ
  onlyCoarse : Bool
  coef : ℝ
  shape : Option String
  noShear : Option Bool
  noKy0 : Option Bool

/-- The exceptions: a non-integer size (operators2d.py 121-129), a wrong shape (base.py 69-72). -/
inductive Err
  | notInteger
  | wrongShape
  deriving DecidableEq

/-- The operator: number of points of the grid, parameters, `where_dealiased`. -/
structure Operator (D : Type*) where
  n : D → ℕ
  params : Params D
  removed : Set (D → ℤ)

/-- `int(x)`. -/
def pyInt (q : ℚ) : ℤ := if 0 ≤ q then ⌊q⌋ else ⌈q⌉

/-- `deltakx`, ... (fluidfft). -/
def deltak {D : Type*} (p : Params D) (d : D) : ℝ := 2 * Real.pi / p.L d

/-- `_reinit_truncation` (fluidsim/operators/base.py 46-72); `x` is the direction x. -/
def reinitTruncation {D : Type*} [Fintype D] (cubic : Set (D → ℤ)) (δ : D → ℝ) (n : D → ℕ) (x : D) (coef : ℝ) :
    Option String → Except Err (Set (D → ℤ))
  | none => .ok cubic
  | some s =>
    if s = "cubic" then .ok cubic
    else if s = "spherical" then .ok {k | ¬keptSpherical δ n x coef k}
    else if s = "no_multiple_aliases" then .ok {k | ¬keptNoMultipleAliases δ n x (some coef) k}
    else .error .wrongShape

/-- `params.oper.NO_SHEAR_MODES` in 2D (operators2d.py 171-181). -/
def addNoShear2d (p : Params (Fin 2)) (w : Set (Fin 2 → ℤ)) : Set (Fin 2 → ℤ) :=
  if p.noShear = some true then {k | |deltak p 0 * k 0| = 0} ∪ w else w

/-- `params.oper.NO_KY0` (operators2d.py 183-193). -/
def addNoKy0 (p : Params (Fin 2)) (w : Set (Fin 2 → ℤ)) : Set (Fin 2 → ℤ) :=
  if p.noKy0 = some true then {k | |deltak p 1 * k 1| = 0} ∪ w else w

/-- `OperatorsPseudoSpectral2D.__init__` (operators2d.py 115-193). -/
def init2d (cubic : (Fin 2 → ℕ) → Set (Fin 2 → ℤ)) (p : Params (Fin 2)) : Except Err (Operator (Fin 2)) :=
  if p.n 0 ≠ pyInt (p.n 0) then .error .notInteger
  else if p.n 1 ≠ pyInt (p.n 1) then .error .notInteger
  else
    let p : Params (Fin 2) := { p with n := fun d => pyInt (p.n d) }
    let n : Fin 2 → ℕ := fun d => if p.onlyCoarse then 4 else (pyInt (p.n d)).toNat
    match reinitTruncation (cubic n) (deltak p) n 0 p.coef p.shape with
    | .error e => .error e
    | .ok w => .ok ⟨n, p, addNoKy0 p (addNoShear2d p w)⟩

/-- `params.oper.NO_SHEAR_MODES` in 3D (operators3d.py 267-278). -/
def addNoShear3d (p : Params (Fin 3)) (w : Set (Fin 3 → ℤ)) : Set (Fin 3 → ℤ) :=
  if p.noShear = some true then {k | (deltak p 0 * k 0) ^ 2 + (deltak p 1 * k 1) ^ 2 = 0} ∪ w else w

/-- `OperatorsPseudoSpectral3D.__init__` (operators3d.py 207-278), without the 2D operator `oper2d`. -/
def init3d (cubic : (Fin 3 → ℕ) → Set (Fin 3 → ℤ)) (p : Params (Fin 3)) : Except Err (Operator (Fin 3)) :=
  let p : Params (Fin 3) := { p with n := fun d => pyInt (p.n d) }
  let n : Fin 3 → ℕ := fun d => if p.onlyCoarse then 4 else (pyInt (p.n d)).toNat
  match reinitTruncation (cubic n) (deltak p) n 0 p.coef p.shape with
  | .error e => .error e
  | .ok w => .ok ⟨n, p, addNoShear3d p w⟩

open Classical in
/-- What `oper.dealiasing(state_spect)` sets to zero in 2D (operators2d.py 200-221), for arrays with the modes `G`. -/
def mask2d {V : Type*} (has : Bool) (o : Operator (Fin 2)) (G : Finset (Fin 2 → ℤ)) : V × G → Bool := fun i =>
  if has then decide (i.2.1 ∈ o.removed) else false

open Classical in
/-- What `oper.dealiasing(state_spect)` sets to zero in 3D (operators3d.py 37-53, 336-342): always. -/
def mask3d {V : Type*} (o : Operator (Fin 3)) (G : Finset (Fin 3 → ℤ)) : V × G → Bool := fun i => decide (i.2.1 ∈ o.removed)

end

end Verif.Oper
