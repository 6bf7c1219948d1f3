import Verif.Energy.Model
import Mathlib.Data.Real.Sign

/-!
# Tendencies of burgers1d, burgers1d.skew_sym and nl1d (C51)

One direction (`Unit`). As in `Verif.Energy`, a field is given by its coefficients on the finite set
`S` of the modes kept by `oper.dealiasing`, negative modes included (the code stores `kx >= 0`).
-/

namespace Verif.Burgers

open Verif.Fourier Verif.Energy Finset

noncomputable section

/-- The modes of the tendencies that are not set to zero: those kept by `oper.dealiasing` except the
"oddball mode" `nkx - 1`, `nkx = nx // 2 + 1` (fluidsim/solvers/burgers1d/solver.py 90-93,
skew_sym/solver.py 60-62; the opposite mode is not stored and follows). -/
def kept (nx : ℕ) (S : Finset (Unit → ℤ)) (k : Unit → ℤ) : Prop := k ∈ S ∧ |k ()| ≠ (nx / 2 + 1 : ℕ) - 1

instance (nx : ℕ) (S : Finset (Unit → ℤ)) (k : Unit → ℤ) : Decidable (kept nx S k) := by
  unfold kept; infer_instance

/-- `oper.pxffft_from_fft` (fluidsim/operators/operators1d.py, fluidfft): multiplication by `i kx`. -/
def px (δ : ℝ) (u : Fld Unit) : Fld Unit := fun k => Complex.I * (δ * k () : ℝ) * u k

/-- `tendencies_nonlin` of burgers1d (fluidsim/solvers/burgers1d/solver.py 69-94). -/
def convective (nx : ℕ) (S : Finset (Unit → ℤ)) (δ : ℝ) (u : Fld Unit) : Fld Unit := fun k =>
  if kept nx S k then
    fftCoef (fun _ => nx) (fun j => -gridVal (fun _ => nx) S u j * gridVal (fun _ => nx) S (px δ u) j) k
  else 0

/-- `tendencies_nonlin` of burgers1d.skew_sym (fluidsim/solvers/burgers1d/skew_sym/solver.py 30-63). -/
def skewSym (nx : ℕ) (S : Finset (Unit → ℤ)) (δ : ℝ) (u : Fld Unit) : Fld Unit := fun k =>
  if kept nx S k then
    fftCoef (fun _ => nx)
        (fun j => -0.5 * gridVal (fun _ => nx) S u j * gridVal (fun _ => nx) S (px δ u) j) k
      + -0.25 * px δ (fftCoef (fun _ => nx) (fun j => gridVal (fun _ => nx) S u j ^ 2)) k
  else 0

/-- `tendencies_nonlin` of nl1d (fluidsim/solvers/nl1d/solver.py 55-74); the field on the grid is
real, hence `.re`. -/
def nl1d (nx : ℕ) (S : Finset (Unit → ℤ)) (sigma : ℝ) (s : Fld Unit) : Fld Unit := fun k =>
  if k ∈ S then
    fftCoef (fun _ => nx) (fun j =>
      let x := (gridVal (fun _ => nx) S s j).re
      ((-Real.sign x * sigma * x ^ 2 : ℝ) : ℂ)) k
  else 0

end

end Verif.Burgers
