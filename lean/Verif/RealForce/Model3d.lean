import Verif.Fourier.Model
import Verif.Energy.Model
import Mathlib.Data.Complex.BigOperators

/-!
# C111 in 3D: `project_fft_on_realX` is `fft(ifft(f_fft))`

The arrays are functions of the wavevectors; the modes with a negative wavenumber along the axis `x` are not stored.
-/

namespace Verif.RealForce

open Verif.Fourier Verif.Energy Finset

noncomputable section

variable {D : Type*} [Fintype D] [DecidableEq D]

/-- `oper.ifft` (fluidfft, complex to real) of the half spectrum `f`: the modes stored are those of `S` with `0 ≤ k x`; what is stored for
the modes `k x < 0` does not exist, the values of `f` there are not used. -/
def ifftHalfX (n : D → ℕ) (S : Finset (D → ℤ)) (x : D) (f : Fld D) (j : Pt n) : ℝ :=
  (∑ k ∈ S with 0 ≤ k x, (if k x = 0 then 1 else 2) * f k * chi n k j).re

/-- `project_fft_on_realX` (fluidsim/operators/operators3d.py 1051-1052, operators2d.py 261-262): `fft(ifft(f_fft))`. `S` are the modes of
the grid without the Nyquist ones (which are zero in the forces). The values for `k x < 0`, not stored, are those of the real field. -/
def projFft (n : D → ℕ) (S : Finset (D → ℤ)) (x : D) (f : Fld D) : Fld D := fun k =>
  if k ∈ S then fftCoef n (fun j => ((ifftHalfX n S x f j : ℝ) : ℂ)) k else 0

/-- `compute_forcingc_raw` (fluidsim/base/forcing/specific.py 754-762) in 3D. -/
def rawRandomX (n : D → ℕ) (S : Finset (D → ℤ)) (x : D) (noF : (D → ℤ) → Prop) (rnd : Fld D) : Fld D :=
  open Classical in projFft n S x fun k => if noF k then 0 else rnd k

end

end Verif.RealForce
