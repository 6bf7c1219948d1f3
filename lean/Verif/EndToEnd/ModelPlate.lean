import Verif.EndToEnd.Model

/-!
# plate2d given to the time schemes (C87)

No new code is modelled.
-/

namespace Verif.EndToEnd

open Verif.Fourier Verif.Energy Verif.Schemes Finset

noncomputable section

/-- `tendencies_nonlin` of plate2d (fluidsim/solvers/plate2d/solver.py 167-203): `w_fft` (0) and `z_fft` (1). `H` is the set of the
modes of the array `chi_fft`. -/
def tendPlate (n : Fin 2 → ℕ) (S H : Finset (Fin 2 → ℤ)) (δ : Fin 2 → ℝ) (u : Fin 2 → Fld (Fin 2)) : Fin 2 → Fld (Fin 2) :=
  fun v => if v = 0 then (plate2d n δ S H (u 0) (u 1)).1 else (plate2d n δ S H (u 0) (u 1)).2

/-- `compute_freq_diss` of plate2d (plate2d/solver.py 205-212), with no hypo-viscosity: dissipation for `w` only. -/
def freqPlate (δ : Fin 2 → ℝ) (nu : Dissip.Nu) : Fin 2 → Fld (Fin 2) := fun v k =>
  if v = 0 then (Dissip.fd nu (waveSq δ k) : ℂ) else 0

end

end Verif.EndToEnd
