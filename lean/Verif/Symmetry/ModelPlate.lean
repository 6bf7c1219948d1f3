import Verif.Symmetry.Model
import Verif.EndToEnd.ModelPlate

/-! # The runs of plate2d (C95, C98). No new code is modelled. -/

namespace Verif.Symmetry

open Verif.Fourier Verif.Energy Verif.Schemes Verif.EndToEnd Finset

noncomputable section

/-- A run of plate2d: `w_fft` (0) and `z_fft` (1); `H` is the set of the modes of the array `chi_fft`. -/
def runPlate (n : Fin 2 → ℕ) (S H G : Finset (Fin 2 → ℤ)) (δ : Fin 2 → ℝ) (nu : Dissip.Nu) (c : Numerics (Fin 2) (Fin 2))
    (F : ℕ → Fin 2 → Fld (Fin 2)) (u0 : Fin 2 → Fld (Fin 2)) (k : ℕ) : Fin 2 → Fld (Fin 2) :=
  runFreq S G (freqPlate δ nu) id (tendPlate n S H δ) c F u0 k

end

end Verif.Symmetry
