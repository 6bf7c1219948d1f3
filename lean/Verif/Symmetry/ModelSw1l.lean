import Verif.Symmetry.Model
import Verif.EndToEnd.ModelMore

/-! # The runs of sw1l (C95, C98). No new code is modelled. -/

namespace Verif.Symmetry

open Verif.Fourier Verif.Energy Verif.Schemes Verif.EndToEnd Finset

noncomputable section

/-- A run of sw1l: `ux_fft`, `uy_fft`, `eta_fft`. -/
def runSw1l (p : Sw1l.Par) (n : Fin 2 → ℕ) (S G : Finset (Fin 2 → ℤ)) (nu : Dissip.Nu) (c : Numerics (Fin 2) (Fin 3))
    (F : ℕ → Fin 3 → Fld (Fin 2)) (u0 : Fin 3 → Fld (Fin 2)) (k : ℕ) : Fin 3 → Fld (Fin 2) :=
  run S G p.δ nu id (tendSw1l p n S) c F u0 k

/-- A run of sw1l.modified. -/
def runModified (p : Sw1l.Par) (n : Fin 2 → ℕ) (S G : Finset (Fin 2 → ℤ)) (nu : Dissip.Nu) (c : Numerics (Fin 2) (Fin 3))
    (F : ℕ → Fin 3 → Fld (Fin 2)) (u0 : Fin 3 → Fld (Fin 2)) (k : ℕ) : Fin 3 → Fld (Fin 2) :=
  run S G p.δ nu id (tendModified p n S) c F u0 k

end

end Verif.Symmetry
