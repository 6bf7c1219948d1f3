import Verif.Symmetry.SpecMirror
import Verif.Sw1l.Model

/-! # C95, C98 for the shallow water -/

namespace Verif.Symmetry

open Verif.Fourier Verif.Energy Finset

noncomputable section

/-- The parameters of the shallow water when the lengths are multiplied by `ℓ` and the times by `τ`: the box, `f` (the inverse of a time)
and `c2` (the square of a velocity). -/
def newPar (ℓ τ : ℝ) (p : Sw1l.Par) : Sw1l.Par := ⟨fun d => p.δ d / ℓ, p.f / τ, p.c2 * ℓ ^ 2 / τ ^ 2⟩

/-- The factors of `ux`, `uy` and `eta`, which has no dimension. -/
def factorsSw (ℓ τ : ℝ) : Fin 3 → ℝ := ![ℓ / τ, ℓ / τ, 1]

/-- The image by a symmetry of a velocity and of the height of the surface. -/
def imageSw (g : Sym (Fin 2)) (u : Fin 3 → Fld (Fin 2)) : Fin 3 → Fld (Fin 2) :=
  g.image ![(g.π 0).castSucc, (g.π 1).castSucc, 2] ![g.σ 0, g.σ 1, 1] u

end

end Verif.Symmetry
