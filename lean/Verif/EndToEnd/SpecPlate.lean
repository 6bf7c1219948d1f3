import Verif.EndToEnd.SpecMore
import Verif.EndToEnd.ModelPlate

/-! # C87: specification for plate2d -/

namespace Verif.EndToEnd

open Verif.Fourier Verif.Energy Verif.Galerkin Finset

noncomputable section

/-- The Föppl-von Kármán equations: `∂t w = -∇⁴ z + {z, χ} - dissipation + F`, `∂t z = w`, with `∇⁴ χ = -{z, z}`; the fields are real
and have their modes in `S`. -/
structure FlowPlate (S : Finset (Fin 2 → ℤ)) (δ : Fin 2 → ℝ) (nu : Dissip.Nu) (F : Fld (Fin 2)) (T : ℝ)
    (w z : ℝ → Fld (Fin 2)) : Prop where
  real : ∀ t ∈ Set.Icc 0 T, RealField S (w t) ∧ RealField S (z t)
  eqw : ∀ t ∈ Set.Icc 0 T, ∀ chi, Airy S δ (z t) chi → ∀ k ∈ S, HasDerivAt (fun t => w t k)
    (-bilap δ (z t) k + bracket S (sums S) δ (z t) chi k - dissipation δ nu (w t) k + F k) t
  eqz : ∀ t ∈ Set.Icc 0 T, ∀ k ∈ S, HasDerivAt (fun t => z t k) (w t k) t

end

end Verif.EndToEnd
