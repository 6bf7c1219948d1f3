import Verif.Energy.Model

/-!
# Tendencies as truncated equations (C57): the solver ns2d.bouss

The other solvers are modelled in `Verif.Energy`, `Verif.Sw1l` and `Verif.Burgers`.
-/

namespace Verif.Galerkin

open Verif.Fourier Verif.Energy Finset

noncomputable section

/-- `tendencies_nonlin` of ns2d.bouss (fluidsim/solvers/ns2d/bouss/solver.py 21-27, 64-163), without
forcing: contrary to ns2d.strat, `px_b` is added in physical space. -/
def ns2dBouss (n : Fin 2 → ℕ) (S : Finset (Fin 2 → ℤ)) (δ : Fin 2 → ℝ) (rot b : Fld (Fin 2)) :
    Fld (Fin 2) × Fld (Fin 2) :=
  let ux := gridVal n S (ux2 δ rot)
  let uy := gridVal n S (uy2 δ rot)
  let pxRot := gridVal n S (deriv δ 0 rot)
  let pyRot := gridVal n S (deriv δ 1 rot)
  let pxB := gridVal n S (deriv δ 0 b)
  let pyB := gridVal n S (deriv δ 1 b)
  (fun k => if k ∈ S then fftCoef n (fun j => -ux j * pxRot j - uy j * pyRot j + pxB j) k else 0,
   fun k => if k ∈ S then fftCoef n (fun j => -ux j * pxB j - uy j * pyB j) k else 0)

end

end Verif.Galerkin
