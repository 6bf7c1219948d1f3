import Verif.Symmetry.Spec
import Verif.Cfl.Model

/-!
# The runs with time steps chosen by the CFL condition (C95, C98)

`one_time_step` (fluidsim/base/time_stepping/base.py 209-213) calls `compute_time_increment_CLF` at the beginning of each step, with the
velocity of the physical arrays. One process.
-/

namespace Verif.Symmetry

open Verif.Fourier Verif.Vectors Verif.Energy Verif.Schemes Verif.EndToEnd Finset

noncomputable section

variable {D V : Type*} [Fintype D]

/-- The point `j` of the grid: `L j / n` with `L = 2 pi / deltak` in each direction
(fluidsim/operators/operators2d.py and fluidfft: `x_seq = deltax * np.arange(nx)`). -/
def gridPoint (n : D → ℕ) (δ : D → ℝ) (j : D → ℤ) : D → ℝ := fun d => 2 * Real.pi / δ d * j d / n d

/-- The physical array (`oper.ifft`) of the field with the coefficients `a` on the modes `G` of the spectral arrays, flattened. -/
def phys (G : Finset (D → ℤ)) (n : D → ℕ) (δ : D → ℝ) [DecidableEq D] (a : Fld D) : List ℝ :=
  (Finset.univ : Finset (∀ d, Fin (n d))).toList.map fun j => (value G δ a (gridPoint n δ fun d => ((j d : ℕ) : ℤ))).re

/-- `oper.deltax`, `oper.deltay`, `oper.deltaz`. -/
def mesh (n : D → ℕ) (δ : D → ℝ) (d : D) : ℝ := 2 * Real.pi / δ d / n d

/-- `_compute_time_increment_CLF_uxuy` (base.py 356-366) for the state of ns2d: the velocity comes from the vorticity; `h` is the attribute
`deltat` before the call. -/
def pickNs2d (n : Fin 2 → ℕ) (G : Finset (Fin 2 → ℤ)) (δ : Fin 2 → ℝ) (CFL dtMax : ℝ) (u : Unit → Fld (Fin 2)) (h : ℝ) : Except String ℝ :=
  Cfl.clfUxUy CFL dtMax (mesh n δ 0) (mesh n δ 1) h [⟨phys G n δ (ux2 δ (u ())), phys G n δ (uy2 δ (u ())), []⟩]

/-- `_compute_time_increment_CLF_uxuyuz` (base.py 320-339) for the state of ns3d and of ns3d.strat; `v` are the variables of the velocity. -/
def pickNs3d (n : Fin 3 → ℕ) (G : Finset (Fin 3 → ℤ)) (δ : Fin 3 → ℝ) (CFL dtMax : ℝ) (v : Fin 3 → V) (u : V → Fld (Fin 3)) (h : ℝ) :
    Except String ℝ :=
  Cfl.clfUxUyUz CFL dtMax (mesh n δ 0) (mesh n δ 1) (mesh n δ 2) h
    [⟨phys G n δ (u (v 0)), phys G n δ (u (v 1)), phys G n δ (u (v 2))⟩]

/-- The time steps `dt` of a run with the states `r` are chosen by `pick`: the attribute `deltat` is first `params.time_stepping.deltat0`
(base/time_stepping/base.py 268), then `init_with_initialized_state` of the output calls `compute_time_increment_CLF` (base/output/base.py
273-279), then each step does (base/time_stepping/base.py 209-213). -/
def Follows {X : Type*} (pick : X → ℝ → Except String ℝ) (deltat0 : ℝ) (dt : ℕ → ℝ) (r : ℕ → X) : Prop :=
  ∃ h, pick (r 0) deltat0 = .ok h ∧ ∀ m, pick (r m) (match m with | 0 => h | m + 1 => dt m) = .ok (dt m)

/-- The same numerics with other time steps. -/
def Numerics.withDt (c : Numerics D V) (dt : ℕ → ℝ) : Numerics D V := { c with dt := dt }

end

end Verif.Symmetry
