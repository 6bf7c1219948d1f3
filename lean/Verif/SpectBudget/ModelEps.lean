import Verif.SpectBudget.Model

/-! # C58: the dissipation rates saved with the budget of ns2d.strat -/

namespace Verif.SpectBudget

open Verif.Fourier Verif.Energy

noncomputable section

/-- `epsilon_kx` (with the bins of `kx` and their width `deltakx`) and `epsilon_ky` (with the ones of `ky`)
(fluidsim/solvers/ns2d/strat/output/spect_energy_budget.py 125-128, 141-143). -/
def epsilon1d (S : Finset (Fin 2 → ℤ)) (w : (Fin 2 → ℤ) → ℕ → ℝ) (deltak : ℝ) (nb : ℕ) (δ : Fin 2 → ℝ) (N : ℝ)
    (fd fdHypo : (Fin 2 → ℤ) → ℝ) (rot b : Fld (Fin 2)) : ℝ :=
  (spectrum S w deltak nb (dissEKu δ fd fdHypo rot)).sum + (spectrum S w deltak nb (dissEKv δ fd fdHypo rot)).sum
    + (spectrum S w deltak nb (dissEA N fd fdHypo b)).sum

end

end Verif.SpectBudget
