import Verif.Energy.Props2d

/-!
# Model of the internal-wave modes of ns2d.strat

The modes `ap_fft`, `am_fft` (`apFrom`, `amFrom`) and the conversions `compute_rotbfft_from_apfft`,
`compute_rotbfft_from_amfft` (`rotbFromAp`, `rotbFromAm`) are in `Verif.Forcing.Model`; the tendencies
(`ns2dStrat`) are in `Verif.Energy.Model`.
-/

namespace Verif.Strat

open Verif.Fourier Verif.Energy Verif.Forcing Finset

noncomputable section

/-- `compute_dispersion_relation` (fluidsim/solvers/ns2d/strat/solver.py 215-225): `N KX / K_not0`. -/
def dispersion (δ : Fin 2 → ℝ) (N : ℝ) (k : Fin 2 → ℤ) : ℝ :=
  N * (δ 0 * k 0 / √(k2not0 (δ 0 * k 0) (δ 1 * k 1)))

/-- `state.compute("ap_fft")` (fluidsim/solvers/ns2d/strat/state.py 86-95). -/
def apFft (δ : Fin 2 → ℝ) (N : ℝ) (rot b : Fld (Fin 2)) : Fld (Fin 2) := fun k =>
  apFrom N (δ 0 * k 0) (δ 1 * k 1) (rot k) (b k)

/-- `state.compute("am_fft")` (strat/state.py 96-111). -/
def amFft (δ : Fin 2 → ℝ) (N : ℝ) (rot b : Fld (Fin 2)) : Fld (Fin 2) := fun k =>
  amFrom N (δ 0 * k 0) (δ 1 * k 1) (rot k) (b k)

/-- `init_from_apfft` (strat/state.py 175-178, 163-173, 208-231): conversion, then truncation. -/
def initFromAp (S : Finset (Fin 2 → ℤ)) (δ : Fin 2 → ℝ) (N : ℝ) (ap : Fld (Fin 2)) :
    Fld (Fin 2) × Fld (Fin 2) :=
  (fun k => if k ∈ S then (rotbFromAp N (δ 0 * k 0) (δ 1 * k 1) (ap k)).1 else 0,
   fun k => if k ∈ S then (rotbFromAp N (δ 0 * k 0) (δ 1 * k 1) (ap k)).2 else 0)

/-- `init_from_amfft` (strat/state.py 180-183, 163-173, 185-206). -/
def initFromAm (S : Finset (Fin 2 → ℤ)) (δ : Fin 2 → ℝ) (N : ℝ) (am : Fld (Fin 2)) :
    Fld (Fin 2) × Fld (Fin 2) :=
  (fun k => if k ∈ S then (rotbFromAm N (δ 0 * k 0) (δ 1 * k 1) (am k)).1 else 0,
   fun k => if k ∈ S then (rotbFromAm N (δ 0 * k 0) (δ 1 * k 1) (am k)).2 else 0)

/-- The array `pt_energy_fft` of `check_energy_conservation` (strat/solver.py 183-203) at one mode. -/
def ptEnergy (δ : Fin 2 → ℝ) (N : ℝ) (rot b frot fb : Fld (Fin 2)) (k : Fin 2 → ℤ) : ℝ :=
  let division : ℝ := if k = 0 then 0 else 1 / k2not0 (δ 0 * k 0) (δ 1 * k 1)
  0.5 * division * ((starRingEnd ℂ) (rot k) * frot k).re
    + 1 / (2 * N ^ 2) * ((starRingEnd ℂ) (b k) * fb k).re

/-- `check_energy_conservation` (strat/solver.py 183-213). `sum_wavenumbers` is the sum over all the
modes. A quotient `0 / 0` is a nan, for which the comparison is false. -/
def checkEnergy (S : Finset (Fin 2 → ℤ)) (δ : Fin 2 → ℝ) (N : ℝ) (rot b frot fb : Fld (Fin 2)) :
    Bool :=
  let pt := ∑ k ∈ S, ptEnergy δ N rot b frot fb k
  let den := ∑ k ∈ S, |ptEnergy δ N rot b frot fb k|
  if den = 0 then false else decide (pt / den < 1e-14)

end

end Verif.Strat
