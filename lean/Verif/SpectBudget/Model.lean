import Verif.Energy.Model
import Verif.Vectors.Model

/-!
# Spectral energy budgets (C58)

The quantities computed by the `compute` methods of the spectral energy budgets of ns2d, ns2d.strat,
ns3d and ns3d.strat, mode by mode, for a state truncated to the modes of `S`; then the sums over bins
of wavenumbers and the fluxes.

The functions which distribute the modes over bins (`spectrum2D_from_fft`, `compute_spectrum_kzkh`)
are in fluidfft, not in the repository: they are modelled by weights (`spectrum`), see DESIGN.md.
-/

namespace Verif.SpectBudget

open Verif.Fourier Verif.Energy Verif.Vectors Finset

noncomputable section

/-- `-ux * px_a - uy * py_a`, then `oper.fft2` and `oper.dealiasing`
(fluidsim/solvers/ns2d/output/spect_energy_budget.py 45-55 and
fluidsim/base/output/spect_energy_budget.py 99-119). -/
def fnl (n : Fin 2 → ℕ) (S : Finset (Fin 2 → ℤ)) (δ : Fin 2 → ℝ) (rot a : Fld (Fin 2)) :
    Fld (Fin 2) := fun k =>
  if k ∈ S then
    fftCoef n (fun j => -gridVal n S (ux2 δ rot) j * gridVal n S (deriv δ 0 a) j
      - gridVal n S (uy2 δ rot) j * gridVal n S (deriv δ 1 a) j) k
  else 0

/-- `Frot_fft` (ns2d/output/spect_energy_budget.py 45-47). -/
def frot (n : Fin 2 → ℕ) (S : Finset (Fin 2 → ℤ)) (δ : Fin 2 → ℝ) (beta : ℝ) (rot : Fld (Fin 2)) :
    Fld (Fin 2) := fun k =>
  if k ∈ S then
    fftCoef n (fun j => -gridVal n S (ux2 δ rot) j * gridVal n S (deriv δ 0 rot) j
      - gridVal n S (uy2 δ rot) j * (gridVal n S (deriv δ 1 rot) j + beta)) k
  else 0

/-- `np.real(a.conj() * F + a * F.conj()) / 2.0`. -/
def sym (a F : ℂ) : ℝ := ((starRingEnd ℂ) a * F + a * (starRingEnd ℂ) F).re / 2

/-- `np.real(a.conj() * F)` (`inner_prod`, base/output/spect_energy_budget.py 25-26). -/
def innerProd (a F : ℂ) : ℝ := ((starRingEnd ℂ) a * F).re

/-- `transferZ_fft` (ns2d/output/spect_energy_budget.py 57-59). -/
def transferZ (n : Fin 2 → ℕ) (S : Finset (Fin 2 → ℤ)) (δ : Fin 2 → ℝ) (beta : ℝ)
    (rot : Fld (Fin 2)) (k : Fin 2 → ℤ) : ℝ :=
  sym (rot k) (frot n S δ beta rot k)

/-- `transferE_fft` (ns2d/output/spect_energy_budget.py 64-72) and `transferEK_fft`
(ns2d/strat/output/spect_energy_budget.py 107-115). -/
def transferE (n : Fin 2 → ℕ) (S : Finset (Fin 2 → ℤ)) (δ : Fin 2 → ℝ) (rot : Fld (Fin 2))
    (k : Fin 2 → ℤ) : ℝ :=
  let ux := ux2 δ rot k
  let uy := uy2 δ rot k
  let Fx := fnl n S δ rot (ux2 δ rot) k
  let Fy := fnl n S δ rot (uy2 δ rot) k
  ((starRingEnd ℂ) ux * Fx + ux * (starRingEnd ℂ) Fx
    + (starRingEnd ℂ) uy * Fy + uy * (starRingEnd ℂ) Fy).re / 2

/-! ### ns2d.strat (fluidsim/solvers/ns2d/strat/output/spect_energy_budget.py) -/

/-- `transferEKu_fft` and `transferEKv_fft` (76-77). -/
def transferEKu (n : Fin 2 → ℕ) (S : Finset (Fin 2 → ℤ)) (δ : Fin 2 → ℝ) (rot : Fld (Fin 2))
    (k : Fin 2 → ℤ) : ℝ := innerProd (ux2 δ rot k) (fnl n S δ rot (ux2 δ rot) k)

def transferEKv (n : Fin 2 → ℕ) (S : Finset (Fin 2 → ℤ)) (δ : Fin 2 → ℝ) (rot : Fld (Fin 2))
    (k : Fin 2 → ℤ) : ℝ := innerProd (uy2 δ rot k) (fnl n S δ rot (uy2 δ rot) k)

/-- `B_fft` (78). -/
def bFft (δ : Fin 2 → ℝ) (rot b : Fld (Fin 2)) (k : Fin 2 → ℤ) : ℝ := innerProd (uy2 δ rot k) (b k)

/-- `transferEA_fft` (80-85). -/
def transferEA (n : Fin 2 → ℕ) (S : Finset (Fin 2 → ℤ)) (δ : Fin 2 → ℝ) (N : ℝ)
    (rot b : Fld (Fin 2)) (k : Fin 2 → ℤ) : ℝ :=
  if N = 0 then 0 else 1 / N ^ 2 * innerProd (b k) (fnl n S δ rot b k)

/-- `dissEKu_fft`, `dissEKv_fft` (87-88), with `freq_diss_EK = f_d + f_d_hypo` (68-69). -/
def dissEKu (δ : Fin 2 → ℝ) (fd fdHypo : (Fin 2 → ℤ) → ℝ) (rot : Fld (Fin 2)) (k : Fin 2 → ℤ) : ℝ :=
  (((fd k + fdHypo k : ℝ) : ℂ) * ((starRingEnd ℂ) (ux2 δ rot k) * ux2 δ rot k)).re

def dissEKv (δ : Fin 2 → ℝ) (fd fdHypo : (Fin 2 → ℤ) → ℝ) (rot : Fld (Fin 2)) (k : Fin 2 → ℤ) : ℝ :=
  (((fd k + fdHypo k : ℝ) : ℂ) * ((starRingEnd ℂ) (uy2 δ rot k) * uy2 δ rot k)).re

/-- `dissEK_fft` (90-99). -/
def dissEK (δ : Fin 2 → ℝ) (fd fdHypo : (Fin 2 → ℤ) → ℝ) (rot : Fld (Fin 2)) (k : Fin 2 → ℤ) : ℝ :=
  let ux := ux2 δ rot k
  let uy := uy2 δ rot k
  (((fd k + fdHypo k : ℝ) : ℂ) * ((starRingEnd ℂ) ux * ux + ux * (starRingEnd ℂ) ux
    + (starRingEnd ℂ) uy * uy + uy * (starRingEnd ℂ) uy) / 2).re

/-- `dissEA_fft` (100-105). -/
def dissEA (N : ℝ) (fd fdHypo : (Fin 2 → ℤ) → ℝ) (b : Fld (Fin 2)) (k : Fin 2 → ℤ) : ℝ :=
  if N = 0 then 0
  else 1 / N ^ 2 * (((fd k + fdHypo k : ℝ) : ℂ) * ((starRingEnd ℂ) (b k) * b k)).re

/-! ### ns3d (fluidsim/solvers/ns3d/output/spect_energy_budget.py) -/

/-- `fx_fft, fy_fft, fz_fft` (124-151): `fft(v x omega)`, projected. The Coriolis parameter is not
added to the vorticity, contrary to what is done in the tendencies. (The mode zero of the vorticity is
zero, so that summing its transform over `S` or over `insert 0 S` is the same.) -/
def force3 (n : Fin 3 → ℕ) (S : Finset (Fin 3 → ℤ)) (δ : Fin 3 → ℝ) (p : Projection)
    (v : (Fin 3 → ℤ) → V3) (k : Fin 3 → ℤ) : V3 :=
  projector p (wave3 δ k) (lamb n S δ none v k)

/-- `transfer_Kh` (153-158). -/
def transferKh (n : Fin 3 → ℕ) (S : Finset (Fin 3 → ℤ)) (δ : Fin 3 → ℝ) (p : Projection)
    (v : (Fin 3 → ℤ) → V3) (k : Fin 3 → ℤ) : ℝ :=
  let F := force3 n S δ p v k
  innerProd (v k).x F.x + innerProd (v k).y F.y

/-- `transfer_Kz` (160-162). -/
def transferKz (n : Fin 3 → ℕ) (S : Finset (Fin 3 → ℤ)) (δ : Fin 3 → ℝ) (p : Projection)
    (v : (Fin 3 → ℤ) → V3) (k : Fin 3 → ℤ) : ℝ :=
  innerProd (v k).z (force3 n S δ p v k).z

/-- `transfer_Khr` (164-174). -/
def transferKhr (n : Fin 3 → ℕ) (S : Finset (Fin 3 → ℤ)) (δ : Fin 3 → ℝ) (p : Projection)
    (v : (Fin 3 → ℤ) → V3) (k : Fin 3 → ℤ) : ℝ :=
  let F := force3 n S δ p v k
  let ur := (urud (wave3 δ k) (v k).x (v k).y).1
  innerProd ur.1 F.x + innerProd ur.2 F.y

/-- `diss_Kh` (178-185): `f_d_hypo` is deleted, not used. -/
def dissKh (fd _fdHypo : (Fin 3 → ℤ) → ℝ) (v : (Fin 3 → ℤ) → V3) (k : Fin 3 → ℤ) : ℝ :=
  fd k * (‖(v k).x‖ ^ 2 + ‖(v k).y‖ ^ 2)

/-- `diss_Kz` (189). -/
def dissKz (fd _fdHypo : (Fin 3 → ℤ) → ℝ) (v : (Fin 3 → ℤ) → V3) (k : Fin 3 → ℤ) : ℝ :=
  fd k * ‖(v k).z‖ ^ 2

/-- `assert transfer_K.sum() < 1e-14` (191-192). -/
def assertPasses (sumTransferK : ℝ) : Prop := sumTransferK < 1e-14

/-! ### ns3d.strat (fluidsim/solvers/ns3d/strat/output/spect_energy_budget.py) -/

/-- `diss_A` (88-90). -/
def dissA (N : ℝ) (fd _fdHypo : (Fin 3 → ℤ) → ℝ) (b : Fld (Fin 3)) (k : Fin 3 → ℤ) : ℝ :=
  1 / N ^ 2 * fd k * ‖b k‖ ^ 2

/-- `conv_K2A` (92-94). -/
def convK2A (v : (Fin 3 → ℤ) → V3) (b : Fld (Fin 3)) (k : Fin 3 → ℤ) : ℝ :=
  -innerProd (v k).z (b k)

/-- `transfer_A` (101-110). -/
def transferA (n : Fin 3 → ℕ) (S : Finset (Fin 3 → ℤ)) (δ : Fin 3 → ℝ) (N : ℝ)
    (v : (Fin 3 → ℤ) → V3) (b : Fld (Fin 3)) (k : Fin 3 → ℤ) : ℝ :=
  innerProd (b k) (((-1 / N ^ 2 : ℝ) : ℂ) * divVb n S δ v b k)

/-! ### Bins and fluxes -/

/-- Contract of the functions of fluidfft which distribute a quantity over `nb` bins
(`spectrum2D_from_fft`; called in ns2d/output/spect_energy_budget.py 77-78): the mode `k` contributes
to the bin `i` with the weight `w k i`; the sum is divided by the width of the bins. -/
def spectrum {D : Type*} (S : Finset (D → ℤ)) (w : (D → ℤ) → ℕ → ℝ) (deltak : ℝ) (nb : ℕ)
    (q : (D → ℤ) → ℝ) : List ℝ :=
  (List.range nb).map fun i => (∑ k ∈ S, w k i * q k) / deltak

/-- `numpy.cumsum`. -/
def cumsumFrom (s : ℝ) : List ℝ → List ℝ
  | [] => []
  | x :: l => (s + x) :: cumsumFrom (s + x) l

def cumsum (l : List ℝ) : List ℝ := cumsumFrom 0 l

/-- `cumsum_inv` (base/output/spect_energy_budget.py 21-22). -/
def cumsumInv (l : List ℝ) : List ℝ := (cumsum l.reverse).reverse

/-- `PiE = cumsum_inv(transfer2D_E) * self.oper.deltak` (ns2d/output/spect_energy_budget.py 90). -/
def flux2 (deltak : ℝ) (transfer : List ℝ) : List ℝ := (cumsumInv transfer).map (· * deltak)

/-- `compute_fluxes_mean` for `hflux` (ns3d/output/spect_energy_budget.py 296-303): the lines of
`spec` are the bins of `kz`, its columns (`nkh` of them) the bins of `kh`. -/
def hflux (isTransfer : Bool) (deltakh deltakz : ℝ) (nkh : ℕ) (spec : List (List ℝ)) : List ℝ :=
  let f := (List.range nkh).map fun j => deltakz * (spec.map fun l => l.getD j 0).sum
  let f := (cumsum f).map (deltakh * ·)
  if isTransfer then f.map (· * -1) else f

/-- `compute_fluxes_mean` for `zflux` (305-311). -/
def zflux (isTransfer : Bool) (deltakh deltakz : ℝ) (spec : List (List ℝ)) : List ℝ :=
  let f := spec.map fun l => deltakh * l.sum
  let f := (cumsum f).map (deltakz * ·)
  if isTransfer then f.map (· * -1) else f

/-- Contract of `compute_spectrum_kzkh` (fluidfft operators3d; called in
ns3d/output/spect_energy_budget.py 100). -/
def spectrumKzkh (S : Finset (Fin 3 → ℤ)) (w : (Fin 3 → ℤ) → ℕ → ℕ → ℝ) (deltakh deltakz : ℝ)
    (nkz nkh : ℕ) (q : (Fin 3 → ℤ) → ℝ) : List (List ℝ) :=
  (List.range nkz).map fun z => (List.range nkh).map fun h =>
    (∑ k ∈ S, w k z h * q k) / (deltakh * deltakz)

end

end Verif.SpectBudget
