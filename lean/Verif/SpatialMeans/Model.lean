import Verif.SpectBudget.Model
import Mathlib.Analysis.SpecialFunctions.Pow.Real

/-!
# Spatial means (C59)

The numbers computed by the `_save_one_time` methods of the spatial means outputs. The state and the
forcing are families of Fourier coefficients on the finite set `S` of the kept modes (both are zero on
the other modes of the arrays), `output.sum_wavenumbers` (fluidfft) is the sum over all the
wavenumbers, hence over `S`. `fd` and `fdHypo` are the two arrays returned by `sim.compute_freq_diss`.
`deltat` is `sim.time_stepping.deltat`. Writing in the file is in C60.
-/

namespace Verif.SpatialMeans

open Verif.Fourier Verif.Energy Verif.Vectors Verif.SpectBudget Verif.Forcing Finset

noncomputable section

/-- The three numbers of a line `PK1 = ... ; PK2 = ... ; PK_tot = ...`. -/
@[ext] structure Inj where
  p1 : ℝ
  p2 : ℝ
  tot : ℝ

/-- The three numbers of a line `epsK = ... ; epsK_hypo = ... ; epsK_tot = ...`. -/
@[ext] structure Diss where
  eps : ℝ
  hypo : ℝ
  tot : ℝ

/-- `self.sum_wavenumbers(f_d * 2 * energy_fft)`, the same with `f_d_hypo`, and their sum. -/
def diss {D : Type*} (S : Finset (D → ℤ)) (fd fdHypo e : (D → ℤ) → ℝ) : Diss :=
  let a := ∑ k ∈ S, fd k * 2 * e k
  let b := ∑ k ∈ S, fdHypo k * 2 * e k
  ⟨a, b, a + b⟩

/-! ### ns2d (fluidsim/solvers/ns2d/output/spatial_means.py 23-81) -/

/-- `output.compute_energy_fft` (fluidsim/solvers/ns2d/output/__init__.py 110-114). -/
def energy2 (δ : Fin 2 → ℝ) (rot : Fld (Fin 2)) (k : Fin 2 → ℤ) : ℝ :=
  (‖ux2 δ rot k‖ ^ 2 + ‖uy2 δ rot k‖ ^ 2) / 2

/-- `output.compute_enstrophy_fft` (116-119). -/
def enstrophy2 (rot : Fld (Fin 2)) (k : Fin 2 → ℤ) : ℝ := ‖rot k‖ ^ 2 / 2

structure Means2d where
  E : ℝ
  Z : ℝ
  epsK : Diss
  epsZ : Diss
  PK : Inj
  PZ : Inj

/-- `_save_one_time` (ns2d/output/spatial_means.py 23-81). -/
def ns2dMeans (S : Finset (Fin 2 → ℤ)) (δ : Fin 2 → ℝ) (fd fdHypo : (Fin 2 → ℤ) → ℝ) (deltat : ℝ)
    (rot Frot : Fld (Fin 2)) : Means2d :=
  let PZ1 := ∑ k ∈ S, innerProd (rot k) (Frot k)
  let PZ2 := deltat / 2 * ∑ k ∈ S, ‖Frot k‖ ^ 2
  let PK1 := ∑ k ∈ S,
    (let ux := ux2 δ rot k
     let uy := uy2 δ rot k
     let Fx := ux2 δ Frot k
     let Fy := uy2 δ Frot k
     ((starRingEnd ℂ) ux * Fx + ux * (starRingEnd ℂ) Fx
       + (starRingEnd ℂ) uy * Fy + uy * (starRingEnd ℂ) Fy).re / 2)
  let PK2 := ∑ k ∈ S, (‖ux2 δ Frot k‖ ^ 2 + ‖uy2 δ Frot k‖ ^ 2) * deltat / 2
  { E := ∑ k ∈ S, energy2 δ rot k
    Z := ∑ k ∈ S, enstrophy2 rot k
    epsK := diss S fd fdHypo (energy2 δ rot)
    epsZ := diss S fd fdHypo (enstrophy2 rot)
    PK := ⟨PK1, PK2, PK1 + PK2⟩
    PZ := ⟨PZ1, PZ2, PZ1 + PZ2⟩ }

/-! ### ns2d.strat (fluidsim/solvers/ns2d/strat/output/spatial_means.py 23-106) -/

/-- `energyA_fft` of `output.compute_energies_fft` (ns2d/strat/output/__init__.py 85-96). -/
def energyA2 (N : ℝ) (b : Fld (Fin 2)) (k : Fin 2 → ℤ) : ℝ :=
  if N = 0 then 0 else (‖b k‖ / N) ^ 2 / 2

structure MeansStrat where
  Z : ℝ
  E : ℝ
  EK : ℝ
  EA : ℝ
  epsA : Diss
  epsK : Diss
  epsZ : Diss
  Eshear : ℝ
  PK : Inj
  PA : Inj
  PZ : Inj

/-- `E_shear` is the sum of the elements of `energy_fft` for which `abs(KX) == 0`; the array has both
signs of `ky` for `kx = 0`. Line 104 writes `PA1` for `PA2`. -/
def stratMeans (S : Finset (Fin 2 → ℤ)) (δ : Fin 2 → ℝ) (N : ℝ) (fd fdHypo : (Fin 2 → ℤ) → ℝ)
    (deltat : ℝ) (rot b Frot Fb : Fld (Fin 2)) : MeansStrat :=
  let PZ1 := ∑ k ∈ S, innerProd (rot k) (Frot k)
  let PZ2 := deltat / 2 * ∑ k ∈ S, ‖Frot k‖ ^ 2
  let PK1 := ∑ k ∈ S, ((starRingEnd ℂ) (ux2 δ rot k) * ux2 δ Frot k
    + (starRingEnd ℂ) (uy2 δ rot k) * uy2 δ Frot k).re
  let PK2 := deltat / 2 * ∑ k ∈ S, (‖ux2 δ Frot k‖ ^ 2 + ‖uy2 δ Frot k‖ ^ 2)
  let PA1 := (∑ k ∈ S, innerProd (b k) (Fb k)) / N ^ 2
  let PA2 := deltat / 2 / N ^ 2 * ∑ k ∈ S, ‖Fb k‖ ^ 2
  { Z := ∑ k ∈ S, enstrophy2 rot k
    E := ∑ k ∈ S, (energy2 δ rot k + energyA2 N b k)
    EK := ∑ k ∈ S, energy2 δ rot k
    EA := ∑ k ∈ S, energyA2 N b k
    epsA := diss S fd fdHypo (energyA2 N b)
    epsK := diss S fd fdHypo (energy2 δ rot)
    epsZ := diss S fd fdHypo (enstrophy2 rot)
    Eshear := ∑ k ∈ S with |δ 0 * (k 0 : ℝ)| = 0, (energy2 δ rot k + energyA2 N b k)
    PK := ⟨PK1, PK2, PK1 + PK2⟩
    PA := ⟨PA1, PA1, PA1 + PA2⟩
    PZ := ⟨PZ1, PZ2, PZ1 + PZ2⟩ }

/-! ### ns3d (fluidsim/solvers/ns3d/output/spatial_means.py 23-94) -/

/-- `compute_energy_from_1field` (fluidsim/operators/operators3d.py). -/
def energy1 (a : ℂ) : ℝ := 1 / 2 * ‖a‖ ^ 2

structure Means3d where
  E : ℝ
  Ex : ℝ
  Ey : ℝ
  Ez : ℝ
  epsK : Diss
  epsK4 : Option ℝ
  epsK8 : Option ℝ
  PK : Inj

/-- `self.sum_wavenumbers(nu_4 * oper.K4 * 2 * energy_fft)`, only if `nu_4 > 0`; and the same for
`nu_8`. `K` is `oper.K4` or `oper.K8`. -/
def hyper (S : Finset (Fin 3 → ℤ)) (nu : ℝ) (K e : (Fin 3 → ℤ) → ℝ) : Option ℝ :=
  open Classical in if nu > 0 then some (∑ k ∈ S, nu * K k * 2 * e k) else none

/-- `oper.K2`. -/
def K2 (δ : Fin 3 → ℝ) (k : Fin 3 → ℤ) : ℝ := (δ 0 * k 0) ^ 2 + (δ 1 * k 1) ^ 2 + (δ 2 * k 2) ^ 2

/-- `_save_one_time` (ns3d/output/spatial_means.py 23-94), `compute_energies_fft`
(fluidsim/solvers/ns3d/output/__init__.py 101-109). -/
def ns3dMeans (S : Finset (Fin 3 → ℤ)) (δ : Fin 3 → ℝ) (nu4 nu8 : ℝ)
    (fd fdHypo : (Fin 3 → ℤ) → ℝ) (deltat : ℝ) (v F : (Fin 3 → ℤ) → V3) : Means3d :=
  let e := fun k => energy1 (v k).x + energy1 (v k).y + energy1 (v k).z
  let Ex := ∑ k ∈ S, energy1 (v k).x
  let Ey := ∑ k ∈ S, energy1 (v k).y
  let Ez := ∑ k ∈ S, energy1 (v k).z
  let PK1 := ∑ k ∈ S, ((starRingEnd ℂ) (v k).x * (F k).x + (starRingEnd ℂ) (v k).y * (F k).y
    + (starRingEnd ℂ) (v k).z * (F k).z).re
  let PK2 := ∑ k ∈ S, (‖(F k).x‖ ^ 2 + ‖(F k).y‖ ^ 2 + ‖(F k).z‖ ^ 2) * deltat / 2
  { E := Ex + Ey + Ez
    Ex := Ex
    Ey := Ey
    Ez := Ez
    epsK := diss S fd fdHypo e
    epsK4 := hyper S nu4 (fun k => K2 δ k ^ 2) e
    epsK8 := hyper S nu8 (fun k => (K2 δ k ^ 2) ^ 2) e
    PK := ⟨PK1, PK2, PK1 + PK2⟩ }

/-! ### ns3d.strat (fluidsim/solvers/ns3d/strat/output/spatial_means.py 23-126) -/

structure Means3dStrat where
  E : ℝ
  EA : ℝ
  EKz : ℝ
  EKhr : ℝ
  EKhd : ℝ
  EKhs : ℝ
  EAs : ℝ
  epsK : ℝ
  epsKhypo : ℝ
  epsA : ℝ
  epsAhypo : ℝ
  epsTot : ℝ
  PK : Inj
  PA : Inj

/-- `_save_one_time` (ns3d/strat/output/spatial_means.py 23-126); the lines of `nu_4` and `nu_8`, the
same as in ns3d, are left out. -/
def ns3dStratMeans (S : Finset (Fin 3 → ℤ)) (δ : Fin 3 → ℝ) (N : ℝ) (fd fdHypo : (Fin 3 → ℤ) → ℝ)
    (deltat : ℝ) (v F : (Fin 3 → ℤ) → V3) (b Fb : Fld (Fin 3)) : Means3dStrat :=
  -- compute_energies_fft (fluidsim/solvers/ns3d/strat/output/__init__.py 55-72)
  let nrjA := fun k => 1 / N ^ 2 / 2 * ‖b k‖ ^ 2
  let nrjKz := fun k => energy1 (v k).z
  let r := fun k => urud (wave3 δ k) (v k).x (v k).y
  let nrjKhr := fun k => 1 / 2 * (‖(r k).1.1‖ ^ 2 + ‖(r k).1.2‖ ^ 2)
  let nrjKhd := fun k => 1 / 2 * (‖(r k).2.1‖ ^ 2 + ‖(r k).2.2‖ ^ 2)
  -- _save_one_time
  let eK := fun k => nrjKz k + nrjKhr k + nrjKhd k
  let cond := fun k : Fin 3 → ℤ =>
    open Classical in if (δ 0 * (k 0 : ℝ)) ^ 2 + (δ 1 * (k 1 : ℝ)) ^ 2 = 0 then (1 : ℝ) else 0
  let EA := ∑ k ∈ S, nrjA k
  let EAs := ∑ k ∈ S, nrjA k * cond k
  let EKz := ∑ k ∈ S, nrjKz k
  let EKhs := ∑ k ∈ S, nrjKhr k * cond k
  let EKhr := ∑ k ∈ S, nrjKhr k - EKhs
  let EKhd := ∑ k ∈ S, nrjKhd k
  let dK := diss S fd fdHypo eK
  let dA := diss S fd fdHypo nrjA
  let PK1 := ∑ k ∈ S, ((starRingEnd ℂ) (v k).x * (F k).x + (starRingEnd ℂ) (v k).y * (F k).y
    + (starRingEnd ℂ) (v k).z * (F k).z).re
  let PK2 := (∑ k ∈ S, (‖(F k).x‖ ^ 2 + ‖(F k).y‖ ^ 2 + ‖(F k).z‖ ^ 2)) * deltat / 2
  let PA1 := (∑ k ∈ S, innerProd (b k) (Fb k)) * (1 / N ^ 2)
  let PA2 := (∑ k ∈ S, ‖Fb k‖ ^ 2) * deltat / 2 * (1 / N ^ 2)
  { E := EA + EKz + EKhr + EKhd + EKhs
    EA := EA
    EKz := EKz
    EKhr := EKhr
    EKhd := EKhd
    EKhs := EKhs
    EAs := EAs
    epsK := dK.eps
    epsKhypo := dK.hypo
    epsA := dA.eps
    epsAhypo := dA.hypo
    epsTot := dK.eps + dK.hypo + dA.eps + dA.hypo
    PK := ⟨PK1, PK2, PK1 + PK2⟩
    PA := ⟨PA1, PA2, PA1 + PA2⟩ }

/-! ### plate2d (fluidsim/solvers/plate2d/output/spatial_means.py 57-117) -/

structure MeansPlate where
  E : ℝ
  Ek : ℝ
  El : ℝ
  Ee : ℝ
  epsK : Diss
  convKL : ℝ
  convLE : ℝ
  P : Inj

/-- `output.compute_energies_conversion_fft` (fluidsim/solvers/plate2d/output/__init__.py 84-109) and
the sums. `G` is the set of all the modes of the arrays (`chi_fft` is not truncated). The frequencies
are those of `w` (`f_d[0]`). -/
def plateMeans (n : Fin 2 → ℕ) (δ : Fin 2 → ℝ) (S G : Finset (Fin 2 → ℤ))
    (fd fdHypo : (Fin 2 → ℤ) → ℝ) (deltat : ℝ) (w z Fw : Fld (Fin 2)) : MeansPlate :=
  let K4 := fun k : Fin 2 → ℤ => ((δ 0 * (k 0 : ℝ)) ^ 2 + (δ 1 * (k 1 : ℝ)) ^ 2) ^ 2
  let chi := chiFft n δ S z
  let ek := fun k => 0.5 * ‖w k‖ ^ 2
  let Ek := ∑ k ∈ S, ek k
  let El := ∑ k ∈ S, |0.5 * K4 k * ‖z k‖ ^ 2|
  let Ee := ∑ k ∈ G, ‖(0.25 : ℂ) * ((K4 k : ℂ) * ((‖chi k‖ ^ 2 : ℝ) : ℂ))‖
  let P1 := ∑ k ∈ S, innerProd (w k) (Fw k)
  let P2 := ∑ k ∈ S, ‖Fw k‖ ^ 2 * deltat / 2
  { E := Ek + El + Ee
    Ek := Ek
    El := El
    Ee := Ee
    epsK := diss S fd fdHypo ek
    convKL := ∑ k ∈ S, ((K4 k : ℂ) * w k * (starRingEnd ℂ) (z k)).re
    convLE := ∑ k ∈ G, -(fftCoef n (mongeAmpere n δ S S w z) k * (starRingEnd ℂ) (chi k)).re
    P := ⟨P1, P2, P1 + P2⟩ }

/-! ### sw1l (fluidsim/solvers/sw1l/output/spatial_means.py) -/

/-- The state and the forcing in primitive variables. -/
structure Sw where
  ux : Fld (Fin 2)
  uy : Fld (Fin 2)
  eta : Fld (Fin 2)

structure MeansSw where
  E : ℝ
  EK : ℝ
  EA : ℝ
  EKr : ℝ
  epsK : Diss
  epsA : Diss
  PK : Inj
  PA : Inj

/-- `oper.rotfft_from_vecfft` then `oper.vecfft_from_rotfft` (fluidfft). -/
def rotational (δ : Fin 2 → ℝ) (ax ay : Fld (Fin 2)) (k : Fin 2 → ℤ) : ℂ × ℂ :=
  vecFromRot (δ 0 * k 0) (δ 1 * k 1) (rotFromVec (δ 0 * k 0) (δ 1 * k 1) (ax k) (ay k))

/-- The modified solver: `SpatialMeansMSW1L` (29-47, 178-186, 227-250) with the energies of
fluidsim/solvers/sw1l/modified/output.py 24-34. -/
def mswMeans (S : Finset (Fin 2 → ℤ)) (δ : Fin 2 → ℝ) (c2 : ℝ) (fd fdHypo : (Fin 2 → ℤ) → ℝ)
    (deltat : ℝ) (s F : Sw) : MeansSw :=
  let eA := fun k => c2 * ‖s.eta k‖ ^ 2 / 2
  let eK := fun k => ‖s.ux k‖ ^ 2 / 2 + ‖s.uy k‖ ^ 2 / 2
  let r := rotational δ s.ux s.uy
  let EK := ∑ k ∈ S, eK k
  let EA := ∑ k ∈ S, eA k
  let PK1 := ∑ k ∈ S, (innerProd (s.ux k) (F.ux k) + innerProd (s.uy k) (F.uy k))
  let PK2 := ∑ k ∈ S, deltat / 2 * (‖F.ux k‖ ^ 2 + ‖F.uy k‖ ^ 2)
  let PA1 := ∑ k ∈ S, c2 * innerProd (s.eta k) (F.eta k)
  let PA2 := ∑ k ∈ S, deltat / 2 * c2 * ‖F.eta k‖ ^ 2
  { E := EK + EA
    EK := EK
    EA := EA
    EKr := ∑ k ∈ S, (‖(r k).1‖ ^ 2 / 2 + ‖(r k).2‖ ^ 2 / 2)
    epsK := diss S fd fdHypo eK
    epsA := diss S fd fdHypo eA
    PK := ⟨PK1, PK2, PK1 + PK2⟩
    PA := ⟨PA1, PA2, PA1 + PA2⟩ }

/-- `get_var("Jx_fft")`: the transform of `(1 + eta) * a` (fluidsim/solvers/sw1l/state.py 50-65). -/
def fluxFft (n : Fin 2 → ℕ) (S : Finset (Fin 2 → ℤ)) (eta a : Fld (Fin 2)) : Fld (Fin 2) :=
  fftCoef n fun j => (1 + gridVal n S eta j) * gridVal n S a j

/-- `EKquad_fft` (446-447). -/
def quadFft (n : Fin 2 → ℕ) (S : Finset (Fin 2 → ℤ)) (s : Sw) : Fld (Fin 2) :=
  fftCoef n fun j => 0.5 * (gridVal n S s.ux j ^ 2 + gridVal n S s.uy j ^ 2)

/-- `FJx_fft` (496): the transform of `h * F + Feta * u`. -/
def forceFluxFft (n : Fin 2 → ℕ) (S : Finset (Fin 2 → ℤ)) (eta a Feta Fa : Fld (Fin 2)) :
    Fld (Fin 2) :=
  fftCoef n fun j => (gridVal n S eta j + 1) * gridVal n S Fa j + gridVal n S Feta j * gridVal n S a j

/-- `FetaFx_fft` (490). -/
def prodFft (n : Fin 2 → ℕ) (S : Finset (Fin 2 → ℤ)) (a b : Fld (Fin 2)) : Fld (Fin 2) :=
  fftCoef n fun j => gridVal n S a j * gridVal n S b j

/-- sw1l: `SpatialMeansSW1L` (417-530) with the energies of fluidsim/solvers/sw1l/output/base.py
225-252. -/
def swMeans (n : Fin 2 → ℕ) (S : Finset (Fin 2 → ℤ)) (δ : Fin 2 → ℝ) (c2 : ℝ)
    (fd fdHypo : (Fin 2 → ℤ) → ℝ) (deltat : ℝ) (s F : Sw) : MeansSw :=
  let Jx := fluxFft n S s.eta s.ux
  let Jy := fluxFft n S s.eta s.uy
  let eA := fun k => c2 * ‖s.eta k‖ ^ 2 / 2
  let eK := fun k => ((starRingEnd ℂ) (Jx k) * s.ux k + (starRingEnd ℂ) (Jy k) * s.uy k).re / 2
  let r := rotational δ s.ux s.uy
  let rJ := rotational δ Jx Jy
  let eKr := fun k => ((starRingEnd ℂ) (rJ k).1 * (r k).1 + (starRingEnd ℂ) (rJ k).2 * (r k).2).re / 2
  let EK := ∑ k ∈ S, eK k
  let EA := ∑ k ∈ S, eA k
  -- compute_dissipation_rates and compute_epsK
  let d := diss S fd fdHypo eK
  let q := quadFft n S s
  let epsK := d.eps + ∑ k ∈ S, fd k * innerProd (q k) (s.eta k)
  let epsKhypo := d.hypo + ∑ k ∈ S, fdHypo k * innerProd (q k) (s.eta k)
  -- treat_forcing
  let PA1 := ∑ k ∈ S, c2 * innerProd (s.eta k) (F.eta k)
  let PA2 := ∑ k ∈ S, deltat / 2 * c2 * ‖F.eta k‖ ^ 2
  let FJx := forceFluxFft n S s.eta s.ux F.eta F.ux
  let FJy := forceFluxFft n S s.eta s.uy F.eta F.uy
  let PK1 := ∑ k ∈ S, 0.5 * (innerProd (Jx k) (F.ux k) + innerProd (Jy k) (F.uy k)
    + innerProd (s.ux k) (FJx k) + innerProd (s.uy k) (FJy k))
  let PK2 := ∑ k ∈ S, deltat / 2 * (0.5 * (innerProd (F.ux k) (FJx k) + innerProd (F.uy k) (FJy k))
    + innerProd (s.ux k) (prodFft n S F.eta F.ux k) + innerProd (s.uy k) (prodFft n S F.eta F.uy k))
  { E := EK + EA
    EK := EK
    EA := EA
    EKr := ∑ k ∈ S, eKr k
    epsK := ⟨epsK, epsKhypo, epsK + epsKhypo⟩
    epsA := diss S fd fdHypo eA
    PK := ⟨PK1, PK2, PK1 + PK2⟩
    PA := ⟨PA1, PA2, PA1 + PA2⟩ }

/-- `Conv`, `c2eta1d`, `c2eta2d` of `treat_conversion` (130-141): `eta` and `div` are the values on
the grid, `oper.mean_global` the mean over the grid. -/
def conversion {J : Type*} [Fintype J] (c2 : ℝ) (eta div : J → ℝ) : ℝ × ℝ × ℝ :=
  let mean := fun f : J → ℝ => (∑ j, f j) / Fintype.card J
  (c2 / 2 * mean (fun j => (eta j + 1) ^ 2 * div j), c2 * mean (fun j => eta j * div j),
    c2 * mean (fun j => eta j ^ 2 * div j))

/-- `skew_eta`, `kurt_eta` (66-74) on the process which has the points `P` of the grid (`np.mean` is
not a global mean); `EA` is the result of `sum_wavenumbers`, the same on all processes. -/
def skewKurt {J : Type*} [Fintype J] (P : Finset J) (c2 EA : ℝ) (eta : J → ℝ) : ℝ × ℝ :=
  let m2 := 2 / c2 * EA
  let mean := fun f : J → ℝ => (∑ j ∈ P, f j) / P.card
  open Classical in
  if m2 = 0 then (0, 0)
  else (mean (fun j => eta j ^ 3) / m2 ^ (3 / 2 : ℝ), mean (fun j => eta j ^ 4) / m2 ^ 2)

end

end Verif.SpatialMeans
