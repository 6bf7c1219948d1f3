import Verif.DimNumbers.Model
import Verif.SpatialMeans.Props
import Verif.SpatialMeans.Props3dStrat

/-! # C88: the dimensionless numbers of ns3d and ns3d.strat -/

namespace Verif.DimNumbers

open Verif.SpatialMeans Verif.Fourier Verif.Energy Verif.Vectors Verif.SpectBudget Verif.Galerkin Finset

set_option linter.unusedSectionVars false

noncomputable section
open Classical

/-! ### Specification -/

/-- What `load` gives for a record of ns3d (C60). -/
def loaded (M : Means3d) : Data := fun s =>
  if s = "E" then some M.E else if s = "Ex" then some M.Ex else if s = "Ey" then some M.Ey
  else if s = "Ez" then some M.Ez else if s = "epsK" then some M.epsK.eps
  else if s = "epsK_hypo" then some M.epsK.hypo else if s = "epsK_tot" then some M.epsK.tot
  else if s = "epsK4" then M.epsK4 else if s = "epsK8" then M.epsK8 else none

/-- What `load` gives for a record of ns3d.strat (C60) with the columns of the hyperviscosities. -/
def loadedStrat (M : Means3dStrat) (epsK4 epsK8 : Option ℝ) : Data := fun s =>
  if s = "E" then some M.E else if s = "EA" then some M.EA else if s = "EKz" then some M.EKz
  else if s = "EKhr" then some M.EKhr else if s = "EKhd" then some M.EKhd
  else if s = "EKhs" then some M.EKhs else if s = "epsK" then some M.epsK
  else if s = "epsA" then some M.epsA else if s = "epsK4" then epsK4
  else if s = "epsK8" then epsK8 else none

/-- The sum of the squares of the components of the velocity of a mode. -/
def sq (v : (Fin 3 → ℤ) → V3) (k : Fin 3 → ℤ) : ℝ :=
  ‖(v k).x‖ ^ 2 + ‖(v k).y‖ ^ 2 + ‖(v k).z‖ ^ 2

/-- The Kolmogorov length: the positive number with `eta⁴ epsK = nu³`. -/
def IsKolmogorov (nu epsK eta : ℝ) : Prop := 0 < eta ∧ eta ^ 4 * epsK = nu ^ 3

/-! ### The numbers of one record -/

theorem etaOf_spec {p : Pars} {epsK : ℝ} (hnu : 0 < p.nu2) (he : 0 < epsK) :
    ∃ eta, etaOf p epsK = some eta ∧ IsKolmogorov p.nu2 epsK eta := by
  have hp : 0 < p.nu2 ^ 3 / epsK := by positivity
  refine ⟨(p.nu2 ^ 3 / epsK) ^ (1 / 4 : ℝ), ?_, Real.rpow_pos_of_pos hp _, ?_⟩
  · simp only [etaOf, ratio, if_neg he.ne', Option.bind_some, root4, if_neg hp.le.not_gt]
  · rw [← Real.rpow_natCast, ← Real.rpow_mul hp.le]
    norm_num
    field_simp

/-- **C88** (ns3d) The numbers computed from the saved spatial means of a state: `EKh` (also returned
as `Uh2`) and `EKz` are the means over the grid of the kinetic energies of the horizontal and vertical
velocities; with a viscosity, `eta` is the Kolmogorov length of the total dissipation,
`k_max*eta` is its product by the largest vertical wavenumber kept and `epsK2/epsK` is the part of the
dissipation due to the viscosity, between 0 and 1; without viscosity these three are absent. -/
theorem C88_ns3d {n : Fin 3 → ℕ} (hn : ∀ d, 0 < n d) {S : Finset (Fin 3 → ℤ)}
    (hD : Distinct n S) (δ : Fin 3 → ℝ) (nu : Dissip.Nu)
    (hnu : 0 ≤ nu.nu2 ∧ 0 ≤ nu.nu4 ∧ 0 ≤ nu.nu8) (fdHypo : (Fin 3 → ℤ) → ℝ) (dt : ℝ)
    (v F : (Fin 3 → ℤ) → V3) (hv : RealVecOn S v) (N Lz coef : ℝ) (nz : ℕ)
    (heps : 0 < ∑ k ∈ S, Dissip.fd nu (K2 δ k) * sq v k) :
    let M := ns3dMeans S δ nu.nu4 nu.nu8 (fun k => Dissip.fd nu (K2 δ k)) fdHypo dt v F
    let eps := ∑ k ∈ S, Dissip.fd nu (K2 δ k) * sq v k
    ∃ r, ns3d ⟨nu.nu2, nu.nu4, nu.nu8, N, Lz, nz, coef⟩ (loaded M) = .ok r ∧
      r.EKh = gridMean n (fun j =>
        (phys n S (fun k => (v k).x) j ^ 2 + phys n S (fun k => (v k).y) j ^ 2) / 2) ∧
      r.Uh2 = r.EKh ∧
      r.EKz = gridMean n (fun j => phys n S (fun k => (v k).z) j ^ 2 / 2) ∧
      r.epsK = eps ∧
      (nu.nu2 = 0 → r.eta = none ∧ r.kMaxEta = none ∧ r.fracEpsK2 = none) ∧
      (nu.nu2 ≠ 0 →
        (∃ eta, IsKolmogorov nu.nu2 eps eta ∧ r.eta = some (some eta) ∧
          r.kMaxEta = some (some (coef * (2 * Real.pi / Lz) * (nz / 2) * eta))) ∧
        ∃ x, r.fracEpsK2 = some (some x) ∧ x * eps = nu.nu2 * ∑ k ∈ S, K2 δ k * sq v k ∧
          0 ≤ x ∧ x ≤ 1) := by
  intro M eps
  obtain ⟨m1, m2, m3, -⟩ := C59_ns3d_means hn hD δ nu.nu4 nu.nu8
    (fun k => Dissip.fd nu (K2 δ k)) fdHypo dt v F hv
  obtain ⟨h1, h2, h3, h4⟩ := C59_ns3d_hyper S δ nu hnu fdHypo dt v F
  have he : M.epsK.eps = eps := by
    simp only [M, eps, ns3dMeans, diss, energy1, sq]
    exact sum_congr rfl fun k _ => by ring
  have hep : 0 < M.epsK.eps := by rw [he]; exact heps
  set p : Pars := ⟨nu.nu2, nu.nu4, nu.nu8, N, Lz, nz, coef⟩ with hp
  -- the columns of the hyperviscosities
  have hy4 : addHyper (loaded M) nu.nu4 "epsK4" 0 = .ok (M.epsK4.getD 0) := by
    by_cases h0 : nu.nu4 = 0
    · simp [addHyper, h0, M, ns3dMeans, hyper]
    · have hpos : 0 < nu.nu4 := lt_of_le_of_ne hnu.2.1 (Ne.symm h0)
      simp [addHyper, h0, get, loaded, M, ns3dMeans, hyper, hpos]
  have hy8 : addHyper (loaded M) nu.nu8 "epsK8" (M.epsK4.getD 0)
      = .ok (M.epsK4.getD 0 + M.epsK8.getD 0) := by
    by_cases h0 : nu.nu8 = 0
    · simp [addHyper, h0, M, ns3dMeans, hyper]
    · have hpos : 0 < nu.nu8 := lt_of_le_of_ne hnu.2.2 (Ne.symm h0)
      simp [addHyper, h0, get, loaded, M, ns3dMeans, hyper, hpos]
  have hen : energies (loaded M) = .ok (M.Ex + M.Ey, M.Ez) := by
    simp [energies, get, loaded]
  have hek : get (loaded M) "epsK" = .ok M.epsK.eps := by simp [get, loaded]
  refine ⟨_, by rw [ns3d, hen]; simp only [hek, hp, hy4, hy8]; rfl, ?_, rfl, m3, he, ?_, ?_⟩
  · show M.Ex + M.Ey = _
    rw [m1, m2, ← gridMean_add]
    exact gridMean_congr n fun j => by ring
  · intro h0
    simp [h0]
  · intro h0
    have hpos : 0 < nu.nu2 := lt_of_le_of_ne hnu.1 (Ne.symm h0)
    obtain ⟨eta, e1, e2⟩ := etaOf_spec (p := p) hpos hep
    refine ⟨⟨eta, he ▸ e2, ?_, ?_⟩, ?_⟩
    · simp only [ne_eq, h0, not_false_eq_true, if_true]
      rw [← e1]
    · simp only [ne_eq, h0, not_false_eq_true, if_true]
      have : scale (kMax p) (etaOf p M.epsK.eps) = some (kMax p * eta) := by rw [e1]; rfl
      rw [show (⟨nu.nu2, nu.nu4, nu.nu8, N, Lz, nz, coef⟩ : Pars) = p from rfl, this, kMax, hp]
      congr 2
      ring
    · have hvisc : M.epsK.eps - (M.epsK4.getD 0 + M.epsK8.getD 0)
          = nu.nu2 * ∑ k ∈ S, K2 δ k * sq v k := by
        have : M.epsK.eps = nu.nu2 * ∑ k ∈ S, K2 δ k * sq v k + M.epsK4.getD 0
            + M.epsK8.getD 0 := h1
        rw [this]; ring
      simp only [ne_eq, h0, not_false_eq_true, if_true]
      by_cases hh : ¬nu.nu4 = 0 ∨ ¬nu.nu8 = 0
      · rw [if_pos hh]
        refine ⟨(M.epsK.eps - (M.epsK4.getD 0 + M.epsK8.getD 0)) / M.epsK.eps, ?_, ?_, ?_, ?_⟩
        · rw [ratio, if_neg hep.ne']
        · rw [← he, ← hvisc]
          field_simp
        · have h4' : M.epsK4.getD 0 + M.epsK8.getD 0 ≤ M.epsK.eps := h4
          have : 0 ≤ M.epsK.eps - (M.epsK4.getD 0 + M.epsK8.getD 0) := by linarith
          positivity
        · rw [div_le_one hep]
          have h2' : 0 ≤ M.epsK4.getD 0 := h2
          have h3' : 0 ≤ M.epsK8.getD 0 := h3
          linarith
      · rw [if_neg hh]
        have hh' : nu.nu4 = 0 ∧ nu.nu8 = 0 := by tauto
        have z4 : M.epsK4.getD 0 = 0 := by simp [M, ns3dMeans, hyper, hh'.1]
        have z8 : M.epsK8.getD 0 = 0 := by simp [M, ns3dMeans, hyper, hh'.2]
        refine ⟨1, rfl, ?_, zero_le_one, le_rfl⟩
        rw [one_mul, ← he, ← hvisc, z4, z8]
        ring

/-- **C88** non-vacuity of `C88_ns3d`: a velocity with two modes on a grid of 4 points per direction,
with a viscosity and a hyperviscosity. -/
example : ∃ (S : Finset (Fin 3 → ℤ)) (v : (Fin 3 → ℤ) → V3), Distinct (fun _ => 4) S ∧
    RealVecOn S v ∧
    0 < ∑ k ∈ S, Dissip.fd ⟨1, 1, 0, 0⟩ (K2 (fun _ => 1) k) * sq v k := by
  refine ⟨exS, exV, (C37_truncation _ _ (by decide)).2, exV_ok.1, ?_⟩
  refine Finset.sum_pos (fun k hk => ?_) ⟨![1, 0, 0], by simp [exS]⟩
  have h : k = ![1, 0, 0] ∨ k = ![-1, 0, 0] ∨ k = ![0, 1, 0] ∨ k = ![0, -1, 0] := by
    simpa [exS] using hk
  rcases h with rfl | rfl | rfl | rfl <;>
    norm_num [Dissip.fd, K2, sq, exV] <;> positivity

end

end Verif.DimNumbers
