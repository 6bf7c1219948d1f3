import Verif.Regions.Props

set_option linter.unusedSectionVars false

/-! # C81: the region equal to the whole domain, and the rotation -/

namespace Verif.Regions

open Verif.Fourier Verif.Energy Verif.Vectors Verif.Galerkin Verif.SpatialMeans Verif.SpectBudget Verif.Reduce Finset

noncomputable section

/-- The points of the grid for each index of the x axis. -/
def planes (n : Fin 3 → ℕ) (cell : Pt n → Cell ℝ) : List (List (Cell ℝ)) :=
  List.ofFn fun i : Fin (n 0) => ((univ.filter fun j : Pt n => j 0 = i).toList).map cell

theorem points_all {β : Type} (l : List (List β)) (h : 0 < l.length) : points l 0 (l.length - 1) = l.flatten := by
  rw [points, Nat.sub_add_cancel h, Nat.sub_zero]
  congr 1
  refine List.ext_getElem (by simp) fun i h1 h2 => ?_
  simp [List.getD_eq_getElem?_getD, h2]

theorem sum_planes (n : Fin 3 → ℕ) (cell : Pt n → Cell ℝ) (g : Cell ℝ → ℝ) :
    (((planes n cell).flatten).map g).sum = ∑ j, g (cell j) := by
  rw [List.map_flatten, List.sum_flatten, planes, List.map_map, List.map_ofFn, List.sum_ofFn]
  have : ∀ i : Fin (n 0), ((List.sum ∘ List.map g) ∘ fun i : Fin (n 0) =>
      ((univ.filter fun j : Pt n => j 0 = i).toList).map cell) i = ∑ j ∈ univ.filter (fun j : Pt n => j 0 = i), g (cell j) := by
    intro i
    simp only [Function.comp, List.map_map]
    exact Finset.sum_map_toList _ fun j => g (cell j)
  rw [sum_congr rfl fun i _ => this i]
  exact sum_fiberwise univ (fun j : Pt n => j 0) fun j => g (cell j)

theorem length_planes (n : Fin 3 → ℕ) (cell : Pt n → Cell ℝ) :
    (((planes n cell).flatten).length : ℝ) = ∏ d, (n d : ℝ) := by
  have h := sum_planes n cell fun _ => 1
  rw [List.map_const', List.sum_replicate, sum_const, card_univ] at h
  simp only [nsmul_eq_mul, mul_one, Fintype.card_pi, Fintype.card_fin] at h
  rw [h]; push_cast; rfl

theorem avg_planes {n : Fin 3 → ℕ} (hn : ∀ d, 0 < n d) (cell : Pt n → Cell ℝ) (g : Cell ℝ → ℝ) :
    avgRegion (planes n cell) (0, n 0 - 1) g = gridMean n fun j => g (cell j) := by
  have hl : (planes n cell).length = n 0 := by simp [planes]
  have := points_all (planes n cell) (by rw [hl]; exact hn 0)
  rw [hl] at this
  rw [avgRegion, this, avg, sum_planes, length_planes, gridMean]

theorem inner_mean {n : Fin 3 → ℕ} (hn : ∀ d, 0 < n d) {S : Finset (Fin 3 → ℤ)} (hD : Distinct n S)
    {a : Fld (Fin 3)} (h : RealOn S a) (u : Fld (Fin 3)) :
    gridMean n (fun j => phys n S a j * phys n S u j) = ∑ k ∈ S, innerProd (a k) (u k) := by
  rw [← sum_inner_fft' n S (fun j => grid_ofReal h j) u]
  exact sum_congr rfl fun k hk => by rw [fft_grid hn hD a hk]

/-- C81: if the region is the whole domain, the columns are those of the file of the spatial means of ns3d.strat
(C59): same energies, same dissipation (without hypo-viscosity), same power (the force is horizontal). -/
theorem C81_whole_domain {n : Fin 3 → ℕ} (hn : ∀ d, 0 < n d) {S : Finset (Fin 3 → ℤ)} (hD : Distinct n S)
    {δ : Fin 3 → ℝ} (hδ : ∀ d, δ d ≠ 0) {N : ℝ} (hN : N ≠ 0) (fd fdHypo : (Fin 3 → ℤ) → ℝ) (dt : ℝ)
    {v F : (Fin 3 → ℤ) → V3} {b : Fld (Fin 3)} (Fb : Fld (Fin 3)) (hv : RealVecOn S v) (hF : RealVecOn S F)
    (hb : RealOn S b) (hz : ∀ k ∈ S, (F k).z = 0) (pNl pDzB pForcing : Pt n → ℝ) :
    let cell : Pt n → Cell ℝ := fun j =>
      { vx := phys n S (fun k => (v k).x) j, vy := phys n S (fun k => (v k).y) j,
        vz := phys n S (fun k => (v k).z) j, b := phys n S b j,
        dvx := phys n S (fun k => fd k * (v k).x) j, dvy := phys n S (fun k => fd k * (v k).y) j,
        dvz := phys n S (fun k => fd k * (v k).z) j, db := phys n S (fun k => fd k * b k) j,
        fx := phys n S (fun k => (F k).x) j, fy := phys n S (fun k => (F k).y) j,
        pNl := pNl j, pDzB := pDzB j, pForcing := pForcing j }
    let m := avgRegion (planes n cell) (0, n 0 - 1)
    let M := ns3dStratMeans S δ N fd fdHypo dt v F b Fb
    m (fun p => (p.vx ^ 2 + p.vy ^ 2 + p.vz ^ 2) / 2) = M.EKz + M.EKhr + M.EKhd + M.EKhs ∧
    m (fun p => p.vz ^ 2 / 2) = M.EKz ∧
    m (fun p => p.b ^ 2 / (2 * N ^ 2)) = M.EA ∧
    m (fun p => p.vx * p.dvx + p.vy * p.dvy + p.vz * p.dvz) = M.epsK ∧
    m (fun p => p.b * p.db / N ^ 2) = M.epsA ∧
    m (fun p => p.vx * p.fx + p.vy * p.fy + dt / 2 * (p.fx ^ 2 + p.fy ^ 2)) = M.PK.tot := by
  intro cell m M
  have hm : ∀ g, m g = gridMean n fun j => g (cell j) := fun g => avg_planes hn cell g
  obtain ⟨hE, hEA, hEz, -⟩ := C59_ns3dstrat_energies (S := S) hδ N fd fdHypo dt v F b Fb
  have sx := sumSq_mean hn hD hv.1
  have sy := sumSq_mean hn hD hv.2.1
  have sz := sumSq_mean hn hD hv.2.2
  have sb := sumSq_mean hn hD hb
  have hin : ∀ (a : Fld (Fin 3)) k, innerProd (a k) (fd k * a k) = fd k * ‖a k‖ ^ 2 := by
    intro a k
    rw [← innerProd_self]
    simp only [innerProd, Complex.mul_re, Complex.mul_im, Complex.ofReal_re, Complex.ofReal_im, Complex.conj_re,
      Complex.conj_im]
    ring
  have gE : m (fun p => (p.vx ^ 2 + p.vy ^ 2 + p.vz ^ 2) / 2)
      = (∑ k ∈ S, (‖(v k).x‖ ^ 2 + ‖(v k).y‖ ^ 2 + ‖(v k).z‖ ^ 2)) / 2 := by
    rw [hm, gridMean_div, gridMean_add, gridMean_add, ← sx, ← sy, ← sz, ← sum_add_distrib, ← sum_add_distrib]
  have gA : m (fun p => p.b ^ 2 / (2 * N ^ 2)) = (∑ k ∈ S, ‖b k‖ ^ 2 / 2) / N ^ 2 := by
    rw [hm, gridMean_div, ← sb, ← sum_div]; field_simp
  refine ⟨?_, ?_, ?_, ?_, ?_, ?_⟩
  · have e1 : M.E = M.EA + M.EKz + M.EKhr + M.EKhd + M.EKhs := rfl
    have e2 : M.E = m (fun p => (p.vx ^ 2 + p.vy ^ 2 + p.vz ^ 2) / 2) + M.EA := by
      rw [gE, hE, hEA, sum_add_distrib, ← sum_div, ← sum_div]
    linarith
  · rw [hm, gridMean_div, ← sz, hEz, sum_div]
  · rw [gA, hEA]
  · rw [hm, gridMean_add, gridMean_add, inner_mean hn hD hv.1, inner_mean hn hD hv.2.1, inner_mean hn hD hv.2.2,
      ← sum_add_distrib, ← sum_add_distrib]
    simp only [M, ns3dStratMeans, diss]
    refine sum_congr rfl fun k _ => ?_
    rw [hin fun k => (v k).x, hin fun k => (v k).y, hin fun k => (v k).z]
    have := mode_sq (δ := δ) k (v k).x (v k).y
    simp only [energy1]
    linear_combination (-fd k) * this
  · rw [hm, gridMean_div, inner_mean hn hD hb, sum_div]
    simp only [M, ns3dStratMeans, diss]
    refine sum_congr rfl fun k _ => ?_
    rw [hin]
    field_simp
  · rw [hm, gridMean_add, gridMean_add, gridMean_mul, gridMean_add, inner_mean hn hD hv.1, inner_mean hn hD hv.2.1,
      ← sumSq_mean hn hD hF.1, ← sumSq_mean hn hD hF.2.1, ← sum_add_distrib, ← sum_add_distrib]
    simp only [M, ns3dStratMeans]
    have e1 : ∀ k ∈ S, innerProd (v k).x (F k).x + innerProd (v k).y (F k).y
        = ((starRingEnd ℂ) (v k).x * (F k).x + (starRingEnd ℂ) (v k).y * (F k).y
          + (starRingEnd ℂ) (v k).z * (F k).z).re := by
      intro k hk
      rw [hz k hk, mul_zero, add_zero, Complex.add_re]; rfl
    have e2 : ∀ k ∈ S, ‖(F k).x‖ ^ 2 + ‖(F k).y‖ ^ 2 = ‖(F k).x‖ ^ 2 + ‖(F k).y‖ ^ 2 + ‖(F k).z‖ ^ 2 := by
      intro k hk
      rw [hz k hk]; simp
    rw [sum_congr rfl e1, sum_congr rfl e2]
    ring

/-- The modes `±ex`. -/
def pair : Finset (Fin 3 → ℤ) := {![1, 0, 0], ![-1, 0, 0]}

theorem pair_noAlias : NoAlias (fun _ => 4) pair := noAlias_of_small _ _ (by decide)

theorem pair_product (a b : Fld (Fin 3)) : exactProduct pair a b ![1, 0, 0] = 0 := by
  have h : ∀ p ∈ pair, ∀ q ∈ pair, p + q ≠ ![1, 0, 0] := by decide
  exact sum_eq_zero fun p hp => sum_eq_zero fun q hq => if_neg (h p hp q hq)

/-- A flow meeting the hypotheses of `C81_whole_domain` and `C81_pressure_partial`: `v = 2 cos x ey`, with a force
`2 cos x ex` which has a divergence: the pressure of the force is not zero. -/
example : NoAlias (fun _ => 4) pair ∧ RealVecOn pair (fun _ => ⟨0, 1, 0⟩) ∧ RealVecOn pair (fun _ => ⟨1, 0, 0⟩) ∧
    pForcingFft (fun _ => 1) 1 (fun _ => ⟨1, 0, 0⟩) ![1, 0, 0] = -Complex.I := by
  have h : ∀ k ∈ pair, -k ∈ pair := by decide
  refine ⟨pair_noAlias, ⟨fun k hk => ⟨h k hk, by simp⟩, fun k hk => ⟨h k hk, by simp⟩, fun k hk => ⟨h k hk, by simp⟩⟩,
    ⟨fun k hk => ⟨h k hk, by simp⟩, fun k hk => ⟨h k hk, by simp⟩, fun k hk => ⟨h k hk, by simp⟩⟩, ?_⟩
  simp [pForcingFft, k2not0, k2, kh2, wave3]

/-- C81, finding: with rotation (`params.f`), the pressure of the Coriolis force is missing in the sum of the parts:
for the flow `2 cos x ey` in a frame rotating at `f = 1`, the tendency is not `v × (ω + f ez) - ∇P`. -/
theorem C81_rotation_violated :
    ∃ (n : Fin 3 → ℕ) (S : Finset (Fin 3 → ℤ)) (δ : Fin 3 → ℝ) (v : (Fin 3 → ℤ) → V3) (k : Fin 3 → ℤ),
      NoAlias n S ∧ RealVecOn S v ∧ k ∈ S ∧ ∀ e0,
      let P := pNlFft n S δ e0 v k + pForcingFft δ e0 (fun _ => ⟨0, 0, 0⟩) k + pDzBFft δ e0 (fun _ => 0) k
      P = 0 ∧ (lamb n S δ (some 1) v k).x = 1 ∧
      velocityTendency n S δ (some 1) v (fun _ => ⟨0, 0, 0⟩) (fun _ => 0) k
        ≠ add (lamb n S δ (some 1) v k) (minusGrad (wave3 δ k) P) := by
  have hS : ∀ k ∈ pair, -k ∈ pair := by decide
  refine ⟨fun _ => 4, pair, fun _ => 1, fun _ => ⟨0, 1, 0⟩, ![1, 0, 0], pair_noAlias,
    ⟨fun k hk => ⟨hS k hk, by simp⟩, fun k hk => ⟨hS k hk, by simp⟩, fun k hk => ⟨hS k hk, by simp⟩⟩, by decide,
    fun e0 => ?_⟩
  intro P
  have hl : ∀ f : Option ℝ, lamb (fun _ => 4) pair (fun _ => 1) f (fun _ => ⟨0, 1, 0⟩) ![1, 0, 0]
      = ⟨((f.getD 0 : ℝ) : ℂ), 0, 0⟩ := by
    intro f
    rw [lamb_eq_half (by simp) pair_noAlias (fun _ => 1) f (fun _ => ⟨0, 1, 0⟩) (by decide : ![1, 0, 0] ∈ pair)]
    simp [pair_product, navierStokes, advect, add]
  have hP : P = 0 := by
    simp only [P, pNlFft, pForcingFft, pDzBFft, hl]
    simp
  refine ⟨hP, by rw [hl]; simp, fun h => ?_⟩
  have h1 := C28_orthogonal (wave3 (fun _ => 1) ![1, 0, 0])
    (⟨(lamb (fun _ => 4) pair (fun _ => 1) (some 1) (fun _ => ⟨0, 1, 0⟩) ![1, 0, 0]).x + 0,
      (lamb (fun _ => 4) pair (fun _ => 1) (some 1) (fun _ => ⟨0, 1, 0⟩) ![1, 0, 0]).y + 0,
      (lamb (fun _ => 4) pair (fun _ => 1) (some 1) (fun _ => ⟨0, 1, 0⟩) ![1, 0, 0]).z + 0 + 0⟩)
  have h2 : kdot (wave3 (fun _ => 1) ![1, 0, 0]) (velocityTendency (fun _ => 4) pair (fun _ => 1) (some 1)
      (fun _ => ⟨0, 1, 0⟩) (fun _ => ⟨0, 0, 0⟩) (fun _ => 0) ![1, 0, 0]) = 0 := h1
  rw [h, hl, hP] at h2
  simp [kdot, wave3, add, minusGrad] at h2

end

end Verif.Regions
