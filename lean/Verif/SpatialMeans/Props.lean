import Verif.SpatialMeans.Lemmas
import Verif.Dissip.Model

/-! # C59: spatial means of ns2d, ns2d.strat, ns3d, ns3d.strat and plate2d -/

namespace Verif.SpatialMeans

open Verif.Fourier Verif.Energy Verif.Vectors Verif.SpectBudget Verif.Galerkin Finset

set_option linter.unusedSectionVars false

noncomputable section

/-! ### ns2d -/

/-- C59 (ns2d): `E` and `Z` are the means over the grid of `(ux² + uy²) / 2` and of `rot² / 2`. -/
theorem C59_ns2d_means {n : Fin 2 → ℕ} (hn : ∀ d, 0 < n d) {S : Finset (Fin 2 → ℤ)}
    (hD : Distinct n S) {δ : Fin 2 → ℝ} (hδ : ∀ d, δ d ≠ 0) (fd fdHypo : (Fin 2 → ℤ) → ℝ) (dt : ℝ)
    {rot ux uy : Fld (Fin 2)} (F : Fld (Fin 2)) (hr : RealOn S rot) (hu : Velocity2 S δ rot ux uy) :
    (ns2dMeans S δ fd fdHypo dt rot F).E
        = gridMean n (fun j => (phys n S ux j ^ 2 + phys n S uy j ^ 2) / 2) ∧
      (ns2dMeans S δ fd fdHypo dt rot F).Z = gridMean n (fun j => phys n S rot j ^ 2 / 2) := by
  have ex : ∀ k ∈ S, ux2 δ rot k = ux k := fun k hk => (velocity_unique hδ hu hk).1
  have ey : ∀ k ∈ S, uy2 δ rot k = uy k := fun k hk => (velocity_unique hδ hu hk).2
  have rx : RealOn S ux := fun k hk => by
    have := (ux2_real (δ := δ) hr) k hk
    exact ⟨this.1, by rw [← ex k hk, ← ex _ this.1, this.2]⟩
  have ry : RealOn S uy := fun k hk => by
    have := (uy2_real (δ := δ) hr) k hk
    exact ⟨this.1, by rw [← ey k hk, ← ey _ this.1, this.2]⟩
  constructor
  · rw [gridMean_div, gridMean_add, ← sumSq_mean hn hD rx, ← sumSq_mean hn hD ry, ← sum_add_distrib,
      sum_div]
    refine sum_congr rfl fun k hk => ?_
    rw [energy2, ex k hk, ey k hk]
  · rw [gridMean_div, ← sumSq_mean hn hD hr, sum_div]
    rfl

theorem energy2_kick (δ : Fin 2 → ℝ) (dt : ℝ) (rot F : Fld (Fin 2)) (k : Fin 2 → ℤ) :
    energy2 δ (kick dt rot F) k = energy2 δ rot k
      + dt * (innerProd (ux2 δ rot k) (ux2 δ F k) + innerProd (uy2 δ rot k) (uy2 δ F k)
        + dt / 2 * (‖ux2 δ F k‖ ^ 2 + ‖uy2 δ F k‖ ^ 2)) := by
  rw [energy2, ux2_kick, uy2_kick, sq_kick, sq_kick, energy2]; ring

/-- C59 (ns2d): `PK_tot` and `PZ_tot` times `deltat` are exactly the energy and the enstrophy given by
the forcing (constant during the time step, as it is in the code) to the flow. -/
theorem C59_ns2d_injection (S : Finset (Fin 2 → ℤ)) (δ : Fin 2 → ℝ) (fd fdHypo : (Fin 2 → ℤ) → ℝ)
    (dt : ℝ) (rot F : Fld (Fin 2)) :
    let M := ns2dMeans S δ fd fdHypo dt
    (M (kick dt rot F) F).E - (M rot F).E = dt * (M rot F).PK.tot ∧
      (M (kick dt rot F) F).Z - (M rot F).Z = dt * (M rot F).PZ.tot ∧
      (M rot F).PK.tot = (M rot F).PK.p1 + (M rot F).PK.p2 ∧
      (M rot F).PZ.tot = (M rot F).PZ.p1 + (M rot F).PZ.p2 := by
  refine ⟨?_, ?_, rfl, rfl⟩
  · simp only [ns2dMeans]
    rw [← sum_sub_distrib, ← sum_add_distrib, mul_sum]
    refine sum_congr rfl fun k _ => ?_
    rw [energy2_kick]
    simp only [innerProd, Complex.add_re, Complex.mul_re, Complex.conj_re, Complex.conj_im]
    ring
  · simp only [ns2dMeans]
    rw [← sum_sub_distrib, mul_add, mul_sum, mul_sum, mul_sum, ← sum_add_distrib]
    refine sum_congr rfl fun k _ => ?_
    rw [enstrophy2, enstrophy2, kick, sq_kick]; ring

theorem energy2_deriv {S : Finset (Fin 2 → ℤ)} {δ : Fin 2 → ℝ} (hδ : ∀ d, δ d ≠ 0)
    {rot : ℝ → Fld (Fin 2)} {T : Fld (Fin 2)} {fd fdHypo : (Fin 2 → ℤ) → ℝ} {t : ℝ}
    (h : Evolves S rot T (fun k => fd k + fdHypo k) t) :
    HasDerivAt (fun s => ∑ k ∈ S, energy2 δ (rot s) k)
      (rateEnergy2 S δ (rot t) T - (diss S fd fdHypo (energy2 δ (rot t))).tot) t := by
  obtain ⟨hx, hy⟩ := vel_evolves δ h
  have h2 := (sumSq_deriv hx).fun_add (sumSq_deriv hy)
  have e : (fun s => ∑ k ∈ S, energy2 δ (rot s) k)
      = fun s => ∑ k ∈ S, ‖ux2 δ (rot s) k‖ ^ 2 / 2 + ∑ k ∈ S, ‖uy2 δ (rot s) k‖ ^ 2 / 2 := by
    funext s; rw [← sum_add_distrib]; exact sum_congr rfl fun k _ => by rw [energy2]; ring
  rw [e]
  refine h2.congr_deriv ?_
  rw [← vel_work hδ, diss_tot, sum_add_distrib]
  have e2 : ∑ k ∈ S, (fd k + fdHypo k) * (2 * energy2 δ (rot t) k)
      = ∑ k ∈ S, (fd k + fdHypo k) * ‖ux2 δ (rot t) k‖ ^ 2
        + ∑ k ∈ S, (fd k + fdHypo k) * ‖uy2 δ (rot t) k‖ ^ 2 := by
    rw [← sum_add_distrib]; exact sum_congr rfl fun k _ => by rw [energy2]; ring
  rw [e2]; ring

theorem enstrophy2_deriv {S : Finset (Fin 2 → ℤ)} {rot : ℝ → Fld (Fin 2)} {T : Fld (Fin 2)}
    {fd fdHypo : (Fin 2 → ℤ) → ℝ} {t : ℝ} (h : Evolves S rot T (fun k => fd k + fdHypo k) t) :
    HasDerivAt (fun s => ∑ k ∈ S, enstrophy2 (rot s) k)
      (rate S (rot t) T - (diss S fd fdHypo (enstrophy2 (rot t))).tot) t := by
  refine (sumSq_deriv h).congr_deriv ?_
  rw [rate_inner, diss_tot]
  congr 1
  exact sum_congr rfl fun k _ => by rw [enstrophy2]; ring

theorem rateEnergy2_add (S : Finset (Fin 2 → ℤ)) (δ : Fin 2 → ℝ) (rot T F : Fld (Fin 2)) :
    rateEnergy2 S δ rot (fun k => T k + F k) = rateEnergy2 S δ rot T + rateEnergy2 S δ rot F := by
  simp only [rateEnergy2, ← sum_add_distrib]
  exact sum_congr rfl fun k _ => by rw [add_mul, Complex.add_re, add_div]

/-- C59 (ns2d): the budgets. Along the solutions of the forced and dissipated equations the rates of
change of the saved `E` and `Z` are `PK1 - epsK_tot` and `PZ1 - epsZ_tot`. -/
theorem C59_ns2d_budget {n : Fin 2 → ℕ} (hn : ∀ d, 0 < n d) {S : Finset (Fin 2 → ℤ)}
    (hS : TriadExact n S) (hD : Distinct n S) {δ : Fin 2 → ℝ} (hδ : ∀ d, δ d ≠ 0) (beta : ℝ)
    (fd fdHypo : (Fin 2 → ℤ) → ℝ) (dt : ℝ) (rot : ℝ → Fld (Fin 2)) (F : Fld (Fin 2)) (t : ℝ)
    (hreal : RealOn S (rot t))
    (hev : Evolves S rot (fun k => ns2d n S δ beta (rot t) k + F k) (fun k => fd k + fdHypo k) t) :
    let M := fun s => ns2dMeans S δ fd fdHypo dt (rot s) F
    HasDerivAt (fun s => (M s).E) ((M t).PK.p1 - (M t).epsK.tot) t ∧
      HasDerivAt (fun s => (M s).Z) ((M t).PZ.p1 - (M t).epsZ.tot) t := by
  refine ⟨(energy2_deriv hδ hev).congr_deriv ?_, (enstrophy2_deriv hev).congr_deriv ?_⟩
  · rw [rateEnergy2_add, C38_energy hn hS hD hδ beta _ hreal, zero_add, ← vel_work hδ]
    simp only [ns2dMeans]
    congr 1
    refine sum_congr rfl fun k _ => ?_
    simp only [innerProd, Complex.add_re, Complex.mul_re, Complex.conj_re, Complex.conj_im]
    ring
  · rw [rate_add, C38_enstrophy hn hS hD δ beta _ hreal, zero_add]
    rfl

/-! ### ns2d.strat -/

/-- C59 (ns2d.strat): `E = EK + EA`, `E_shear` is the energy of the modes which do not depend on `x`
and is not more than `E`. -/
theorem C59_strat_energies {S : Finset (Fin 2 → ℤ)} {δ : Fin 2 → ℝ} (hδ : ∀ d, δ d ≠ 0)
    {N : ℝ} (hN : N ≠ 0) (fd fdHypo : (Fin 2 → ℤ) → ℝ) (dt : ℝ) (rot b Frot Fb : Fld (Fin 2)) :
    let M := stratMeans S δ N fd fdHypo dt rot b Frot Fb
    M.E = M.EK + M.EA ∧
      M.EA = (∑ k ∈ S, ‖b k‖ ^ 2 / 2) / N ^ 2 ∧
      M.Eshear = ∑ k ∈ S with k 0 = 0, ((‖ux2 δ rot k‖ ^ 2 + ‖uy2 δ rot k‖ ^ 2) / 2
        + ‖b k‖ ^ 2 / 2 / N ^ 2) ∧
      0 ≤ M.Eshear ∧ M.Eshear ≤ M.E := by
  have hA : ∀ k, energyA2 N b k = ‖b k‖ ^ 2 / 2 / N ^ 2 := by
    intro k; rw [energyA2, if_neg hN, div_pow]; ring
  have hpos : ∀ k, 0 ≤ energy2 δ rot k + energyA2 N b k := by
    intro k; rw [hA, energy2]; positivity
  have hf : (S.filter fun k => |δ 0 * (k 0 : ℝ)| = 0) = S.filter fun k => k 0 = 0 := by
    refine filter_congr fun k _ => ?_
    rw [abs_eq_zero, mul_eq_zero]
    constructor
    · intro h; exact_mod_cast h.resolve_left (hδ 0)
    · intro h; right; exact_mod_cast h
  refine ⟨sum_add_distrib, ?_, ?_, sum_nonneg fun k _ => hpos k, ?_⟩
  · simp only [stratMeans, hA, sum_div]
  · simp only [stratMeans]
    rw [hf]
    exact sum_congr rfl fun k _ => by rw [hA, energy2]
  · exact sum_le_sum_of_subset_of_nonneg (filter_subset _ _) fun k _ _ => hpos k

/-- C59 (ns2d.strat): the energies and the enstrophy given by the forcing in one time step. -/
theorem C59_strat_injection (S : Finset (Fin 2 → ℤ)) (δ : Fin 2 → ℝ) {N : ℝ} (hN : N ≠ 0)
    (fd fdHypo : (Fin 2 → ℤ) → ℝ) (dt : ℝ) (rot b Frot Fb : Fld (Fin 2)) :
    let M := fun rot b => stratMeans S δ N fd fdHypo dt rot b Frot Fb
    let M' := M (kick dt rot Frot) (kick dt b Fb)
    M'.EK - (M rot b).EK = dt * (M rot b).PK.tot ∧
      M'.EA - (M rot b).EA = dt * (M rot b).PA.tot ∧
      M'.Z - (M rot b).Z = dt * (M rot b).PZ.tot ∧
      (M rot b).PK.tot = (M rot b).PK.p1 + (M rot b).PK.p2 ∧
      (M rot b).PZ.tot = (M rot b).PZ.p1 + (M rot b).PZ.p2 := by
  refine ⟨?_, ?_, ?_, rfl, rfl⟩
  · simp only [stratMeans]
    rw [← sum_sub_distrib, mul_add, mul_sum, mul_sum, mul_sum, ← sum_add_distrib]
    refine sum_congr rfl fun k _ => ?_
    rw [energy2_kick]
    simp only [innerProd, Complex.add_re]
    ring
  · simp only [stratMeans, energyA2, if_neg hN]
    rw [← sum_sub_distrib, mul_add, sum_div, mul_sum, mul_sum, mul_sum, ← sum_add_distrib]
    refine sum_congr rfl fun k _ => ?_
    rw [div_pow, div_pow, kick, sq_kick]; ring
  · simp only [stratMeans]
    rw [← sum_sub_distrib, mul_add, mul_sum, mul_sum, mul_sum, ← sum_add_distrib]
    refine sum_congr rfl fun k _ => ?_
    rw [enstrophy2, enstrophy2, kick, sq_kick]; ring

/-- C59 (ns2d.strat): the budget of the energy: the rate of change of `E` is
`PK1 + PA1 - epsK_tot - epsA_tot`. -/
theorem C59_strat_budget {n : Fin 2 → ℕ} (hn : ∀ d, 0 < n d) {S : Finset (Fin 2 → ℤ)}
    (hS : TriadExact n S) (hD : Distinct n S) {δ : Fin 2 → ℝ} (hδ : ∀ d, δ d ≠ 0) {N : ℝ} (hN : N ≠ 0)
    (fd fdHypo : (Fin 2 → ℤ) → ℝ) (dt : ℝ) (rot b : ℝ → Fld (Fin 2)) (Frot Fb : Fld (Fin 2)) (t : ℝ)
    (hreal : RealOn S (rot t)) (hb : RealOn S (b t))
    (hev : Evolves S rot (fun k => (ns2dStrat n S δ N (rot t) (b t)).1 k + Frot k)
      (fun k => fd k + fdHypo k) t)
    (hevb : Evolves S b (fun k => (ns2dStrat n S δ N (rot t) (b t)).2 k + Fb k)
      (fun k => fd k + fdHypo k) t) :
    let M := fun s => stratMeans S δ N fd fdHypo dt (rot s) (b s) Frot Fb
    HasDerivAt (fun s => (M s).E)
      ((M t).PK.p1 + (M t).PA.p1 - (M t).epsK.tot - (M t).epsA.tot) t := by
  intro M
  have hA : ∀ c : Fld (Fin 2), ∀ k, energyA2 N c k = ‖c k‖ ^ 2 / 2 / N ^ 2 := by
    intro c k; rw [energyA2, if_neg hN, div_pow]; ring
  have h1 := energy2_deriv hδ hev
  have h2 := (sumSq_deriv hevb).div_const (N ^ 2)
  have e : (fun s => (M s).E)
      = fun s => ∑ k ∈ S, energy2 δ (rot s) k + (∑ k ∈ S, ‖b s k‖ ^ 2 / 2) / N ^ 2 := by
    funext s
    simp only [M, stratMeans, hA, sum_add_distrib, sum_div]
  rw [e]
  refine (h1.fun_add h2).congr_deriv ?_
  have hc := C40_energy hn hS hD hδ hN (rot t) (b t) hreal hb
  have hPK : (M t).PK.p1 = rateEnergy2 S δ (rot t) Frot := by
    rw [← vel_work hδ]
    simp only [M, stratMeans, innerProd, Complex.add_re]
  have hPA : (M t).PA.p1 = (∑ k ∈ S, innerProd (b t k) (Fb k)) / N ^ 2 := rfl
  have hdA : (M t).epsA.tot = (∑ k ∈ S, (fd k + fdHypo k) * ‖b t k‖ ^ 2) / N ^ 2 := by
    simp only [M, stratMeans, diss_tot, hA, sum_div]
    exact sum_congr rfl fun k _ => by ring
  have hdK : (M t).epsK.tot = (diss S fd fdHypo (energy2 δ (rot t))).tot := rfl
  rw [rateEnergy2_add, rate_inner, rate_add, hPK, hPA, hdA, hdK]
  linear_combination hc

/-- C59 is violated by ns2d.strat: the line of the injection of potential energy has `PA1` twice, its
second number is not what must be added to the first to get the third. -/
theorem C59_strat_PA2_violated :
    ∃ (S : Finset (Fin 2 → ℤ)) (b Fb : Fld (Fin 2)), RealOn S b ∧ RealOn S Fb ∧
      ∀ (δ : Fin 2 → ℝ) (fd fdHypo : (Fin 2 → ℤ) → ℝ) (rot Frot : Fld (Fin 2)),
        let M := stratMeans S δ 1 fd fdHypo 1 rot b Frot Fb
        M.PA.p1 = 2 ∧ M.PA.p2 = 2 ∧ M.PA.tot = 3 := by
  refine ⟨{![1, 0], ![-1, 0]}, fun _ => 1, fun _ => 1, ?_, ?_, ?_⟩
  · intro k hk
    simp only [mem_insert, mem_singleton] at hk
    refine ⟨?_, by simp⟩
    rcases hk with rfl | rfl <;> simp
  · intro k hk
    simp only [mem_insert, mem_singleton] at hk
    refine ⟨?_, by simp⟩
    rcases hk with rfl | rfl <;> simp
  · intro δ fd fdHypo rot Frot M
    have hne : (![1, 0] : Fin 2 → ℤ) ≠ ![-1, 0] := by decide
    have hs : ∀ c : ℝ, ∑ _k ∈ ({![1, 0], ![-1, 0]} : Finset (Fin 2 → ℤ)), c = 2 * c := by
      intro c; rw [sum_pair hne]; ring
    have h1 : M.PA.p1 = 2 := by
      simp only [M, stratMeans, innerProd, map_one, mul_one, Complex.one_re, hs]; norm_num
    refine ⟨h1, h1, ?_⟩
    simp only [M, stratMeans, innerProd, map_one, mul_one, Complex.one_re, norm_one, one_pow, hs]
    norm_num

/-! ### ns3d -/

/-- C59 (ns3d): `Ex`, `Ey`, `Ez` are the means over the grid of half of the squares of the components
and `E` is their sum. -/
theorem C59_ns3d_means {n : Fin 3 → ℕ} (hn : ∀ d, 0 < n d) {S : Finset (Fin 3 → ℤ)}
    (hD : Distinct n S) (δ : Fin 3 → ℝ) (nu4 nu8 : ℝ) (fd fdHypo : (Fin 3 → ℤ) → ℝ) (dt : ℝ)
    (v F : (Fin 3 → ℤ) → V3) (hv : RealVecOn S v) :
    let M := ns3dMeans S δ nu4 nu8 fd fdHypo dt v F
    M.Ex = gridMean n (fun j => phys n S (fun k => (v k).x) j ^ 2 / 2) ∧
      M.Ey = gridMean n (fun j => phys n S (fun k => (v k).y) j ^ 2 / 2) ∧
      M.Ez = gridMean n (fun j => phys n S (fun k => (v k).z) j ^ 2 / 2) ∧
      M.E = M.Ex + M.Ey + M.Ez := by
  have h : ∀ a : Fld (Fin 3), RealOn S a → ∑ k ∈ S, energy1 (a k)
      = gridMean n (fun j => phys n S a j ^ 2 / 2) := by
    intro a ha
    rw [gridMean_div, ← sumSq_mean hn hD ha, sum_div]
    exact sum_congr rfl fun k _ => by rw [energy1]; ring
  exact ⟨h _ hv.1, h _ hv.2.1, h _ hv.2.2, rfl⟩

theorem sum_inner3 (S : Finset (Fin 3 → ℤ)) (v F : (Fin 3 → ℤ) → V3) :
    ∑ k ∈ S, ((starRingEnd ℂ) (v k).x * (F k).x + (starRingEnd ℂ) (v k).y * (F k).y
      + (starRingEnd ℂ) (v k).z * (F k).z).re = rateV S v F := by
  simp only [rateV, inner]
  refine sum_congr rfl fun k _ => ?_
  simp only [mul_comm]

theorem energy_kick3 (dt : ℝ) (v F : (Fin 3 → ℤ) → V3) (k : Fin 3 → ℤ) :
    energy1 (kickV dt v F k).x + energy1 (kickV dt v F k).y + energy1 (kickV dt v F k).z
      = energy1 (v k).x + energy1 (v k).y + energy1 (v k).z
        + dt * (((starRingEnd ℂ) (v k).x * (F k).x + (starRingEnd ℂ) (v k).y * (F k).y
      + (starRingEnd ℂ) (v k).z * (F k).z).re
        + (‖(F k).x‖ ^ 2 + ‖(F k).y‖ ^ 2 + ‖(F k).z‖ ^ 2) * dt / 2) := by
  simp only [energy1, kickV, sq_kick, innerProd, Complex.add_re]
  ring

theorem E3_eq (S : Finset (Fin 3 → ℤ)) (δ : Fin 3 → ℝ) (nu4 nu8 : ℝ) (fd fdHypo : (Fin 3 → ℤ) → ℝ)
    (dt : ℝ) (v F : (Fin 3 → ℤ) → V3) :
    (ns3dMeans S δ nu4 nu8 fd fdHypo dt v F).E
      = ∑ k ∈ S, (energy1 (v k).x + energy1 (v k).y + energy1 (v k).z) := by
  simp only [ns3dMeans, sum_add_distrib]

/-- C59 (ns3d): the energy given by the forcing in one time step. -/
theorem C59_ns3d_injection (S : Finset (Fin 3 → ℤ)) (δ : Fin 3 → ℝ) (nu4 nu8 : ℝ)
    (fd fdHypo : (Fin 3 → ℤ) → ℝ) (dt : ℝ) (v F : (Fin 3 → ℤ) → V3) :
    let M := fun v => ns3dMeans S δ nu4 nu8 fd fdHypo dt v F
    (M (kickV dt v F)).E - (M v).E = dt * (M v).PK.tot ∧
      (M v).PK.tot = (M v).PK.p1 + (M v).PK.p2 := by
  refine ⟨?_, rfl⟩
  show (ns3dMeans S δ nu4 nu8 fd fdHypo dt _ F).E - (ns3dMeans S δ nu4 nu8 fd fdHypo dt v F).E = _
  rw [E3_eq, E3_eq, ← sum_sub_distrib]
  simp only [ns3dMeans]
  rw [← sum_add_distrib, mul_sum]
  exact sum_congr rfl fun k _ => by rw [energy_kick3]; ring

theorem energyV_deriv {S : Finset (Fin 3 → ℤ)} {v : ℝ → (Fin 3 → ℤ) → V3} {T : (Fin 3 → ℤ) → V3}
    {fd fdHypo : (Fin 3 → ℤ) → ℝ} {t : ℝ} (h : EvolvesV S v T (fun k => fd k + fdHypo k) t) :
    HasDerivAt (fun s => ∑ k ∈ S, (energy1 (v s k).x + energy1 (v s k).y + energy1 (v s k).z))
      (rateV S (v t) T - (diss S fd fdHypo fun k =>
        energy1 (v t k).x + energy1 (v t k).y + energy1 (v t k).z).tot) t := by
  have e : (fun s => ∑ k ∈ S, (energy1 (v s k).x + energy1 (v s k).y + energy1 (v s k).z))
      = fun s => ∑ k ∈ S, energy3 (v s k) := by
    funext s
    refine sum_congr rfl fun k _ => ?_
    simp only [energy1, energy3, half]; ring
  rw [e]
  refine (HasDerivAt.fun_sum fun k hk => energy3_deriv h hk).congr_deriv ?_
  rw [sum_sub_distrib, diss_tot, rateV]
  congr 1
  exact sum_congr rfl fun k _ => by simp only [energy1]; ring

theorem rateV_add (S : Finset (Fin 3 → ℤ)) (v T F : (Fin 3 → ℤ) → V3) :
    rateV S v (fun k => add (T k) (F k)) = rateV S v T + rateV S v F := by
  simp only [rateV, ← sum_add_distrib]
  refine sum_congr rfl fun k _ => ?_
  simp only [inner, add, ← Complex.add_re]
  congr 1; ring

/-- C59 (ns3d): the budget: the rate of change of the saved energy is `PK1 - epsK_tot`. -/
theorem C59_ns3d_budget (n : Fin 3 → ℕ) (S : Finset (Fin 3 → ℤ)) (δ : Fin 3 → ℝ) (f : Option ℝ)
    (p : Projection) (noVzKz0 : Bool) (nu4 nu8 : ℝ) (fd fdHypo : (Fin 3 → ℤ) → ℝ) (dt : ℝ)
    (v : ℝ → (Fin 3 → ℤ) → V3) (F : (Fin 3 → ℤ) → V3) (t : ℝ) (hreal : RealVecOn S (v t))
    (hproj : ∀ k ∈ S, projectState p noVzKz0 (wave3 δ k) ⟨v t k, none⟩ = ⟨v t k, none⟩)
    (hev : EvolvesV S v (fun k => add (ns3d n S δ f p noVzKz0 (v t) k) (F k))
      (fun k => fd k + fdHypo k) t) :
    let M := fun s => ns3dMeans S δ nu4 nu8 fd fdHypo dt (v s) F
    HasDerivAt (fun s => (M s).E) ((M t).PK.p1 - (M t).epsK.tot) t := by
  intro M
  have e : (fun s => (M s).E)
      = fun s => ∑ k ∈ S, (energy1 (v s k).x + energy1 (v s k).y + energy1 (v s k).z) := by
    funext s; exact E3_eq S δ nu4 nu8 fd fdHypo dt (v s) F
  rw [e]
  refine (energyV_deriv hev).congr_deriv ?_
  rw [rateV_add, C37_energy n S δ f p noVzKz0 (v t) hreal hproj, zero_add, ← sum_inner3]
  rfl

/-- C59 (ns3d): with the frequencies of the dissipation computed by the solver (C44), `epsK` is the
sum of the dissipation by the viscosity and of the saved `epsK4` and `epsK8` (zero if not saved); all
are nonnegative. -/
theorem C59_ns3d_hyper (S : Finset (Fin 3 → ℤ)) (δ : Fin 3 → ℝ) (nu : Dissip.Nu)
    (hnu : 0 ≤ nu.nu2 ∧ 0 ≤ nu.nu4 ∧ 0 ≤ nu.nu8)
    (fdHypo : (Fin 3 → ℤ) → ℝ) (dt : ℝ) (v F : (Fin 3 → ℤ) → V3) :
    let M := ns3dMeans S δ nu.nu4 nu.nu8 (fun k => Dissip.fd nu (K2 δ k)) fdHypo dt v F
    M.epsK.eps = nu.nu2 * ∑ k ∈ S, K2 δ k * (‖(v k).x‖ ^ 2 + ‖(v k).y‖ ^ 2 + ‖(v k).z‖ ^ 2)
        + M.epsK4.getD 0 + M.epsK8.getD 0 ∧
      0 ≤ M.epsK4.getD 0 ∧ 0 ≤ M.epsK8.getD 0 ∧ M.epsK4.getD 0 + M.epsK8.getD 0 ≤ M.epsK.eps := by
  intro M
  set q : (Fin 3 → ℤ) → ℝ := fun k => ‖(v k).x‖ ^ 2 + ‖(v k).y‖ ^ 2 + ‖(v k).z‖ ^ 2 with hq
  have hq0 : ∀ k, 0 ≤ q k := fun k => by simp only [hq]; positivity
  have hK : ∀ k, 0 ≤ K2 δ k := fun k => by simp only [K2]; positivity
  have h4 : M.epsK4.getD 0 = nu.nu4 * ∑ k ∈ S, K2 δ k ^ 2 * q k := by
    simp only [M, ns3dMeans, hyper]
    split
    · rw [Option.getD_some, mul_sum]
      exact sum_congr rfl fun k _ => by simp only [energy1, hq]; ring
    · rw [show nu.nu4 = 0 by linarith [hnu.2.1]]; simp
  have h8 : M.epsK8.getD 0 = nu.nu8 * ∑ k ∈ S, (K2 δ k ^ 2) ^ 2 * q k := by
    simp only [M, ns3dMeans, hyper]
    split
    · rw [Option.getD_some, mul_sum]
      exact sum_congr rfl fun k _ => by simp only [energy1, hq]; ring
    · rw [show nu.nu8 = 0 by linarith [hnu.2.2]]; simp
  have hfd : ∀ k, Dissip.fd nu (K2 δ k)
      = nu.nu2 * K2 δ k + nu.nu4 * K2 δ k ^ 2 + nu.nu8 * (K2 δ k ^ 2) ^ 2 := by
    intro k
    have i : ∀ x y : ℝ, 0 ≤ x → (if x > 0 then x * y else 0) = x * y := by
      intro x y hx
      split
      · rfl
      · rw [show x = 0 by linarith, zero_mul]
    have j : ∀ x y f : ℝ, 0 ≤ x → (if x > 0 then f + x * y else f) = f + x * y := by
      intro x y f hx
      split
      · rfl
      · rw [show x = 0 by linarith, zero_mul, add_zero]
    rw [Dissip.fd]
    simp only [i _ _ hnu.1, j _ _ _ hnu.2.1, j _ _ _ hnu.2.2]
  have hs : M.epsK.eps = nu.nu2 * ∑ k ∈ S, K2 δ k * q k + M.epsK4.getD 0 + M.epsK8.getD 0 := by
    rw [h4, h8, mul_sum, mul_sum, mul_sum, ← sum_add_distrib, ← sum_add_distrib]
    simp only [M, ns3dMeans, diss]
    refine sum_congr rfl fun k _ => ?_
    rw [hfd]; simp only [energy1, hq]; ring
  have h2 : 0 ≤ nu.nu2 * ∑ k ∈ S, K2 δ k * q k :=
    mul_nonneg hnu.1 (sum_nonneg fun k _ => mul_nonneg (hK k) (hq0 k))
  refine ⟨hs, ?_, ?_, by rw [hs]; linarith⟩
  · rw [h4]
    exact mul_nonneg hnu.2.1 (sum_nonneg fun k _ => mul_nonneg (by positivity) (hq0 k))
  · rw [h8]
    exact mul_nonneg hnu.2.2 (sum_nonneg fun k _ => mul_nonneg (by positivity) (hq0 k))

/-! ### the hypotheses are met -/

/-- Four modes of a 4 x 4 grid. -/
def exS4 : Finset (Fin 2 → ℤ) := {![1, 0], ![-1, 0], ![0, 1], ![0, -1]}

/-- A forced and damped flow of ns2d. -/
example : TriadExact (fun _ => 4) exS4 ∧ Distinct (fun _ => 4) exS4 ∧ RealOn exS4 (fun _ => 1) ∧
    Velocity2 exS4 (fun _ => 1) (fun _ => 1) (ux2 (fun _ => 1) fun _ => 1) (uy2 (fun _ => 1) fun _ => 1) ∧
    ∃ rot : ℝ → Fld (Fin 2), rot 0 = (fun _ => 1) ∧
      Evolves exS4 rot (fun k => ns2d (fun _ => 4) exS4 (fun _ => 1) 3 (rot 0) k + 5)
        (fun _ => 2 + 1) 0 := by
  have hneg : ∀ k ∈ exS4, -k ∈ exS4 := by decide
  have ht := C37_truncation (fun _ => 4) exS4 (by decide)
  refine ⟨ht.1, ht.2, fun k hk => ⟨hneg k hk, by simp⟩, velocity_exists _ (fun _ => one_ne_zero) _, ?_⟩
  set T : Fld (Fin 2) := fun k => ns2d (fun _ => 4) exS4 (fun _ => 1) 3 (fun _ => 1) k + 5 with hT
  have h0 : (fun k => (1 : ℂ) + ((0 : ℝ) : ℂ) * (T k - ((2 + 1 : ℝ) : ℂ) * 1)) = fun _ => 1 := by
    funext k; simp
  refine ⟨fun s k => 1 + s * (T k - ((2 + 1 : ℝ) : ℂ) * 1), h0, ?_⟩
  simp only [h0, ← hT]
  exact evolves_exists exS4 (fun _ => 1) T (fun _ => 2 + 1)

/-- A forced and damped flow of ns2d.strat. -/
example : ∃ rot b : ℝ → Fld (Fin 2), rot 0 = (fun _ => 1) ∧ b 0 = (fun _ => 2) ∧
    RealOn exS4 (rot 0) ∧ RealOn exS4 (b 0) ∧
    Evolves exS4 rot (fun k => (ns2dStrat (fun _ => 4) exS4 (fun _ => 1) 3 (rot 0) (b 0)).1 k + 5)
      (fun _ => 2 + 1) 0 ∧
    Evolves exS4 b (fun k => (ns2dStrat (fun _ => 4) exS4 (fun _ => 1) 3 (rot 0) (b 0)).2 k + 7)
      (fun _ => 2 + 1) 0 := by
  have hneg : ∀ k ∈ exS4, -k ∈ exS4 := by decide
  set T : Fld (Fin 2) := fun k =>
    (ns2dStrat (fun _ => 4) exS4 (fun _ => 1) 3 (fun _ => 1) (fun _ => 2)).1 k + 5 with hT
  set U : Fld (Fin 2) := fun k =>
    (ns2dStrat (fun _ => 4) exS4 (fun _ => 1) 3 (fun _ => 1) (fun _ => 2)).2 k + 7 with hU
  have h0 : (fun k => (1 : ℂ) + ((0 : ℝ) : ℂ) * (T k - ((2 + 1 : ℝ) : ℂ) * 1)) = fun _ => 1 := by
    funext k; simp
  have h1 : (fun k => (2 : ℂ) + ((0 : ℝ) : ℂ) * (U k - ((2 + 1 : ℝ) : ℂ) * 2)) = fun _ => 2 := by
    funext k; simp
  refine ⟨fun s k => 1 + s * (T k - ((2 + 1 : ℝ) : ℂ) * 1),
    fun s k => 2 + s * (U k - ((2 + 1 : ℝ) : ℂ) * 2), h0, h1, ?_, ?_, ?_, ?_⟩
  · simp only [h0]; exact fun k hk => ⟨hneg k hk, by simp⟩
  · simp only [h1]; exact fun k hk => ⟨hneg k hk, by simp [Complex.conj_ofNat]⟩
  · simp only [h0, h1, ← hT]
    exact evolves_exists exS4 (fun _ => 1) T (fun _ => 2 + 1)
  · simp only [h0, h1, ← hU]
    exact evolves_exists exS4 (fun _ => 2) U (fun _ => 2 + 1)

/-- A history with given value and given tendency at time 0 in three dimensions. -/
theorem evolvesV_exists (S : Finset (Fin 3 → ℤ)) (a T : (Fin 3 → ℤ) → V3) (σ : (Fin 3 → ℤ) → ℝ) :
    ∃ v : ℝ → (Fin 3 → ℤ) → V3, v 0 = a ∧ EvolvesV S v T σ 0 := by
  refine ⟨fun s k => ⟨(a k).x + s * ((T k).x - σ k * (a k).x),
    (a k).y + s * ((T k).y - σ k * (a k).y), (a k).z + s * ((T k).z - σ k * (a k).z)⟩, ?_, ?_⟩
  · funext k; ext <;> simp
  · exact ⟨evolves_exists S _ _ σ, evolves_exists S _ _ σ, evolves_exists S _ _ σ⟩

theorem exV_ok : RealVecOn exS exV ∧ ∀ (b : Option ℂ), ∀ k ∈ exS,
    projectState .none false (wave3 (fun _ => 1) k) ⟨exV k, b⟩ = ⟨exV k, b⟩ := by
  have hneg : ∀ k ∈ exS, -k ∈ exS := by decide
  refine ⟨⟨fun k hk => ⟨hneg k hk, ?_⟩, fun k hk => ⟨hneg k hk, ?_⟩, fun k hk => ⟨hneg k hk, ?_⟩⟩, ?_⟩
  · simp only [exV, Pi.neg_apply, neg_eq_zero]; split <;> simp
  · simp only [exV, Pi.neg_apply, neg_eq_zero]; split <;> simp [Complex.conj_ofNat]
  · simp only [exV, Pi.neg_apply, neg_eq_zero]; split <;> simp [Complex.conj_ofNat]
  · intro b k hk
    have hd : kdot (wave3 (fun _ => 1) k) (exV k) = 0 := by
      have h : k = ![1, 0, 0] ∨ k = ![-1, 0, 0] ∨ k = ![0, 1, 0] ∨ k = ![0, -1, 0] := by
        simpa [exS] using hk
      rcases h with rfl | rfl | rfl | rfl <;> simp [kdot, wave3, exV]
    simp only [projectState, Bool.false_eq_true, false_and, if_false, projector, perpk, kradial]
    simp only [kdot] at hd
    congr 1
    ext <;> simp [hd]

/-- A forced and damped flow of ns3d with rotation. -/
example : RealVecOn exS exV ∧ ∃ v : ℝ → (Fin 3 → ℤ) → V3, v 0 = exV ∧
    (∀ k ∈ exS, projectState .none false (wave3 (fun _ => 1) k) ⟨v 0 k, none⟩ = ⟨v 0 k, none⟩) ∧
    EvolvesV exS v (fun k => add (ns3d (fun _ => 4) exS (fun _ => 1) (some 2) .none false (v 0) k) ⟨1, 2, 3⟩)
      (fun _ => 3 + 1) 0 := by
  refine ⟨exV_ok.1, ?_⟩
  obtain ⟨v, h0, h⟩ := evolvesV_exists exS exV
    (fun k => add (ns3d (fun _ => 4) exS (fun _ => 1) (some 2) .none false exV k) ⟨1, 2, 3⟩) (fun _ => 3 + 1)
  exact ⟨v, h0, by rw [h0]; exact exV_ok.2 none, by rw [h0]; exact h⟩

end

end Verif.SpatialMeans
