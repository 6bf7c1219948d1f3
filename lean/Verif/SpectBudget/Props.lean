import Verif.SpectBudget.Lemmas
import Verif.Galerkin.Props

/-!
# C58: the spectral energy budgets are the rates of change of the energies of the modes
-/

namespace Verif.SpectBudget

open Verif.Fourier Verif.Energy Verif.Vectors Verif.Galerkin Finset

noncomputable section

/-! ### ns2d -/

/-- C58 (ns2d): `transferE` and `transferZ` are the rates of change of the energy and of the enstrophy
of a mode due to the tendencies; the rest is the dissipation. -/
theorem C58_ns2d {n : Fin 2 → ℕ} (hn : ∀ d, 0 < n d) {S : Finset (Fin 2 → ℤ)} (hS : NoAlias n S)
    {δ : Fin 2 → ℝ} (hδ : ∀ d, δ d ≠ 0) (beta : ℝ) {σ : (Fin 2 → ℤ) → ℝ} {t : ℝ}
    {rot ux uy : ℝ → Fld (Fin 2)} (hu : ∀ s, Velocity2 S δ (rot s) (ux s) (uy s))
    (hev : Evolves S rot (ns2d n S δ beta (rot t)) σ t) {k : Fin 2 → ℤ} (hk : k ∈ S) :
    HasDerivAt (fun s => half (ux s k) + half (uy s k))
        (transferE n S δ (rot t) k - σ k * (‖ux t k‖ ^ 2 + ‖uy t k‖ ^ 2)) t ∧
      HasDerivAt (fun s => half (rot s k))
        (transferZ n S δ beta (rot t) k - σ k * ‖rot t k‖ ^ 2) t := by
  constructor
  · have hT := C57_ns2d hn hS hδ beta (hu t) hk
    have hv := (vel_mode δ (rot t) k).2
    rw [(velocity_unique hδ (hu t) hk).2] at hv
    refine (energy_rate hn hS hδ hu hev hk (beta * psi δ (rot t) k) ?_).congr_deriv ?_
    · rw [hT]
      linear_combination -(beta : ℂ) * hv
    · have : innerProd (uy t k) (beta * psi δ (rot t) k) = 0 := by
        rw [hv]
        simp only [innerProd, map_neg, map_mul, Complex.conj_I, Complex.conj_ofReal, Complex.mul_re,
          Complex.mul_im, Complex.neg_re, Complex.neg_im, Complex.I_re, Complex.I_im,
          Complex.ofReal_re, Complex.ofReal_im, Complex.conj_re, Complex.conj_im]
        ring
      rw [this, add_zero]
  · refine (half_deriv (hev k hk)).congr_deriv ?_
    rw [transferZ, sym_eq, frot_eq, innerProd]
    simp only [← Complex.normSq_eq_norm_sq, Complex.normSq_apply, Complex.mul_re, Complex.sub_re,
      Complex.sub_im, Complex.mul_im, Complex.conj_re, Complex.conj_im, Complex.ofReal_re,
      Complex.ofReal_im]
    ring

/-- C58 (ns2d): the transfers only redistribute the energy and the enstrophy. -/
theorem C58_ns2d_sums {n : Fin 2 → ℕ} (hn : ∀ d, 0 < n d) {S : Finset (Fin 2 → ℤ)} (hS : NoAlias n S)
    (δ : Fin 2 → ℝ) (beta : ℝ) {rot : Fld (Fin 2)} (hreal : RealOn S rot) :
    ∑ k ∈ S, transferE n S δ rot k = 0 ∧ ∑ k ∈ S, transferZ n S δ beta rot k = 0 := by
  have hT := triad_of_noAlias hS hreal
  constructor
  · simp only [transferE_eq, sum_add_distrib, transferEKu, transferEKv]
    rw [sum_fnl hn hT rot (ux2_real hreal), sum_fnl hn hT rot (uy2_real hreal), add_zero]
  · rw [← C38_enstrophy hn hT hS.distinct δ beta rot hreal, rate]
    refine sum_congr rfl fun k _ => ?_
    rw [transferZ, sym_eq, frot_eq, innerProd, mul_comm]

/-! ### ns2d.strat -/

/-- C58 (ns2d.strat): budget of the kinetic energy and of the potential energy of a mode; the exchange
`B` has opposite signs in the two equations. -/
theorem C58_strat {n : Fin 2 → ℕ} (hn : ∀ d, 0 < n d) {S : Finset (Fin 2 → ℤ)} (hS : NoAlias n S)
    {δ : Fin 2 → ℝ} (hδ : ∀ d, δ d ≠ 0) {N : ℝ} (hN : N ≠ 0) {fd fdHypo : (Fin 2 → ℤ) → ℝ} {t : ℝ}
    {rot b ux uy : ℝ → Fld (Fin 2)} (hu : ∀ s, Velocity2 S δ (rot s) (ux s) (uy s))
    (hrot : Evolves S rot (ns2dStrat n S δ N (rot t) (b t)).1 (fun k => fd k + fdHypo k) t)
    (hb : Evolves S b (ns2dStrat n S δ N (rot t) (b t)).2 (fun k => fd k + fdHypo k) t)
    {k : Fin 2 → ℤ} (hk : k ∈ S) :
    HasDerivAt (fun s => half (ux s k) + half (uy s k))
        (transferE n S δ (rot t) k + bFft δ (rot t) (b t) k - dissEK δ fd fdHypo (rot t) k) t ∧
      HasDerivAt (fun s => half (b s k) / N ^ 2)
        (transferEA n S δ N (rot t) (b t) k - bFft δ (rot t) (b t) k - dissEA N fd fdHypo (b t) k) t := by
  obtain ⟨h1, h2⟩ := C57_ns2d_strat hn hS hδ N (b t) (hu t) hk
  obtain ⟨vx, vy⟩ := velocity_unique hδ (hu t) hk
  constructor
  · refine (energy_rate hn hS hδ hu hrot hk (b t k) h1).congr_deriv ?_
    simp only [bFft, dissEK, vx, vy, innerProd, ← Complex.normSq_eq_norm_sq, Complex.normSq_apply,
      Complex.mul_re, Complex.mul_im, Complex.conj_re, Complex.conj_im, Complex.ofReal_re,
      Complex.ofReal_im, Complex.add_re, Complex.add_im, Complex.div_ofNat_re]
    ring
  · refine ((half_deriv (hb k hk)).div_const (N ^ 2)).congr_deriv ?_
    have hf := fnl_eq hn hS hδ (hu t) (b t) hk
    rw [h2, ← hf]
    simp only [transferEA, dissEA, if_neg hN, bFft, vy, innerProd]
    have hN2 : ((N : ℂ) ^ 2) = ((N ^ 2 : ℝ) : ℂ) := by push_cast; rfl
    rw [hN2]
    simp only [Complex.mul_re, Complex.mul_im, Complex.sub_re, Complex.sub_im, Complex.conj_re,
      Complex.conj_im, Complex.ofReal_re, Complex.ofReal_im]
    field_simp
    ring

/-- C58 (ns2d.strat): the parts saved for the two components of the velocity add up to the totals, the
dissipations are not negative, and each of the transfers sums to zero. -/
theorem C58_strat_sums {n : Fin 2 → ℕ} (hn : ∀ d, 0 < n d) {S : Finset (Fin 2 → ℤ)} (hS : NoAlias n S)
    (δ : Fin 2 → ℝ) (N : ℝ) {fd fdHypo : (Fin 2 → ℤ) → ℝ} (hfd : ∀ k, 0 ≤ fd k + fdHypo k)
    {rot b : Fld (Fin 2)} (hreal : RealOn S rot) (hbreal : RealOn S b) :
    (∀ k, transferEKu n S δ rot k + transferEKv n S δ rot k = transferE n S δ rot k) ∧
    (∀ k, dissEKu δ fd fdHypo rot k + dissEKv δ fd fdHypo rot k = dissEK δ fd fdHypo rot k) ∧
    (∀ k, 0 ≤ dissEKu δ fd fdHypo rot k ∧ 0 ≤ dissEKv δ fd fdHypo rot k ∧ 0 ≤ dissEA N fd fdHypo b k) ∧
    ∑ k ∈ S, transferEKu n S δ rot k = 0 ∧ ∑ k ∈ S, transferEKv n S δ rot k = 0 ∧
    ∑ k ∈ S, transferEA n S δ N rot b k = 0 := by
  have hT := triad_of_noAlias hS hreal
  have hpos : ∀ (σ : ℝ) (z : ℂ), 0 ≤ σ → 0 ≤ ((σ : ℂ) * ((starRingEnd ℂ) z * z)).re := by
    intro σ z hσ
    have : ((σ : ℂ) * ((starRingEnd ℂ) z * z)).re = σ * (z.re ^ 2 + z.im ^ 2) := by
      simp only [Complex.mul_re, Complex.mul_im, Complex.conj_re, Complex.conj_im, Complex.ofReal_re,
        Complex.ofReal_im]
      ring
    rw [this]; positivity
  refine ⟨fun k => (transferE_eq n rot k).symm, fun k => ?_, fun k => ⟨hpos _ _ (hfd k),
    hpos _ _ (hfd k), ?_⟩, sum_fnl hn hT rot (ux2_real hreal), sum_fnl hn hT rot (uy2_real hreal), ?_⟩
  · simp only [dissEKu, dissEKv, dissEK, Complex.mul_re, Complex.mul_im, Complex.conj_re,
      Complex.conj_im, Complex.ofReal_re, Complex.ofReal_im, Complex.add_re, Complex.add_im,
      Complex.div_ofNat_re]
    ring
  · simp only [dissEA]
    split
    · exact le_refl _
    · exact mul_nonneg (by positivity) (hpos _ _ (hfd k))
  · simp only [transferEA]
    split
    · simp
    · rw [← mul_sum, sum_fnl hn hT rot hbreal, mul_zero]

/-! ### ns3d -/

/-- C58 (ns3d): whatever the Coriolis parameter and the projection, the sum of the saved transfers
`transfer_Kh + transfer_Kz` is the rate of change of the energy of the mode due to the tendencies. The
energy lost by dissipation is `diss_Kh + diss_Kz` plus the part of the hypo-dissipation. -/
theorem C58_ns3d {n : Fin 3 → ℕ} (hn : ∀ d, 0 < n d) {S : Finset (Fin 3 → ℤ)} (hD : Distinct n S)
    (δ : Fin 3 → ℝ) (f : Option ℝ) (p : Projection) (noVzKz0 : Bool) {fd fdHypo : (Fin 3 → ℤ) → ℝ}
    {t : ℝ} {v : ℝ → (Fin 3 → ℤ) → V3}
    (hproj : ∀ k ∈ S, projectState p noVzKz0 (wave3 δ k) ⟨v t k, none⟩ = ⟨v t k, none⟩)
    (hev : EvolvesV S v (ns3d n S δ f p noVzKz0 (v t)) (fun k => fd k + fdHypo k) t)
    {k : Fin 3 → ℤ} (hk : k ∈ S) :
    HasDerivAt (fun s => energy3 (v s k))
      (transferKh n S δ p (v t) k + transferKz n S δ p (v t) k
        - (dissKh fd fdHypo (v t) k + dissKz fd fdHypo (v t) k) - 2 * fdHypo k * energy3 (v t k)) t := by
  refine (energy3_deriv hev hk).congr_deriv ?_
  rw [transferK_eq, force3, projector_inner (hproj k hk), ns3d, if_pos hk,
    projectState_inner (hproj k hk), coriolis_work hn hD δ f (v t) hk]
  simp only [dissKh, dissKz, energy3, half]
  ring

/-- C58 (ns3d), partial: the documented budget `dE/dt = T - D` holds without hypo-dissipation
(`nu_m4 = 0`). With it: `C58_hypo_violated`. -/
theorem C58_ns3d_partial {n : Fin 3 → ℕ} (hn : ∀ d, 0 < n d) {S : Finset (Fin 3 → ℤ)}
    (hD : Distinct n S) (δ : Fin 3 → ℝ) (f : Option ℝ) (p : Projection) (noVzKz0 : Bool)
    {fd fdHypo : (Fin 3 → ℤ) → ℝ} (hh : ∀ k, fdHypo k = 0) {t : ℝ} {v : ℝ → (Fin 3 → ℤ) → V3}
    (hproj : ∀ k ∈ S, projectState p noVzKz0 (wave3 δ k) ⟨v t k, none⟩ = ⟨v t k, none⟩)
    (hev : EvolvesV S v (ns3d n S δ f p noVzKz0 (v t)) (fun k => fd k + fdHypo k) t)
    {k : Fin 3 → ℤ} (hk : k ∈ S) :
    HasDerivAt (fun s => energy3 (v s k))
      (transferKh n S δ p (v t) k + transferKz n S δ p (v t) k
        - (dissKh fd fdHypo (v t) k + dissKz fd fdHypo (v t) k)) t := by
  refine (C58_ns3d hn hD δ f p noVzKz0 hproj hev hk).congr_deriv ?_
  rw [hh k]; ring

theorem energy3_pos {v : V3} (h : v ≠ ⟨0, 0, 0⟩) : 0 < energy3 v := by
  have h0 : 0 ≤ energy3 v := by simp only [energy3, half]; positivity
  rcases h0.lt_or_eq with h1 | h1
  · exact h1
  · exfalso
    apply h
    have hx : 0 ≤ half v.x := by simp only [half]; positivity
    have hy : 0 ≤ half v.y := by simp only [half]; positivity
    have hz : 0 ≤ half v.z := by simp only [half]; positivity
    simp only [energy3] at h1
    have key : ∀ z : ℂ, half z = 0 → z = 0 := by
      intro z hz
      simp only [half] at hz
      have : ‖z‖ ^ 2 = 0 := by linarith
      simpa using this
    ext
    · exact key _ (by linarith)
    · exact key _ (by linarith)
    · exact key _ (by linarith)

/-- C58 (finding): the saved dissipation leaves out the hypo-dissipation which the solver applies; the
documented budget is wrong for every mode which has energy and for which `f_d_hypo ≠ 0`. -/
theorem C58_hypo_violated {n : Fin 3 → ℕ} (hn : ∀ d, 0 < n d) {S : Finset (Fin 3 → ℤ)}
    (hD : Distinct n S) (δ : Fin 3 → ℝ) (f : Option ℝ) (p : Projection) (noVzKz0 : Bool)
    {fd fdHypo : (Fin 3 → ℤ) → ℝ} {t : ℝ} {v : ℝ → (Fin 3 → ℤ) → V3}
    (hproj : ∀ k ∈ S, projectState p noVzKz0 (wave3 δ k) ⟨v t k, none⟩ = ⟨v t k, none⟩)
    (hev : EvolvesV S v (ns3d n S δ f p noVzKz0 (v t)) (fun k => fd k + fdHypo k) t)
    {k : Fin 3 → ℤ} (hk : k ∈ S) (hh : fdHypo k ≠ 0) (hv : v t k ≠ ⟨0, 0, 0⟩) :
    ¬ HasDerivAt (fun s => energy3 (v s k))
      (transferKh n S δ p (v t) k + transferKz n S δ p (v t) k
        - (dissKh fd fdHypo (v t) k + dissKz fd fdHypo (v t) k)) t := by
  intro h
  have h1 := h.unique (C58_ns3d hn hD δ f p noVzKz0 hproj hev hk)
  have h2 : fdHypo k * energy3 (v t k) = 0 := by linarith
  rcases mul_eq_zero.1 h2 with h3 | h3
  · exact hh h3
  · exact (energy3_pos hv).ne' h3

/-- C58 (ns3d): the transfers sum to zero, so that the assertion made after each computation holds in
exact arithmetic. -/
theorem C58_ns3d_sum (n : Fin 3 → ℕ) (S : Finset (Fin 3 → ℤ)) (δ : Fin 3 → ℝ) (p : Projection)
    (noVzKz0 : Bool) {v : (Fin 3 → ℤ) → V3} (hreal : RealVecOn S v)
    (hproj : ∀ k ∈ S, projectState p noVzKz0 (wave3 δ k) ⟨v k, none⟩ = ⟨v k, none⟩) :
    ∑ k ∈ S, (transferKh n S δ p v k + transferKz n S δ p v k) = 0 ∧
      assertPasses (∑ k ∈ S, (transferKh n S δ p v k + transferKz n S δ p v k)) := by
  have h : ∑ k ∈ S, (transferKh n S δ p v k + transferKz n S δ p v k) = 0 := by
    rw [← C37_energy n S δ none p noVzKz0 v hreal hproj, rateV]
    refine sum_congr rfl fun k hk => ?_
    rw [transferK_eq, force3, projector_inner (hproj k hk), ns3d, if_pos hk,
      projectState_inner (hproj k hk)]
  refine ⟨h, ?_⟩
  rw [h, assertPasses]; norm_num

/-- C58 (finding): the assertion is one-sided: it holds for every transfer which loses energy. -/
theorem C58_assert_violated (s : ℝ) (h : s < 0) : assertPasses s := by
  rw [assertPasses]; linarith [show (0 : ℝ) < 1e-14 by norm_num]

/-- C58 (ns3d): without rotation, `transfer_Kh`, `transfer_Kz` and `transfer_Khr` are the rates of
change of the energies of the horizontal velocity, of the vertical velocity and of the rotational part
of the horizontal velocity. With rotation, see `C58_coriolis_violated`. -/
theorem C58_ns3d_components_partial (n : Fin 3 → ℕ) (S : Finset (Fin 3 → ℤ)) (δ : Fin 3 → ℝ)
    (p : Projection) (noVzKz0 : Bool) {σ : (Fin 3 → ℤ) → ℝ} {t : ℝ} {v : ℝ → (Fin 3 → ℤ) → V3}
    (hproj : ∀ k ∈ S, projectState p noVzKz0 (wave3 δ k) ⟨v t k, none⟩ = ⟨v t k, none⟩)
    (hev : EvolvesV S v (ns3d n S δ none p noVzKz0 (v t)) σ t) {k : Fin 3 → ℤ} (hk : k ∈ S) :
    let ur := fun s => (urud (wave3 δ k) (v s k).x (v s k).y).1
    HasDerivAt (fun s => half (v s k).x + half (v s k).y)
        (transferKh n S δ p (v t) k - 2 * σ k * (half (v t k).x + half (v t k).y)) t ∧
      HasDerivAt (fun s => half (v s k).z)
        (transferKz n S δ p (v t) k - 2 * σ k * half (v t k).z) t ∧
      HasDerivAt (fun s => half (ur s).1 + half (ur s).2)
        (transferKhr n S δ p (v t) k - 2 * σ k * (half (ur t).1 + half (ur t).2)) t := by
  intro ur
  have hTx : (ns3d n S δ none p noVzKz0 (v t) k).x = (force3 n S δ p (v t) k).x := by
    simp only [ns3d, if_pos hk, projectState, force3]; split <;> rfl
  have hTy : (ns3d n S δ none p noVzKz0 (v t) k).y = (force3 n S δ p (v t) k).y := by
    simp only [ns3d, if_pos hk, projectState, force3]; split <;> rfl
  have dx := hev.1 k hk
  have dy := hev.2.1 k hk
  have dz := hev.2.2 k hk
  simp only [hTx] at dx
  simp only [hTy] at dy
  have hns : ∀ z : ℂ, half z = (z.re * z.re + z.im * z.im) / 2 := by
    intro z; rw [half, ← Complex.normSq_eq_norm_sq, Complex.normSq_apply]
  refine ⟨?_, ?_, ?_⟩
  · refine ((half_deriv dx).fun_add (half_deriv dy)).congr_deriv ?_
    simp only [transferKh, innerProd, hns, Complex.mul_re, Complex.mul_im, Complex.sub_re,
      Complex.sub_im, Complex.conj_re, Complex.conj_im, Complex.ofReal_re, Complex.ofReal_im]
    ring
  · refine (half_deriv dz).congr_deriv ?_
    by_cases h0 : noVzKz0 ∧ |(wave3 δ k).z| = 0
    · have hz := fixed_vz (hproj k hk) h0
      simp [transferKz, innerProd, hz, half]
    · have hTz : (ns3d n S δ none p noVzKz0 (v t) k).z = (force3 n S δ p (v t) k).z := by
        simp only [ns3d, if_pos hk, projectState, force3, if_neg h0]
      simp only [hTz]
      simp only [transferKz, innerProd, hns, Complex.mul_re, Complex.mul_im, Complex.sub_re,
        Complex.sub_im, Complex.conj_re, Complex.conj_im, Complex.ofReal_re, Complex.ofReal_im]
      ring
  · set K := wave3 δ k
    set inv : ℝ := 1 / nozero (kh2 K) with hinv
    have du1 : HasDerivAt (fun s => (ur s).1)
        (((force3 n S δ p (v t) k).x - σ k * (v t k).x)
          - (K.x * ((force3 n S δ p (v t) k).x - σ k * (v t k).x)
            + K.y * ((force3 n S δ p (v t) k).y - σ k * (v t k).y)) * K.x * (inv : ℂ)) t :=
      dx.fun_sub ((((dx.const_mul (K.x : ℂ)).fun_add (dy.const_mul (K.y : ℂ))).mul_const _).mul_const _)
    have du2 : HasDerivAt (fun s => (ur s).2)
        (((force3 n S δ p (v t) k).y - σ k * (v t k).y)
          - (K.x * ((force3 n S δ p (v t) k).x - σ k * (v t k).x)
            + K.y * ((force3 n S δ p (v t) k).y - σ k * (v t k).y)) * K.y * (inv : ℂ)) t :=
      dy.fun_sub ((((dx.const_mul (K.x : ℂ)).fun_add (dy.const_mul (K.y : ℂ))).mul_const _).mul_const _)
    refine ((half_deriv du1).fun_add (half_deriv du2)).congr_deriv ?_
    -- the rotational part is orthogonal to the horizontal wavevector
    have horth : (K.x : ℂ) * (ur t).1 + K.y * (ur t).2 = 0 := by
      have h := (C29_urud K (v t k).x (v t k).y).2.2.1
      simp only [divh] at h
      have := mul_eq_zero.1 h
      exact this.resolve_left Complex.I_ne_zero
    have horth2 := congrArg (starRingEnd ℂ) horth
    simp only [map_add, map_mul, Complex.conj_ofReal, map_zero] at horth2
    have hnormc : ∀ z : ℂ, 2 * half z = ((starRingEnd ℂ) z * z).re := by
      intro z; rw [hns]
      simp only [Complex.mul_re, Complex.conj_re, Complex.conj_im]; ring
    -- `ur* · v = ur* · ur`
    have hpy : ((starRingEnd ℂ) (ur t).1 * (v t k).x + (starRingEnd ℂ) (ur t).2 * (v t k).y)
        = (starRingEnd ℂ) (ur t).1 * (ur t).1 + (starRingEnd ℂ) (ur t).2 * (ur t).2 := by
      have e1 : (v t k).x = (ur t).1 + (urud K (v t k).x (v t k).y).2.1 :=
        (C29_urud K (v t k).x (v t k).y).1.symm
      have e2 : (v t k).y = (ur t).2 + (urud K (v t k).x (v t k).y).2.2 :=
        (C29_urud K (v t k).x (v t k).y).2.1.symm
      have e3 : (urud K (v t k).x (v t k).y).2
          = ((K.x * (v t k).x + K.y * (v t k).y) * K.x * (inv : ℂ),
            (K.x * (v t k).x + K.y * (v t k).y) * K.y * (inv : ℂ)) := rfl
      rw [e3] at e1 e2
      have e1' : (v t k).x = (ur t).1 + (K.x * (v t k).x + K.y * (v t k).y) * K.x * (inv : ℂ) := e1
      have e2' : (v t k).y = (ur t).2 + (K.x * (v t k).x + K.y * (v t k).y) * K.y * (inv : ℂ) := e2
      linear_combination (starRingEnd ℂ) (ur t).1 * e1' + (starRingEnd ℂ) (ur t).2 * e2'
        + (K.x * (v t k).x + K.y * (v t k).y) * (inv : ℂ) * horth2
    have hσ : 2 * σ k * (half (ur t).1 + half (ur t).2)
        = ((σ k : ℂ) * ((starRingEnd ℂ) (ur t).1 * (ur t).1
          + (starRingEnd ℂ) (ur t).2 * (ur t).2)).re := by
      rw [Complex.re_ofReal_mul, Complex.add_re, ← hnormc, ← hnormc]; ring
    rw [hσ, ← hpy, transferKhr, innerProd, innerProd, ← Complex.add_re, ← Complex.add_re,
      ← Complex.sub_re]
    congr 1
    linear_combination (-(K.x * ((force3 n S δ p (v t) k).x - σ k * (v t k).x)
            + K.y * ((force3 n S δ p (v t) k).y - σ k * (v t k).y)) * (inv : ℂ)) * horth2

/-! ### ns3d.strat -/

/-- C58 (ns3d.strat): budgets of the kinetic and of the potential energy of a mode; the conversion has
opposite signs in the two equations. (Documented without the two last terms, see
`C58_hypo_violated`.) -/
theorem C58_ns3d_strat {n : Fin 3 → ℕ} (hn : ∀ d, 0 < n d) {S : Finset (Fin 3 → ℤ)}
    (hD : Distinct n S) (δ : Fin 3 → ℝ) (f : Option ℝ) {N : ℝ} (hN : N ≠ 0) (p : Projection)
    (noVzKz0 : Bool) {fd fdHypo : (Fin 3 → ℤ) → ℝ} {t : ℝ} {v : ℝ → (Fin 3 → ℤ) → V3}
    {b : ℝ → Fld (Fin 3)}
    (hproj : ∀ k ∈ S, projectState p noVzKz0 (wave3 δ k) ⟨v t k, some (b t k)⟩
      = ⟨v t k, some (b t k)⟩)
    (hv : EvolvesV S v (fun k => (ns3dStrat n S δ f N p noVzKz0 (v t) (b t) k).v)
      (fun k => fd k + fdHypo k) t)
    (hb : Evolves S b (fun k => (ns3dStrat n S δ f N p noVzKz0 (v t) (b t) k).b.getD 0)
      (fun k => fd k + fdHypo k) t) {k : Fin 3 → ℤ} (hk : k ∈ S) :
    HasDerivAt (fun s => energy3 (v s k))
        (transferKh n S δ p (v t) k + transferKz n S δ p (v t) k - convK2A (v t) (b t) k
          - (dissKh fd fdHypo (v t) k + dissKz fd fdHypo (v t) k)
          - 2 * fdHypo k * energy3 (v t k)) t ∧
      HasDerivAt (fun s => half (b s k) / N ^ 2)
        (transferA n S δ N (v t) (b t) k + convK2A (v t) (b t) k - dissA N fd fdHypo (b t) k
          - 2 * fdHypo k * (half (b t k) / N ^ 2)) t := by
  constructor
  · refine (energy3_deriv hv hk).congr_deriv ?_
    have h1 : (inner (ns3dStrat n S δ f N p noVzKz0 (v t) (b t) k).v (v t k)).re
        = (inner (lamb n S δ f (v t) k) (v t k)).re + (b t k * (starRingEnd ℂ) (v t k).z).re := by
      simp only [ns3dStrat, if_pos hk]
      rw [projectState_inner (hproj k hk), ← Complex.add_re]
      simp only [inner]
      congr 1; ring
    simp only [h1]
    rw [transferK_eq, force3, projector_inner (hproj k hk), coriolis_work hn hD δ f (v t) hk]
    simp only [dissKh, dissKz, energy3, half, convK2A, innerProd]
    rw [mul_comm ((starRingEnd ℂ) (v t k).z)]
    ring
  · refine ((half_deriv (hb k hk)).div_const (N ^ 2)).congr_deriv ?_
    have hns : ∀ z : ℂ, ‖z‖ ^ 2 = z.re * z.re + z.im * z.im := by
      intro z; rw [← Complex.normSq_eq_norm_sq, Complex.normSq_apply]
    have hN2 : ((N : ℂ) ^ 2) = ((N ^ 2 : ℝ) : ℂ) := by push_cast; rfl
    by_cases h0 : noVzKz0 ∧ |(wave3 δ k).z| = 0
    · have hb0 : b t k = 0 := (fixed_state (hproj k hk)).2 h0.1 h0.2
      simp [hb0, transferA, convK2A, innerProd, dissA, half]
    · have hT : (ns3dStrat n S δ f N p noVzKz0 (v t) (b t) k).b.getD 0
          = -divVb n S δ (v t) (b t) k - N ^ 2 * (v t k).z := by
        simp only [ns3dStrat, if_pos hk, projectState, if_neg h0, Option.getD_some]
      simp only [hT, hN2]
      simp only [transferA, convK2A, dissA, innerProd, half, hns, Complex.mul_re, Complex.mul_im,
        Complex.sub_re, Complex.sub_im, Complex.neg_re, Complex.neg_im, Complex.conj_re,
        Complex.conj_im, Complex.ofReal_re, Complex.ofReal_im]
      field_simp
      ring

/-- C58 (ns3d.strat): `transfer_A` sums to zero. -/
theorem C58_ns3d_strat_sum {n : Fin 3 → ℕ} (hn : ∀ d, 0 < n d) {S : Finset (Fin 3 → ℤ)}
    (hS : TriadExact n S) (δ : Fin 3 → ℝ) (N : ℝ) {v : (Fin 3 → ℤ) → V3}
    (hdiv : ∀ k ∈ S, kdot (wave3 δ k) (v k) = 0) {b : Fld (Fin 3)} (hb : RealOn S b) :
    ∑ k ∈ S, transferA n S δ N v b k = 0 := by
  have h := congrArg Complex.re (divVb_work hn hS δ hdiv hb)
  rw [Complex.re_sum] at h
  have e : ∀ k, transferA n S δ N v b k
      = -1 / N ^ 2 * (divVb n S δ v b k * (starRingEnd ℂ) (b k)).re := by
    intro k
    rw [transferA, innerProd, ← Complex.re_ofReal_mul]
    congr 1; ring
  simp only [e]
  rw [← mul_sum, h, Complex.zero_re, mul_zero]

/-! ### fluxes -/

/-- C58: the flux plotted for ns2d is what the bins from `i` on receive; for a conservative transfer it
is what the bins before `i` lose, and the first value is zero. -/
theorem C58_flux {D : Type*} (S : Finset (D → ℤ)) {w : (D → ℤ) → ℕ → ℝ} {deltak : ℝ}
    (hdk : deltak ≠ 0) {nb : ℕ} (hw : Shared S w nb) {q : (D → ℤ) → ℝ} {i : ℕ} (hi : i < nb) :
    (flux2 deltak (spectrum S w deltak nb q))[i]?
        = some (∑ k ∈ S, (∑ j ∈ Ico i nb, w k j) * q k) ∧
      (∑ k ∈ S, q k = 0 → (flux2 deltak (spectrum S w deltak nb q))[i]?
        = some (-∑ k ∈ S, (∑ j ∈ range i, w k j) * q k)) := by
  have hlen : (spectrum S w deltak nb q).length = nb := by simp [spectrum]
  have hsplit : ∀ k ∈ S, ∑ j ∈ range i, w k j + ∑ j ∈ Ico i nb, w k j = 1 := by
    intro k hk
    rw [sum_range_add_sum_Ico _ hi.le, hw k hk]
  have key : (flux2 deltak (spectrum S w deltak nb q))[i]?
      = some (∑ k ∈ S, (∑ j ∈ Ico i nb, w k j) * q k) := by
    set l := spectrum S w deltak nb q with hl
    have h1 : (cumsumInv l)[i]? = some (l.drop i).sum := by
      have hc : (cumsum l.reverse).length = nb := by
        rw [cumsum, cumsumFrom_length, List.length_reverse, hlen]
      rw [cumsumInv, List.getElem?_reverse (by rw [hc]; exact hi), hc,
        cumsum_get _ (by rw [List.length_reverse, hlen]; omega), List.take_reverse]
      rw [List.sum_reverse, hlen]
      congr 3; omega
    have h2 : (l.drop i).sum = ∑ j ∈ Ico i nb, (∑ k ∈ S, w k j * q k) / deltak := by
      have h3 := List.sum_take_add_sum_drop l i
      have h4 : (l.take i).sum = ∑ j ∈ range i, (∑ k ∈ S, w k j * q k) / deltak :=
        take_map_range _ hi.le
      have h5 : l.sum = ∑ j ∈ range nb, (∑ k ∈ S, w k j * q k) / deltak := sum_map_range _ _
      have h6 := sum_range_add_sum_Ico (fun j => (∑ k ∈ S, w k j * q k) / deltak) hi.le
      linarith
    rw [flux2, List.getElem?_map, h1, Option.map_some, h2]
    congr 1
    rw [← sum_div, div_mul_cancel₀ _ hdk, sum_comm]
    exact sum_congr rfl fun k _ => (sum_mul _ _ _).symm
  refine ⟨key, fun h0 => ?_⟩
  rw [key]
  congr 1
  have h7 : ∑ k ∈ S, (∑ j ∈ range i, w k j) * q k + ∑ k ∈ S, (∑ j ∈ Ico i nb, w k j) * q k = 0 := by
    rw [← sum_add_distrib, ← h0]
    refine sum_congr rfl fun k hk => ?_
    rw [← add_mul, hsplit k hk, one_mul]
  linarith

/-- C58: `hflux` and `zflux` of a transfer are what the bins up to `i` lose, those of the other
quantities what these bins contain. -/
theorem C58_flux_kzkh (S : Finset (Fin 3 → ℤ)) (w : (Fin 3 → ℤ) → ℕ → ℕ → ℝ) {deltakh deltakz : ℝ}
    (hh : deltakh ≠ 0) (hz : deltakz ≠ 0) (nkz nkh : ℕ) (q : (Fin 3 → ℤ) → ℝ) (isTransfer : Bool) :
    let spec := spectrumKzkh S w deltakh deltakz nkz nkh q
    let sgn : ℝ := if isTransfer then -1 else 1
    (∀ i < nkh, (hflux isTransfer deltakh deltakz nkh spec)[i]?
      = some (sgn * ∑ k ∈ S, (∑ h ∈ range (i + 1), ∑ z ∈ range nkz, w k z h) * q k)) ∧
    (∀ i < nkz, (zflux isTransfer deltakh deltakz spec)[i]?
      = some (sgn * ∑ k ∈ S, (∑ z ∈ range (i + 1), ∑ h ∈ range nkh, w k z h) * q k)) := by
  intro spec sgn
  have hcol : ∀ j < nkh, (spec.map fun l => l.getD j 0).sum
      = ∑ z ∈ range nkz, (∑ k ∈ S, w k z j * q k) / (deltakh * deltakz) := by
    intro j hj
    simp only [spec, spectrumKzkh, List.map_map]
    rw [sum_map_range]
    refine sum_congr rfl fun z _ => ?_
    simp [hj]
  have hsgn : ∀ x : ℝ, (if isTransfer = true then x * -1 else x) = sgn * x := by
    intro x; simp only [sgn]; split <;> ring
  have hif : ∀ (l : List ℝ) (i : ℕ) (x : ℝ), l[i]? = some x →
      (if isTransfer = true then l.map (· * -1) else l)[i]? = some (sgn * x) := by
    intro l i x h
    rw [← hsgn]
    split
    · rw [List.getElem?_map, h]; rfl
    · exact h
  constructor
  · intro i hi
    refine hif _ i _ ?_
    rw [List.getElem?_map, cumsum_get _ (by simpa using hi), Option.map_some, take_map_range _ hi]
    congr 1
    have e : ∀ j ∈ range (i + 1), deltakz * (spec.map fun l => l.getD j 0).sum
        = deltakz * ∑ z ∈ range nkz, (∑ k ∈ S, w k z j * q k) / (deltakh * deltakz) := by
      intro j hj
      rw [hcol j (lt_of_lt_of_le (mem_range.1 hj) hi)]
    rw [sum_congr rfl e, ← mul_sum]
    simp only [← sum_div]
    rw [← mul_assoc, mul_div_cancel₀ _ (mul_ne_zero hh hz)]
    simp only [sum_mul]
    rw [sum_comm (s := S)]
    refine sum_congr rfl fun h _ => ?_
    rw [sum_comm (s := S)]
  · intro i hi
    refine hif _ i _ ?_
    have hlen : (spec.map fun l => deltakh * l.sum).length = nkz := by simp [spec, spectrumKzkh]
    rw [List.getElem?_map, cumsum_get _ (by rw [hlen]; exact hi), Option.map_some]
    congr 1
    have e : (spec.map fun l => deltakh * l.sum) = (List.range nkz).map fun z =>
        deltakh * ∑ h ∈ range nkh, (∑ k ∈ S, w k z h * q k) / (deltakh * deltakz) := by
      simp only [spec, spectrumKzkh, List.map_map]
      refine List.map_congr_left fun z _ => ?_
      simp only [Function.comp_apply]
      rw [sum_map_range]
    rw [e, take_map_range _ hi, ← mul_sum]
    simp only [← sum_div]
    rw [← mul_assoc, mul_comm deltakz, mul_div_cancel₀ _ (mul_ne_zero hh hz)]
    simp only [sum_mul]
    rw [sum_comm (s := S)]
    refine sum_congr rfl fun h _ => ?_
    rw [sum_comm (s := S)]

/-- C58: the flux of a conservative transfer is zero at the last bin. -/
theorem C58_flux_last (S : Finset (Fin 3 → ℤ)) (w : (Fin 3 → ℤ) → ℕ → ℕ → ℝ) {deltakh deltakz : ℝ}
    (hh : deltakh ≠ 0) (hz : deltakz ≠ 0) {nkz nkh : ℕ} (hw : SharedKzkh S w (nkz + 1) (nkh + 1))
    {q : (Fin 3 → ℤ) → ℝ} (hq : ∑ k ∈ S, q k = 0) :
    let spec := spectrumKzkh S w deltakh deltakz (nkz + 1) (nkh + 1) q
    (hflux true deltakh deltakz (nkh + 1) spec)[nkh]? = some 0 ∧
      (zflux true deltakh deltakz spec)[nkz]? = some 0 := by
  intro spec
  have h := C58_flux_kzkh S w hh hz (nkz + 1) (nkh + 1) q true
  have e1 : ∑ k ∈ S, (∑ h ∈ range (nkh + 1), ∑ z ∈ range (nkz + 1), w k z h) * q k = 0 := by
    rw [← hq]
    refine sum_congr rfl fun k hk => ?_
    rw [sum_comm, hw k hk, one_mul]
  have e2 : ∑ k ∈ S, (∑ z ∈ range (nkz + 1), ∑ h ∈ range (nkh + 1), w k z h) * q k = 0 := by
    rw [← hq]
    refine sum_congr rfl fun k hk => ?_
    rw [hw k hk, one_mul]
  constructor
  · rw [h.1 nkh (Nat.lt_succ_self _), e1, mul_zero]
  · rw [h.2 nkz (Nat.lt_succ_self _), e2, mul_zero]

/-! ### rotation -/

/-- C58 (finding): with rotation, `transfer_Kh` and `transfer_Kz` do not separately close the budgets
of the horizontal and of the vertical kinetic energies: the pressure associated with the Coriolis force
is left out. Here a velocity with one mode for which the saved transfers are zero. -/
theorem C58_coriolis_violated :
    let S : Finset (Fin 3 → ℤ) := {![1, 0, 1], ![-1, 0, -1]}
    let v : (Fin 3 → ℤ) → V3 := fun _ => ⟨1, 1, -1⟩
    let n : Fin 3 → ℕ := fun _ => 4
    let δ : Fin 3 → ℝ := fun _ => 1
    let k : Fin 3 → ℤ := ![1, 0, 1]
    let T := ns3d n S δ (some 1) .none false v k
    NoAlias n S ∧ RealVecOn S v ∧ k ∈ S ∧
      (∀ k ∈ S, projectState .none false (wave3 δ k) ⟨v k, none⟩ = ⟨v k, none⟩) ∧
      transferKh n S δ .none v k = 0 ∧ transferKz n S δ .none v k = 0 ∧
      innerProd (v k).x T.x + innerProd (v k).y T.y = -1 / 2 ∧ innerProd (v k).z T.z = 1 / 2 := by
  intro S v n δ k T
  have hS : NoAlias n S := noAlias_of_small n S (by decide)
  have hn : ∀ d, 0 < n d := fun d => by simp [n]
  have hk : k ∈ S := by simp [S, k]
  have hneg : ∀ k ∈ S, -k ∈ S := by decide
  have hsum : ∀ p ∈ S, ∀ q ∈ S, p + q ≠ k := by decide
  have hadv : ∀ a, advect S δ (comp v) a k = 0 := by
    intro a
    simp only [advect]
    refine sum_eq_zero fun d _ => ?_
    simp only [exactProduct]
    refine sum_eq_zero fun p hp => sum_eq_zero fun q hq => ?_
    rw [if_neg (hsum p hp q hq)]
  have hwave : wave3 δ k = ⟨1, 0, 1⟩ := by simp [wave3, δ, k]
  have hF : force3 n S δ .none v k = zero := by
    obtain ⟨a, ha⟩ := lamb_eq hn hS δ none v hk
    have h0 : navierStokes S δ ((none : Option ℝ).getD 0) v k = zero := by
      simp [navierStokes, hadv, zero]
    rw [force3, ha, projector_linear, projector_grad, h0]
    have := projector_grad .none (wave3 δ k) 0
    simp only [mul_zero] at this
    have hz : (⟨0, 0, 0⟩ : V3) = zero := rfl
    rw [hz] at this
    rw [this]
    simp [add, zero]
  have hT : T = ⟨1 / 2, -1, -1 / 2⟩ := by
    have := C57_ns3d hn hS δ (some 1) .none false v hk
    simp only [T, this]
    simp only [navierStokes, hadv, hwave, v, projector, perpk, kradial, Option.getD_some]
    norm_num [nozero, k2, kh2]
  refine ⟨hS, ⟨?_, ?_, ?_⟩, hk, ?_, ?_, ?_, ?_, ?_⟩
  · intro k hk; exact ⟨hneg k hk, by simp [v]⟩
  · intro k hk; exact ⟨hneg k hk, by simp [v]⟩
  · intro k hk; exact ⟨hneg k hk, by simp [v]⟩
  · intro k hk
    have hw : wave3 δ k = ⟨1, 0, 1⟩ ∨ wave3 δ k = ⟨-1, 0, -1⟩ := by
      simp only [S, mem_insert, mem_singleton] at hk
      rcases hk with rfl | rfl
      · left; simp [wave3, δ]
      · right; simp [wave3, δ]
    rcases hw with h | h <;> rw [h] <;>
      simp [projectState, projector, perpk, kradial, v]
  · simp [transferKh, hF, innerProd, zero]
  · simp [transferKz, hF, innerProd, zero]
  · rw [hT]; norm_num [innerProd, v]
  · rw [hT]; norm_num [innerProd, v]

/-! ### the hypotheses can be met -/

/-- A vorticity field always has a velocity, so that the hypotheses on the velocities are met by
`ux2`, `uy2`. -/
theorem velocity_exists (S : Finset (Fin 2 → ℤ)) {δ : Fin 2 → ℝ} (hδ : ∀ d, δ d ≠ 0)
    (rot : Fld (Fin 2)) : Velocity2 S δ rot (ux2 δ rot) (uy2 δ rot) := by
  refine ⟨fun k _ => ?_, fun k _ h0 => ?_, ?_⟩
  · simp only [pd]
    rw [(vel_mode δ rot k).1, (vel_mode δ rot k).2]; ring
  · simp only [pd]
    rw [(vel_mode δ rot k).1, (vel_mode δ rot k).2, psi]
    have h := k2_ne hδ h0
    rw [Forcing.k2not0, if_neg h]
    have hq : (((δ 0 * k 0) ^ 2 + (δ 1 * k 1) ^ 2 : ℝ) : ℂ)
        * ((1 / ((δ 0 * k 0) ^ 2 + (δ 1 * k 1) ^ 2) : ℝ) : ℂ) = 1 := by
      rw [← Complex.ofReal_mul, mul_one_div_cancel h, Complex.ofReal_one]
    have hI : Complex.I ^ 2 = -1 := Complex.I_sq
    have hc : (((δ 0 * k 0) ^ 2 + (δ 1 * k 1) ^ 2 : ℝ) : ℂ)
        = ((δ 0 * k 0 : ℝ) : ℂ) ^ 2 + ((δ 1 * k 1 : ℝ) : ℂ) ^ 2 := by push_cast; rfl
    rw [hc] at hq
    set q := ((1 / ((δ 0 * k 0) ^ 2 + (δ 1 * k 1) ^ 2) : ℝ) : ℂ)
    set A := ((δ 0 * k 0 : ℝ) : ℂ)
    set B := ((δ 1 * k 1 : ℝ) : ℂ)
    linear_combination rot k * hq - (A ^ 2 + B ^ 2) * q * rot k * hI
  · rw [(vel_mode δ rot 0).1, (vel_mode δ rot 0).2]; simp

/-- Any field can evolve with any tendency. -/
theorem evolves_exists {D : Type*} (S : Finset (D → ℤ)) (a T : Fld D) (σ : (D → ℤ) → ℝ) :
    Evolves S (fun s k => a k + s * (T k - σ k * a k)) T σ 0 := by
  intro k _
  have h : HasDerivAt (fun s : ℝ => (s : ℂ)) 1 0 := Complex.ofRealCLM.hasDerivAt
  have := (h.mul_const (T k - σ k * a k)).const_add (a k)
  simpa using this

/-- A damped flow on the modes of the example of C37, with two velocity components. -/
example : ∃ v : ℝ → (Fin 3 → ℤ) → V3, v 0 = exV ∧ Distinct (fun _ => 4) exS ∧ RealVecOn exS (v 0) ∧
    (∀ k ∈ exS, projectState .none false (wave3 (fun _ => 1) k) ⟨v 0 k, none⟩ = ⟨v 0 k, none⟩) ∧
    EvolvesV exS v (ns3d (fun _ => 4) exS (fun _ => 1) (some 2) .none false (v 0)) (fun _ => 3) 0 := by
  set T := ns3d (fun _ => 4) exS (fun _ => 1) (some 2) .none false exV with hT
  refine ⟨fun s k => ⟨(exV k).x + s * ((T k).x - (3 : ℝ) * (exV k).x),
    (exV k).y + s * ((T k).y - (3 : ℝ) * (exV k).y),
    (exV k).z + s * ((T k).z - (3 : ℝ) * (exV k).z)⟩, ?_, ?_, ?_, ?_, ?_⟩
  · funext k; ext <;> simp
  · exact (C37_truncation _ _ (by decide)).2
  · have hneg : ∀ k ∈ exS, -k ∈ exS := by decide
    refine ⟨fun k hk => ⟨hneg k hk, ?_⟩, fun k hk => ⟨hneg k hk, ?_⟩, fun k hk => ⟨hneg k hk, ?_⟩⟩ <;>
      simp only [exV, Pi.neg_apply, neg_eq_zero, Complex.ofReal_zero, zero_mul, add_zero] <;>
      split <;> simp [Complex.conj_ofNat]
  · intro k hk
    have hd : kdot (wave3 (fun _ => 1) k) (exV k) = 0 := by
      have h : k = ![1, 0, 0] ∨ k = ![-1, 0, 0] ∨ k = ![0, 1, 0] ∨ k = ![0, -1, 0] := by
        simpa [exS] using hk
      rcases h with rfl | rfl | rfl | rfl <;> simp [kdot, wave3, exV]
    have e : (⟨(exV k).x + ((0 : ℝ) : ℂ) * ((T k).x - (3 : ℝ) * (exV k).x),
        (exV k).y + ((0 : ℝ) : ℂ) * ((T k).y - (3 : ℝ) * (exV k).y),
        (exV k).z + ((0 : ℝ) : ℂ) * ((T k).z - (3 : ℝ) * (exV k).z)⟩ : V3) = exV k := by
      ext <;> simp
    simp only [e]
    simp only [projectState, Bool.false_eq_true, false_and, if_false, projector, perpk, kradial]
    simp only [kdot] at hd
    congr 1
    ext <;> simp [hd]
  · have h0 : (fun k => (⟨(exV k).x + ((0 : ℝ) : ℂ) * ((T k).x - (3 : ℝ) * (exV k).x),
        (exV k).y + ((0 : ℝ) : ℂ) * ((T k).y - (3 : ℝ) * (exV k).y),
        (exV k).z + ((0 : ℝ) : ℂ) * ((T k).z - (3 : ℝ) * (exV k).z)⟩ : V3)) = exV := by
      funext k; ext <;> simp
    simp only [h0, ← hT]
    exact ⟨evolves_exists exS _ _ (fun _ => 3), evolves_exists exS _ _ (fun _ => 3),
      evolves_exists exS _ _ (fun _ => 3)⟩

/-- A flow of ns2d on a 4 x 4 grid, with its modes shared between two bins. -/
example :
    let S : Finset (Fin 2 → ℤ) := {![1, 0], ![-1, 0], ![0, 1], ![0, -1]}
    NoAlias (fun _ => 4) S ∧ RealOn S (fun _ => 1) ∧ Shared S (fun _ _ => 1 / 2) 2 ∧
      ∃ rot : ℝ → Fld (Fin 2), rot 0 = (fun _ => 1) ∧
        (∀ s, Velocity2 S (fun _ => 1) (rot s) (ux2 (fun _ => 1) (rot s)) (uy2 (fun _ => 1) (rot s))) ∧
        Evolves S rot (ns2d (fun _ => 4) S (fun _ => 1) 3 (rot 0)) (fun _ => 2) 0 := by
  intro S
  have hneg : ∀ k ∈ S, -k ∈ S := by decide
  refine ⟨noAlias_of_small _ _ (by decide), fun k hk => ⟨hneg k hk, by simp⟩, fun k _ => by norm_num [sum_range_succ], ?_⟩
  set T := ns2d (fun _ => 4) S (fun _ => 1) 3 (fun _ => 1) with hT
  refine ⟨fun s k => 1 + s * (T k - (2 : ℝ) * 1), by funext k; simp,
    fun s => velocity_exists S (fun _ => one_ne_zero) _, ?_⟩
  have h0 : (fun k => (1 : ℂ) + ((0 : ℝ) : ℂ) * (T k - (2 : ℝ) * 1)) = fun _ => 1 := by
    funext k; simp
  simp only [h0, ← hT]
  exact evolves_exists S (fun _ => 1) T (fun _ => 2)

end

end Verif.SpectBudget
