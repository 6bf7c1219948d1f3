import Mathlib.Analysis.ODE.ExistUnique
import Mathlib.Analysis.Calculus.BumpFunction.FiniteDimension
import Mathlib.Analysis.Calculus.ContDiff.RCLike
import Mathlib.Analysis.Calculus.Deriv.MeanValue
import Mathlib.Analysis.SpecialFunctions.ExpDeriv

/-! # Solutions of differential equations with an energy

A smooth vector field on a finite-dimensional space, with a function `V` which does not grow faster than exponentially along the
solutions and whose sub-levels are bounded: the solutions are defined for all times. `P` is a projection whose image is kept by the
field (fields which are real, divergence free...): the energy is only considered there. -/

namespace Verif.Convergence

open Set Metric

variable {E : Type*} [NormedAddCommGroup E] [NormedSpace ℝ E] [FiniteDimensional ℝ E]

theorem exists_solution {F : E → E} (hF : ContDiff ℝ 1 F) (P : E →L[ℝ] E) (hPP : ∀ x, P (P x) = P x)
    (hP : ∀ x, P x = x → P (F x) = F x) {V : E → ℝ} (hV : Differentiable ℝ V) (hV0 : ∀ x, 0 ≤ V x)
    (hc : ∀ B, ∃ R, ∀ x, P x = x → V x ≤ B → ‖x‖ ≤ R) {c : ℝ} (hc0 : 0 ≤ c)
    (hdiss : ∀ x, P x = x → fderiv ℝ V x (F x) ≤ c * (1 + V x)) (x0 : E) (hx0 : P x0 = x0) {T : ℝ} (hT : 0 ≤ T) :
    ∃ s : ℝ → E, s 0 = x0 ∧ ∃ δ > 0, ∀ t ∈ Ioo (-δ) (T + δ), HasDerivAt s (F (s t)) t ∧ P (s t) = s t := by
  have : CompleteSpace E := FiniteDimensional.complete ℝ E
  obtain ⟨R0, hR0⟩ := hc ((1 + V x0) * Real.exp (c * (T + 1)) - 1)
  set R := max R0 0 with hRdef
  have hRpos : 0 ≤ R := le_max_right _ _
  have hR : ∀ x, P x = x → V x ≤ (1 + V x0) * Real.exp (c * (T + 1)) - 1 → ‖x‖ ≤ R := fun x hx h =>
    (hR0 x hx h).trans (le_max_left _ _)
  -- the field, cut off
  let φ : ContDiffBump (0 : E) := ⟨R + 1, R + 2, by linarith, by linarith⟩
  let G : E → E := fun x => φ x • P (F (P x))
  have hG : ContDiff ℝ 1 G := φ.contDiff.smul (P.contDiff.comp (hF.comp P.contDiff))
  have hGc : HasCompactSupport G := φ.hasCompactSupport.smul_right
  obtain ⟨K, hK⟩ := ContDiff.lipschitzWith_of_hasCompactSupport hGc hG one_ne_zero
  obtain ⟨M, hM⟩ := hGc.exists_bound_of_continuous hG.continuous
  have hGP : ∀ x, P (G x) = G x := fun x => by simp only [G, map_smul, hPP]
  have hGF : ∀ x, P x = x → ‖x‖ ≤ R + 1 → G x = F x := by
    intro x hx hn
    simp only [G]
    rw [φ.one_of_mem_closedBall (by simpa [φ] using hn), hx, hP x hx, one_smul]
  -- the solution
  have h0 : (0 : ℝ) ∈ Icc (-1) (T + 1) := ⟨by norm_num, by linarith⟩
  have hPL : IsPicardLindelof (fun _ => G) (⟨0, h0⟩ : Icc (-1 : ℝ) (T + 1)) x0
      (Real.toNNReal ((max M 0) * (T + 1))) 0 (Real.toNNReal M) K := by
    refine ⟨fun t _ => hK.lipschitzOnWith, fun x _ => continuousOn_const, fun t _ x _ => ?_, ?_⟩
    · exact (hM x).trans (Real.le_coe_toNNReal M)
    · rw [Real.coe_toNNReal', Real.coe_toNNReal']
      simp only [sub_zero, zero_sub, neg_neg, NNReal.coe_zero]
      rw [max_eq_left (by linarith : (1 : ℝ) ≤ T + 1)]
      exact le_max_left _ _
  obtain ⟨s, hs0, hs⟩ := hPL.exists_eq_forall_mem_Icc_hasDerivWithinAt₀
  have hs0 : s 0 = x0 := hs0
  have hsc : ContinuousOn s (Icc (-1) (T + 1)) := fun t ht => (hs t ht).continuousWithinAt
  have hsd : ∀ t ∈ Ioo (-1) (T + 1), HasDerivAt s (G (s t)) t := fun t ht =>
    (hs t (Ioo_subset_Icc_self ht)).hasDerivAt (Icc_mem_nhds ht.1 ht.2)
  -- it stays in the image of the projection
  have hPs : ∀ t ∈ Icc (-1) (T + 1), P (s t) = s t := by
    have hd : ∀ t ∈ Ioo (-1) (T + 1), HasDerivAt (fun t => s t - P (s t)) 0 t := by
      intro t ht
      have h1 := (hsd t ht).sub (P.hasFDerivAt.comp_hasDerivAt t (hsd t ht))
      rw [hGP, sub_self] at h1
      exact h1
    have hcont : ContinuousOn (fun t => s t - P (s t)) (Icc (-1) (T + 1)) := hsc.sub (P.continuous.comp_continuousOn hsc)
    have hcst : ∀ a b, a ∈ Icc (-1) (T + 1) → b ∈ Icc (-1) (T + 1) → a ≤ b → s a - P (s a) = s b - P (s b) := by
      intro a b ha hb hab
      have := constant_of_has_deriv_right_zero (hcont.mono (Icc_subset_Icc ha.1 hb.2))
        (fun t (ht : t ∈ Ico a b) => ?_) b ⟨hab, le_rfl⟩
      · exact this.symm
      · have hmem : t ∈ Icc (-1) (T + 1) := ⟨ha.1.trans ht.1, ht.2.le.trans hb.2⟩
        have h1 := (hs t hmem).sub (P.hasFDerivAt.comp_hasDerivWithinAt t (hs t hmem))
        rw [hGP, sub_self] at h1
        exact (h1.mono_of_mem_nhdsWithin (Icc_mem_nhdsGE_of_mem ⟨hmem.1, ht.2.trans_le hb.2⟩))
    intro t ht
    have e0 : s 0 - P (s 0) = 0 := by rw [hs0, hx0, sub_self]
    have : s t - P (s t) = 0 := by
      rcases le_total 0 t with h | h
      · rw [← hcst 0 t h0 ht h, e0]
      · rw [hcst t 0 ht h0 h, e0]
    exact (sub_eq_zero.1 this).symm
  -- it stays in the ball
  have hball : ∀ t ∈ Icc 0 (T + 1), ‖s t‖ ≤ R := by
    let g : ℝ → ℝ := fun t => (1 + V (s t)) * Real.exp (-(c * t))
    have hgd : ∀ t ∈ Ioo (-1) (T + 1), HasDerivAt g
        ((fderiv ℝ V (s t) (G (s t))) * Real.exp (-(c * t)) + (1 + V (s t)) * (Real.exp (-(c * t)) * (-(c * 1)))) t := by
      intro t ht
      have h1 : HasDerivAt (fun t => 1 + V (s t)) (fderiv ℝ V (s t) (G (s t))) t :=
        ((hV (s t)).hasFDerivAt.comp_hasDerivAt t (hsd t ht)).const_add 1
      have h2 : HasDerivAt (fun t => Real.exp (-(c * t))) (Real.exp (-(c * t)) * (-(c * 1))) t :=
        (((hasDerivAt_id t).const_mul c).neg).exp
      exact h1.mul h2
    have hanti : AntitoneOn g (Icc 0 (T + 1)) := by
      refine antitoneOn_of_deriv_nonpos (convex_Icc _ _) ?_ ?_ ?_
      · have hsc' := hsc.mono (Icc_subset_Icc_left (by norm_num : (-1 : ℝ) ≤ 0) : Icc 0 (T + 1) ⊆ Icc (-1) (T + 1))
        exact (continuousOn_const.add (hV.continuous.comp_continuousOn hsc')).mul
          (Real.continuous_exp.comp (continuous_const.mul continuous_id).neg).continuousOn
      · rw [interior_Icc]
        exact fun t ht => (hgd t ⟨by linarith [ht.1], ht.2⟩).differentiableAt.differentiableWithinAt
      · rw [interior_Icc]
        intro t ht
        have htm : t ∈ Ioo (-1) (T + 1) := ⟨by linarith [ht.1], ht.2⟩
        rw [(hgd t htm).deriv]
        have hp := hPs t (Ioo_subset_Icc_self htm)
        have hle : fderiv ℝ V (s t) (G (s t)) ≤ c * (1 + V (s t)) := by
          have hGe : G (s t) = φ (s t) • F (s t) := by simp only [G]; rw [hp, hP _ hp]
          rw [hGe, map_smul, smul_eq_mul]
          have h1 := mul_le_mul_of_nonneg_left (hdiss (s t) hp) φ.nonneg (a := φ (s t))
          refine h1.trans ?_
          exact mul_le_of_le_one_left (mul_nonneg hc0 (by linarith [hV0 (s t)])) φ.le_one
        have he := Real.exp_pos (-(c * t))
        nlinarith
    intro t ht
    refine hR _ (hPs t ⟨by linarith [ht.1], ht.2⟩) ?_
    have h1 := hanti ⟨le_rfl, by linarith⟩ ht ht.1
    simp only [g, hs0, mul_zero, neg_zero, Real.exp_zero, mul_one] at h1
    have h2 : (1 + V (s t)) ≤ (1 + V x0) * Real.exp (c * t) := by
      have := mul_le_mul_of_nonneg_right h1 (Real.exp_pos (c * t)).le
      rwa [mul_assoc, ← Real.exp_add, neg_add_cancel, Real.exp_zero, mul_one] at this
    have h3 : Real.exp (c * t) ≤ Real.exp (c * (T + 1)) := Real.exp_le_exp.2 (mul_le_mul_of_nonneg_left ht.2 hc0)
    have h4 := mul_le_mul_of_nonneg_left h3 (by linarith [hV0 x0] : 0 ≤ 1 + V x0)
    linarith
  -- a little before
  have hn0 : ‖s 0‖ < R + 1 := lt_of_le_of_lt (hball 0 ⟨le_rfl, by linarith⟩) (by linarith)
  have hca : ContinuousAt s 0 := (hsd 0 ⟨by norm_num, by linarith⟩).continuousAt
  obtain ⟨δ, hδ, hδs⟩ := Metric.eventually_nhds_iff.1 (hca.norm.eventually_lt_const hn0)
  refine ⟨s, hs0, min δ 1, lt_min hδ one_pos, fun t ht => ?_⟩
  have ht1 : t ∈ Ioo (-1) (T + 1) := ⟨by linarith [ht.1, min_le_right δ 1], by linarith [ht.2, min_le_right δ 1]⟩
  have hn : ‖s t‖ ≤ R + 1 := by
    rcases le_total 0 t with h | h
    · linarith [hball t ⟨h, ht1.2.le⟩]
    · refine (hδs ?_).le
      rw [Real.dist_eq, sub_zero, abs_of_nonpos h]
      linarith [ht.1, min_le_left δ 1]
  have hp := hPs t (Ioo_subset_Icc_self ht1)
  exact ⟨hGF _ hp hn ▸ hsd t ht1, hp⟩

/-- There is only one solution. -/
theorem unique_solution {F : E → E} (hF : ContDiff ℝ 1 F) {T : ℝ} {s s' : ℝ → E}
    (hs : ∀ t ∈ Icc 0 T, HasDerivAt s (F (s t)) t) (hs' : ∀ t ∈ Icc 0 T, HasDerivAt s' (F (s' t)) t) (h0 : s 0 = s' 0) :
    ∀ t ∈ Icc 0 T, s t = s' t := by
  have hsc : ContinuousOn s (Icc 0 T) := fun t ht => (hs t ht).continuousAt.continuousWithinAt
  have hsc' : ContinuousOn s' (Icc 0 T) := fun t ht => (hs' t ht).continuousAt.continuousWithinAt
  obtain ⟨R, hR⟩ := (isCompact_Icc.image_of_continuousOn hsc).isBounded.subset_closedBall (0 : E)
  obtain ⟨R', hR'⟩ := (isCompact_Icc.image_of_continuousOn hsc').isBounded.subset_closedBall (0 : E)
  have := FiniteDimensional.proper ℝ E
  obtain ⟨K, hK⟩ := (hF.contDiffOn (s := closedBall 0 (max R R'))).exists_lipschitzOnWith one_ne_zero
    (convex_closedBall _ _) (isCompact_closedBall _ _)
  refine ODE_solution_unique_of_mem_Icc_right (v := fun _ => F) (s := fun _ => closedBall 0 (max R R'))
    (fun t _ => hK) hsc (fun t ht => (hs t (Ico_subset_Icc_self ht)).hasDerivWithinAt) ?_ hsc'
    (fun t ht => (hs' t (Ico_subset_Icc_self ht)).hasDerivWithinAt) ?_ h0
  · exact fun t ht => closedBall_subset_closedBall (le_max_left _ _) (hR ⟨t, Ico_subset_Icc_self ht, rfl⟩)
  · exact fun t ht => closedBall_subset_closedBall (le_max_right _ _) (hR' ⟨t, Ico_subset_Icc_self ht, rfl⟩)

end Verif.Convergence
