import Verif.EndToEnd.LemmasFields
import Verif.EndToEnd.SpecMore

/-! # Solutions which may exist only for a finite time, for C87 -/

set_option linter.unusedSectionVars false

namespace Verif.Convergence

open Set Metric

variable {E : Type*} [NormedAddCommGroup E] [NormedSpace ℝ E] [FiniteDimensional ℝ E]

/-- The equation whose field is cut off outside of a ball has a solution on any interval, in the image of the projection. -/
theorem cutoff_solution {F : E → E} (hF : ContDiff ℝ 1 F) (P : E →L[ℝ] E) (hPP : ∀ x, P (P x) = P x)
    (hP : ∀ x, P x = x → P (F x) = F x) {R : ℝ} (hR : 0 ≤ R) (x0 : E) (hx0 : P x0 = x0) {T : ℝ} (hT : 0 ≤ T) :
    ∃ (G : E → E) (s : ℝ → E), ContDiff ℝ 1 G ∧ (∀ x, P x = x → ‖x‖ ≤ R + 1 → G x = F x) ∧ s 0 = x0 ∧
      ∀ t ∈ Ioo (-1) (T + 1), HasDerivAt s (G (s t)) t ∧ P (s t) = s t := by
  have : CompleteSpace E := FiniteDimensional.complete ℝ E
  let φ : ContDiffBump (0 : E) := ⟨R + 1, R + 2, by linarith, by linarith⟩
  let G : E → E := fun x => φ x • P (F (P x))
  have hG : ContDiff ℝ 1 G := φ.contDiff.smul (P.contDiff.comp (hF.comp P.contDiff))
  have hGc : HasCompactSupport G := φ.hasCompactSupport.smul_right
  obtain ⟨K, hK⟩ := ContDiff.lipschitzWith_of_hasCompactSupport hGc hG one_ne_zero
  obtain ⟨M, hM⟩ := hGc.exists_bound_of_continuous hG.continuous
  have hGP : ∀ x, P (G x) = G x := fun x => by simp only [G, map_smul, hPP]
  have hGF : ∀ x, P x = x → ‖x‖ ≤ R + 1 → G x = F x := by
    intro x hx hn
    simp only [G]
    rw [φ.one_of_mem_closedBall (by simpa [φ] using hn), hx, hP x hx, one_smul]
  have h0 : (0 : ℝ) ∈ Icc (-1) (T + 1) := ⟨by norm_num, by linarith⟩
  have hPL : IsPicardLindelof (fun _ => G) (⟨0, h0⟩ : Icc (-1 : ℝ) (T + 1)) x0
      (Real.toNNReal ((max M 0) * (T + 1))) 0 (Real.toNNReal M) K := by
    refine ⟨fun t _ => hK.lipschitzOnWith, fun x _ => continuousOn_const, fun t _ x _ => ?_, ?_⟩
    · exact (hM x).trans (Real.le_coe_toNNReal M)
    · rw [Real.coe_toNNReal', Real.coe_toNNReal']
      simp only [sub_zero, zero_sub, neg_neg, NNReal.coe_zero]
      rw [max_eq_left (by linarith : (1 : ℝ) ≤ T + 1)]
      exact le_max_left _ _
  obtain ⟨s, hs0, hs⟩ := hPL.exists_eq_forall_mem_Icc_hasDerivWithinAt₀
  have hs0 : s 0 = x0 := hs0
  have hsc : ContinuousOn s (Icc (-1) (T + 1)) := fun t ht => (hs t ht).continuousWithinAt
  have hsd : ∀ t ∈ Ioo (-1) (T + 1), HasDerivAt s (G (s t)) t := fun t ht =>
    (hs t (Ioo_subset_Icc_self ht)).hasDerivAt (Icc_mem_nhds ht.1 ht.2)
  have hPs : ∀ t ∈ Icc (-1) (T + 1), P (s t) = s t := by
    have hcont : ContinuousOn (fun t => s t - P (s t)) (Icc (-1) (T + 1)) := hsc.sub (P.continuous.comp_continuousOn hsc)
    have hcst : ∀ a b, a ∈ Icc (-1) (T + 1) → b ∈ Icc (-1) (T + 1) → a ≤ b → s a - P (s a) = s b - P (s b) := by
      intro a b ha hb hab
      have := constant_of_has_deriv_right_zero (hcont.mono (Icc_subset_Icc ha.1 hb.2))
        (fun t (ht : t ∈ Ico a b) => ?_) b ⟨hab, le_rfl⟩
      · exact this.symm
      · have hmem : t ∈ Icc (-1) (T + 1) := ⟨ha.1.trans ht.1, ht.2.le.trans hb.2⟩
        have h1 := (hs t hmem).sub (P.hasFDerivAt.comp_hasDerivWithinAt t (hs t hmem))
        rw [hGP, sub_self] at h1
        exact (h1.mono_of_mem_nhdsWithin (Icc_mem_nhdsGE_of_mem ⟨hmem.1, ht.2.trans_le hb.2⟩))
    intro t ht
    have e0 : s 0 - P (s 0) = 0 := by rw [hs0, hx0, sub_self]
    have : s t - P (s t) = 0 := by
      rcases le_total 0 t with h | h
      · rw [← hcst 0 t h0 ht h, e0]
      · rw [hcst t 0 ht h0 h, e0]
    exact (sub_eq_zero.1 this).symm
  exact ⟨G, s, hG, hGF, hs0, fun t ht => ⟨hsd t ht, hPs t (Ioo_subset_Icc_self ht)⟩⟩

/-- There is a solution for a short time. -/
theorem local_solution {F : E → E} (hF : ContDiff ℝ 1 F) (P : E →L[ℝ] E) (hPP : ∀ x, P (P x) = P x)
    (hP : ∀ x, P x = x → P (F x) = F x) (x0 : E) (hx0 : P x0 = x0) :
    ∃ T > 0, ∃ s : ℝ → E, s 0 = x0 ∧ ∀ t ∈ Icc 0 T, HasDerivAt s (F (s t)) t ∧ P (s t) = s t := by
  obtain ⟨G, s, hG, hGF, hs0, hs⟩ := cutoff_solution hF P hPP hP (norm_nonneg x0) x0 hx0 (T := 0) le_rfl
  have hca : ContinuousAt s 0 := (hs 0 ⟨by norm_num, by norm_num⟩).1.continuousAt
  obtain ⟨ε, hε, hεs⟩ := Metric.eventually_nhds_iff.1 (hca.norm.eventually_lt_const (by rw [hs0]; linarith : ‖s 0‖ < ‖x0‖ + 1))
  refine ⟨min (ε / 2) (1 / 2), by positivity, s, hs0, fun t ht => ?_⟩
  have h1 : t < ε := by linarith [ht.2, min_le_left (ε / 2) (1 / 2)]
  have h2 : t < 1 := by linarith [ht.2, min_le_right (ε / 2) (1 / 2)]
  obtain ⟨hd, hp⟩ := hs t ⟨by linarith [ht.1], by linarith⟩
  refine ⟨?_, hp⟩
  rw [hGF _ hp (hεs (by rw [Real.dist_eq, sub_zero, abs_of_nonneg ht.1]; exact h1)).le] at hd
  exact hd

/-- A solution on `[0, T]` can be continued a little. -/
theorem extend_solution {F : E → E} (hF : ContDiff ℝ 1 F) {T : ℝ} (hT : 0 ≤ T) {s : ℝ → E}
    (hs : ∀ t ∈ Icc 0 T, HasDerivAt s (F (s t)) t) :
    ∃ s' : ℝ → E, (∀ t ∈ Icc 0 T, s' t = s t) ∧ ∃ δ > 0, ∀ t ∈ Ioo (-δ) (T + δ), HasDerivAt s' (F (s' t)) t := by
  have hsc : ContinuousOn s (Icc 0 T) := fun t ht => (hs t ht).continuousAt.continuousWithinAt
  obtain ⟨R0, hR0⟩ := (isCompact_Icc.image_of_continuousOn hsc).isBounded.subset_closedBall (0 : E)
  have hR : ∀ t ∈ Icc 0 T, ‖s t‖ ≤ max R0 0 := fun t ht =>
    (mem_closedBall_zero_iff.1 (hR0 (mem_image_of_mem s ht))).trans (le_max_left _ _)
  obtain ⟨G, s', hG, hGF, hs0, hs'⟩ := cutoff_solution hF (ContinuousLinearMap.id ℝ E) (fun _ => rfl) (fun _ _ => rfl)
    (le_max_right R0 0) (s 0) rfl hT
  have heq : ∀ t ∈ Icc 0 T, s' t = s t :=
    unique_solution hG (fun t ht => (hs' t ⟨by linarith [ht.1], by linarith [ht.2]⟩).1)
      (fun t ht => by rw [hGF _ rfl (by linarith [hR t ht])]; exact hs t ht) hs0
  have near : ∀ t0 ∈ Icc 0 T, ∃ ε > 0, ∀ t, |t - t0| < ε → ‖s' t‖ ≤ max R0 0 + 1 := by
    intro t0 ht0
    have hca : ContinuousAt s' t0 := (hs' t0 ⟨by linarith [ht0.1], by linarith [ht0.2]⟩).1.continuousAt
    obtain ⟨ε, hε, hεs⟩ := Metric.eventually_nhds_iff.1 (hca.norm.eventually_lt_const
      (by rw [heq t0 ht0]; linarith [hR t0 ht0] : ‖s' t0‖ < max R0 0 + 1))
    exact ⟨ε, hε, fun t ht => (hεs (by rwa [Real.dist_eq])).le⟩
  obtain ⟨ε1, hε1, h1⟩ := near 0 ⟨le_rfl, hT⟩
  obtain ⟨ε2, hε2, h2⟩ := near T ⟨hT, le_rfl⟩
  refine ⟨s', heq, min (min ε1 ε2) 1, by positivity, fun t ht => ?_⟩
  have m1 : min (min ε1 ε2) 1 ≤ ε1 := (min_le_left _ _).trans (min_le_left _ _)
  have m2 : min (min ε1 ε2) 1 ≤ ε2 := (min_le_left _ _).trans (min_le_right _ _)
  have m3 : min (min ε1 ε2) 1 ≤ 1 := min_le_right _ _
  have hn : ‖s' t‖ ≤ max R0 0 + 1 := by
    rcases lt_or_ge t 0 with h | h
    · exact h1 t (by rw [sub_zero, abs_of_neg h]; linarith [ht.1])
    · rcases lt_or_ge T t with h' | h'
      · exact h2 t (by rw [abs_of_pos (by linarith)]; linarith [ht.2])
      · rw [heq t ⟨h, h'⟩]
        linarith [hR t ⟨h, h'⟩]
  have := (hs' t ⟨by linarith [ht.1], by linarith [ht.2]⟩).1
  rwa [hGF _ rfl hn] at this

end Verif.Convergence

namespace Verif.EndToEnd

open Verif.Fourier Verif.Vectors Verif.Energy Verif.Galerkin Verif.Schemes Verif.Convergence Finset

noncomputable section

section

variable {D V : Type*} [Fintype D] [DecidableEq (D → ℤ)] [Fintype V]

/-- The simulations converge to any solution. -/
theorem converge_of_solution (S : Finset (D → ℤ)) {freq : V → Fld D} (hfreq : ∀ v k, 0 ≤ (freq v k).re)
    {tend : (V → Fld D) → V → Fld D}
    (hsmooth : ∀ (G : Finset (D → ℤ)) (m : ℕ) v k, ContDiff ℝ m fun a : Arr (V × G) => tend (fields G a) v k)
    (htend : ∀ u v k, k ∉ S → tend u v k = 0) {T : ℝ} (hT : 0 ≤ T) {u : ℝ → V → Fld D}
    (hm : ∀ t ∈ Set.Icc 0 T, ∀ v k, k ∉ S → u t v k = 0)
    (hu : ∀ t ∈ Set.Icc 0 T, ∀ v, ∀ k ∈ S, HasDerivAt (fun t => u t v k) (tend (u t) v k - freq v k * u t v k) t) :
    SimulationsConvergeFreq S freq tend T u := by
  have hNc : ∀ (G : Finset (D → ℤ)) (m : ℕ), ContDiff ℝ m (onArrays (V := V) G tend) := fun G m =>
    contDiff_pi.2 fun i => hsmooth G m i.1 i.2.1
  have hfa : ∀ t ∈ Set.Icc 0 T, fields S (array S (u t)) = u t := fun t ht => fields_array (Subset.refl S) (hm t ht)
  obtain ⟨s, heq, δ, hδ, hs⟩ := extend_solution (F := fun a : Arr (V × S) => onArrays S tend a - array S freq * a)
    ((hNc S 1).sub (contDiff_const.mul contDiff_id)) hT (s := fun t => array S (u t)) (fun t ht => by
      refine hasDerivAt_pi.2 fun i => (hu t ht i.1 i.2.1 i.2.2).congr_deriv ?_
      simp only [Pi.sub_apply, Pi.mul_apply, onArrays, hfa t ht]
      rfl)
  intro G hG c hc' ps pa pb heap g1 g2 cfl
  have hsol : Solution (onArrays G tend) (array G freq) (truncated G S) T fun t => array G (fields S (s t)) := by
    refine ⟨⟨δ, hδ, fun t ht => hasDerivAt_pi.2 fun i => ?_⟩, fun t _ i hi => ?_⟩
    · obtain ⟨v, k, hkG⟩ := i
      have e0 : fields G (array G (fields S (s t))) = fields S (s t) :=
        fields_array hG fun v k hk => by simp [fields, hk]
      by_cases hk : k ∈ S
      · have h1 := (hasDerivAt_pi.1 (hs t ht)) (v, ⟨k, hk⟩)
        have e1 : (fun t => array G (fields S (s t)) (v, ⟨k, hkG⟩)) = fun t => s t (v, ⟨k, hk⟩) := by
          funext t; simp [fields, array, hk]
        rw [e1]
        refine h1.congr_deriv ?_
        simp only [Pi.sub_apply, Pi.mul_apply, onArrays, e0]
        simp [array, fields, hk]
      · have e1 : (fun t => array G (fields S (s t)) (v, ⟨k, hkG⟩)) = fun _ => 0 := by
          funext t; simp [fields, array, hk]
        rw [e1]
        refine (hasDerivAt_const t (0 : ℂ)).congr_deriv ?_
        simp only [Pi.sub_apply, Pi.mul_apply, onArrays, e0]
        simp [array, fields, hk, htend _ v k hk]
    · have hk : i.2.1 ∉ S := by simpa [truncated] using hi
      simp [array, fields, hk]
  have hf : ∀ i : V × G, 0 ≤ (array G freq i).re := fun i => hfreq _ _
  have hconv : ConvergesWithOrder c.2 T (fun t => array G (fields S (s t))) cfl
      (states c.1 (onArrays G tend) (array G freq) (truncated G S) ps pa pb heap g1 g2 cfl (array G (fields S (s 0)))) := by
    simp only [orders, List.mem_cons, List.not_mem_nil, or_false] at hc'
    rcases hc' with rfl | rfl | rfl | rfl
    · exact C83_euler (hNc G 1) hf hsol ..
    · exact C83_rk2 (hNc G 2) hf hsol ..
    · exact C83_rk2_trapezoid (hNc G 2) hf hsol ..
    · exact C83_rk4 (hNc G 4) hf hsol ..
  have hback : ∀ t ∈ Set.Icc 0 T, fields S (s t) = u t := fun t ht => by rw [heq t ht, hfa t ht]
  obtain ⟨C, h0c, hpos, hC⟩ := hconv
  refine ⟨C, h0c, hpos, fun h dt hh hdt hcst k hk => ?_⟩
  have hmem : elapsed dt k ∈ Set.Icc 0 T := ⟨sum_nonneg fun j _ => (hdt j).1.le, hk⟩
  have := hC h dt hh hdt hcst k hk
  simp only [hback _ hmem, hback 0 ⟨le_rfl, hT⟩] at this
  exact this

/-- With the frequencies of the dissipation. -/
theorem converge_of_solution_diss (S : Finset (D → ℤ)) (δ : D → ℝ) {nu : Dissip.Nu} (hnu : Nu.Ok nu)
    {tend : (V → Fld D) → V → Fld D}
    (hsmooth : ∀ (G : Finset (D → ℤ)) (m : ℕ) v k, ContDiff ℝ m fun a : Arr (V × G) => tend (fields G a) v k)
    (htend : ∀ u v k, k ∉ S → tend u v k = 0) {T : ℝ} (hT : 0 ≤ T) {u : ℝ → V → Fld D}
    (hm : ∀ t ∈ Set.Icc 0 T, ∀ v k, k ∉ S → u t v k = 0)
    (hu : ∀ t ∈ Set.Icc 0 T, ∀ v, ∀ k ∈ S, HasDerivAt (fun t => u t v k) (tend (u t) v k - dissipation δ nu (u t v) k) t) :
    SimulationsConverge S δ nu tend T u :=
  converge_of_solution S (freq := fun _ k => (Dissip.fd nu (waveSq δ k) : ℂ))
    (fun _ k => by rw [Complex.ofReal_re]; exact fd_nonneg hnu (waveSq_nonneg δ k)) hsmooth htend hT hm
    fun t ht v k hk => (hu t ht v k hk).congr_deriv (by simp only [dissipation, fd_eq hnu, waveSq])

/-- There is a solution for a short time. -/
theorem local_flow (S : Finset (D → ℤ)) (δ : D → ℝ) {nu : Dissip.Nu} (hnu : Nu.Ok nu) {tend : (V → Fld D) → V → Fld D}
    (hsmooth : ∀ (G : Finset (D → ℤ)) (m : ℕ) v k, ContDiff ℝ m fun a : Arr (V × G) => tend (fields G a) v k)
    (Q : (V → Fld D) →ₗ[ℝ] (V → Fld D)) (hQS : ∀ u v k, k ∉ S → Q u v k = 0) (hQQ : ∀ u, Q (Q u) = Q u)
    (hQt : ∀ u, Q u = u → Q (tend u) = tend u)
    (hQf : ∀ u, Q u = u → Q (fun v k => (Dissip.fd nu (waveSq δ k) : ℂ) * u v k) = fun v k => (Dissip.fd nu (waveSq δ k) : ℂ) * u v k)
    {u0 : V → Fld D} (hu0 : Q u0 = u0) :
    ∃ T > 0, ∃ u : ℝ → V → Fld D, u 0 = u0 ∧ (∀ t ∈ Set.Icc 0 T, Q (u t) = u t) ∧
      ∀ t ∈ Set.Icc 0 T, ∀ v, ∀ k ∈ S, HasDerivAt (fun t => u t v k) (tend (u t) v k - dissipation δ nu (u t v) k) t := by
  have hmS : ∀ u, Q u = u → ∀ v k, k ∉ S → u v k = 0 := fun u hu v k hk => by rw [← hu]; exact hQS u v k hk
  have harr : ∀ a : Arr (V × S), array S (Q (fields S a)) = a → Q (fields S a) = fields S a := by
    intro a ha
    conv_rhs => rw [← ha]
    rw [fields_array (Subset.refl S) (hQS _)]
  obtain ⟨T, hT, s, hs0, hs⟩ := local_solution (F := fun a : Arr (V × S) => onArrays S tend a - freqDiss S δ nu * a)
    ((contDiff_pi.2 fun i => hsmooth S 1 i.1 i.2.1 : ContDiff ℝ 1 (onArrays (V := V) S tend)).sub (contDiff_const.mul contDiff_id))
    (LinearMap.toContinuousLinearMap (arrayL S ∘ₗ Q ∘ₗ fieldsL S))
    (fun a => by
      show array S (Q (fields S (array S (Q (fields S a))))) = array S (Q (fields S a))
      rw [fields_array (Subset.refl S) (hQS _), hQQ])
    (fun a ha => by
      have ha' := harr a ha
      rw [map_sub]
      congr 1
      · show array S (Q (fields S (array S (tend (fields S a))))) = array S (tend (fields S a))
        rw [fields_array (Subset.refl S) (fun v k hk => by rw [← hQt _ ha']; exact hQS _ v k hk), hQt _ ha']
      · have e : fields S (freqDiss S δ nu * a) = fun v k => (Dissip.fd nu (waveSq δ k) : ℂ) * fields S a v k := by
          funext v k
          by_cases hk : k ∈ S <;> simp [fields, hk, freqDiss]
        show array S (Q (fields S (freqDiss S δ nu * a))) = freqDiss S δ nu * a
        rw [e, hQf _ ha', ← e, array_fields])
    (array S u0) (by
      show array S (Q (fields S (array S u0))) = array S u0
      rw [fields_array (Subset.refl S) (hmS _ hu0), hu0])
  refine ⟨T, hT, fun t => fields S (s t), ?_, fun t ht => harr _ (hs t ht).2, fun t ht v k hk => ?_⟩
  · show fields S (s 0) = u0
    rw [hs0, fields_array (Subset.refl S) (hmS _ hu0)]
  · have h1 := (hasDerivAt_pi.1 (hs t ht).1) (v, ⟨k, hk⟩)
    have e1 : (fun t => fields S (s t) v k) = fun t => s t (v, ⟨k, hk⟩) := by
      funext t; simp [fields, hk]
    rw [e1]
    refine h1.congr_deriv ?_
    simp only [Pi.sub_apply, Pi.mul_apply, onArrays, array, freqDiss, dissipation, fd_eq hnu, waveSq]
    simp [fields, hk]

end

end

end Verif.EndToEnd
