import Verif.EndToEnd.SpecTime
import Verif.EndToEnd.LemmasProj
import Verif.Convergence.PropsForced

/-! # Existence of the solutions with a force which depends on the time, for C87 -/

set_option linter.unusedSectionVars false

namespace Verif.EndToEnd

open Verif.Fourier Verif.Vectors Verif.Energy Verif.Schemes Verif.Convergence Finset

noncomputable section

theorem quad_bounded {ι : Type*} [Fintype ι] {w : ι → ℝ} (hw : ∀ i, 0 < w i) (B : ℝ) : ∃ R, ∀ a : Arr ι, quad w a ≤ B → ‖a‖ ≤ R := by
  have hV0 : ∀ a, 0 ≤ quad w a := fun a => sum_nonneg fun i _ => mul_nonneg (hw i).le (sq_nonneg _)
  refine ⟨∑ i, (1 + B / w i), fun a hB => ?_⟩
  have hB0 : 0 ≤ B := (hV0 a).trans hB
  have hi : ∀ i, ‖a i‖ ≤ 1 + B / w i := by
    intro i
    have h1 : w i * ‖a i‖ ^ 2 ≤ B := (single_le_sum (f := fun i => w i * ‖a i‖ ^ 2)
      (fun j _ => mul_nonneg (hw j).le (sq_nonneg _)) (mem_univ i)).trans hB
    have h2 : ‖a i‖ ^ 2 ≤ B / w i := by rw [le_div_iff₀ (hw i)]; linarith
    nlinarith [sq_nonneg (‖a i‖ - 1)]
  refine (pi_norm_le_iff_of_nonneg (sum_nonneg fun i _ => by have := hw i; positivity)).2 fun i => (hi i).trans ?_
  exact single_le_sum (f := fun i => 1 + B / w i) (fun j _ => by have := hw j; positivity) (mem_univ i)

/-- The forced equations have a solution: the time is added to the variables. -/
theorem solution_exists_time {ι : Type*} [Fintype ι] {N : Arr ι → Arr ι} (hN : ContDiff ℝ 1 N) {F : ℝ → Arr ι} (hF : ContDiff ℝ 1 F)
    {f : Arr ι} (hf : ∀ i, 0 ≤ (f i).re)
    {mask : ι → Bool} (P : Arr ι →L[ℝ] Arr ι) (hPP : ∀ a, P (P a) = P a)
    (hP : ∀ a, P a = a → P (N a) = N a ∧ P (f * a) = f * a) (hPF : ∀ t, P (F t) = F t)
    (hm : ∀ a, P a = a → ∀ i, mask i = true → a i = 0)
    {w : ι → ℝ} (hw : ∀ i, 0 < w i) {c : ℝ} (hc0 : 0 ≤ c)
    (hE : ∀ a, P a = a → ∑ i, w i * (N a i * (starRingEnd ℂ) (a i)).re ≤ c * (1 + quad w a))
    (a0 : Arr ι) (ha0 : P a0 = a0) {T : ℝ} (hT : 0 ≤ T) :
    ∃ s, s 0 = a0 ∧ SolutionForced N (fun t _ => F t) f mask T s ∧ ∀ t ∈ Set.Icc 0 T, P (s t) = s t := by
  have hV0 : ∀ a, 0 ≤ quad w a := fun a => sum_nonneg fun i _ => mul_nonneg (hw i).le (sq_nonneg _)
  let φ : ContDiffBump (0 : ℝ) := ⟨T + 1, T + 2, by linarith, by linarith⟩
  let F' : ℝ → Arr ι := fun t => φ t • F t
  have hF' : ContDiff ℝ 1 F' := φ.contDiff.smul hF
  obtain ⟨M, hM⟩ := (φ.hasCompactSupport.smul_right (f' := F)).exists_bound_of_continuous hF'.continuous
  have hM : ∀ t, ‖F' t‖ ≤ M := hM
  have hM0 : 0 ≤ M := (norm_nonneg _).trans (hM 0)
  have hFF : ∀ t ∈ Set.Icc 0 T, F' t = F t := fun t ht => by
    simp only [F']
    rw [φ.one_of_mem_closedBall, one_smul]
    rw [Metric.mem_closedBall, Real.dist_eq, sub_zero, abs_of_nonneg ht.1]
    show t ≤ T + 1
    linarith [ht.2]
  let G : Arr ι × ℝ → Arr ι × ℝ := fun x => (N x.1 + F' x.2 - f * x.1, 1)
  let P' : Arr ι × ℝ →L[ℝ] Arr ι × ℝ := P.prodMap (ContinuousLinearMap.id ℝ ℝ)
  have hP' : ∀ x : Arr ι × ℝ, P' x = x ↔ P x.1 = x.1 := fun x => by
    rw [Prod.ext_iff]
    simp [P']
  let W : ℝ := ∑ i, w i
  have hW : 0 ≤ W := sum_nonneg fun i _ => (hw i).le
  obtain ⟨s, h0, δ, hδ, hs⟩ := exists_solution (F := G) (P := P') (V := fun x => quad w x.1 + x.2 ^ 2)
    (c := 2 * c + 2 * (W * M ^ 2 + 1) + 2)
    (by
      refine ContDiff.prodMk ?_ contDiff_const
      exact ((hN.comp contDiff_fst).add (hF'.comp contDiff_snd)).sub (contDiff_const.mul contDiff_fst))
    (fun x => by
      refine (hP' _).2 ?_
      simp [P', hPP])
    (fun x hx => by
      have hx := (hP' x).1 hx
      refine (hP' _).2 ?_
      simp only [G, F', map_sub, map_add, map_smul, (hP _ hx).1, (hP _ hx).2, hPF])
    (((quad_hasFDerivAt w 0).1.comp differentiable_fst).add (differentiable_snd.pow 2))
    (fun x => add_nonneg (hV0 _) (sq_nonneg _))
    (fun B => by
      obtain ⟨R, hR⟩ := quad_bounded hw B
      refine ⟨max R (1 + B), fun x _ hx => ?_⟩
      have h1 := hR x.1 (by linarith [sq_nonneg x.2])
      have h2 : x.2 ^ 2 ≤ B := by linarith [hV0 x.1]
      refine max_le_max h1 ?_
      rw [Real.norm_eq_abs]
      nlinarith [sq_abs x.2, sq_nonneg (|x.2| - 1)])
    (by positivity)
    (fun x hx => by
      have hx := (hP' x).1 hx
      have hd : fderiv ℝ (fun x : Arr ι × ℝ => quad w x.1 + x.2 ^ 2) x (G x) = fderiv ℝ (quad w) x.1 (G x).1 + 2 * x.2 * (G x).2 := by
        have h1 : HasFDerivAt (fun x : Arr ι × ℝ => quad w x.1) ((fderiv ℝ (quad w) x.1).comp (ContinuousLinearMap.fst ℝ (Arr ι) ℝ)) x :=
          ((quad_hasFDerivAt w x.1).1 x.1).hasFDerivAt.comp x hasFDerivAt_fst
        have h2 : HasFDerivAt (fun x : Arr ι × ℝ => x.2 ^ 2) _ x := (hasFDerivAt_snd (𝕜 := ℝ) (p := x)).pow 2
        have h3 : HasFDerivAt (fun x : Arr ι × ℝ => quad w x.1 + x.2 ^ 2) _ x := h1.add h2
        rw [h3.fderiv]
        simp
      rw [hd, (quad_hasFDerivAt w x.1).2]
      have h1 : ∑ i, w i * ((G x).1 i * (starRingEnd ℂ) (x.1 i)).re
          = ∑ i, w i * (N x.1 i * (starRingEnd ℂ) (x.1 i)).re + ∑ i, w i * (F' x.2 i * (starRingEnd ℂ) (x.1 i)).re
            - ∑ i, w i * ((f i).re * ‖x.1 i‖ ^ 2) := by
        rw [← sum_add_distrib, ← sum_sub_distrib]
        refine sum_congr rfl fun i _ => ?_
        rw [← mul_add, ← mul_sub]
        congr 1
        simp only [G]
        rw [Pi.sub_apply, Pi.add_apply, Pi.mul_apply, sub_mul, add_mul, Complex.sub_re, Complex.add_re, mul_assoc (f i),
          Complex.mul_conj, Complex.re_mul_ofReal, Complex.normSq_eq_norm_sq]
      have h2 : 0 ≤ ∑ i, w i * ((f i).re * ‖x.1 i‖ ^ 2) :=
        sum_nonneg fun i _ => mul_nonneg (hw i).le (mul_nonneg (hf i) (sq_nonneg _))
      have h3 : ∑ i, w i * (F' x.2 i * (starRingEnd ℂ) (x.1 i)).re ≤ W * M ^ 2 + quad w x.1 := by
        rw [quad, sum_mul, ← sum_add_distrib]
        refine sum_le_sum fun i _ => ?_
        rw [← mul_add]
        refine mul_le_mul_of_nonneg_left ?_ (hw i).le
        have h4 := Complex.re_le_norm (F' x.2 i * (starRingEnd ℂ) (x.1 i))
        rw [norm_mul, Complex.norm_conj] at h4
        have h5 := (norm_le_pi_norm (F' x.2) i).trans (hM x.2)
        nlinarith [sq_nonneg (‖F' x.2 i‖ - ‖x.1 i‖), norm_nonneg (F' x.2 i), norm_nonneg (x.1 i)]
      have h4 := hE x.1 hx
      have h5 := hV0 x.1
      have h6 : 0 ≤ W * M ^ 2 := by positivity
      rw [h1]
      simp only [G, mul_one]
      nlinarith [sq_nonneg (x.2 - 1), mul_nonneg h6 h5, mul_nonneg h6 (sq_nonneg x.2), mul_nonneg hc0 (sq_nonneg x.2)])
    (a0, 0) ((hP' _).2 ha0) hT
  have hsub : ∀ t ∈ Set.Icc 0 T, t ∈ Set.Ioo (-δ) (T + δ) := fun t ht => ⟨by linarith [ht.1], by linarith [ht.2]⟩
  have hder1 : ∀ t ∈ Set.Icc 0 T, HasDerivAt (fun t => (s t).1) (N (s t).1 + F' (s t).2 - f * (s t).1) t := fun t ht =>
    (ContinuousLinearMap.fst ℝ (Arr ι) ℝ).hasFDerivAt.comp_hasDerivAt t (hs t (hsub t ht)).1
  have hder2 : ∀ t ∈ Set.Icc 0 T, HasDerivAt (fun t => (s t).2) 1 t := fun t ht =>
    (ContinuousLinearMap.snd ℝ (Arr ι) ℝ).hasFDerivAt.comp_hasDerivAt t (hs t (hsub t ht)).1
  have htime : ∀ t ∈ Set.Icc 0 T, (s t).2 = t := by
    have hd : ∀ t ∈ Set.Icc 0 T, HasDerivAt (fun t => (s t).2 - t) 0 t := fun t ht =>
      ((hder2 t ht).sub (hasDerivAt_id t)).congr_deriv (sub_self 1)
    intro t ht
    have := constant_of_has_deriv_right_zero (f := fun t => (s t).2 - t) (a := 0) (b := T)
      (fun t ht => (hd t ht).continuousAt.continuousWithinAt) (fun t ht => (hd t ⟨ht.1, ht.2.le⟩).hasDerivWithinAt) t ht
    simp only [h0, sub_zero] at this
    linarith
  refine ⟨fun t => (s t).1, by simp only [h0], ⟨fun t ht => ?_, fun t ht i hi => ?_⟩, fun t ht => ?_⟩
  · have := hder1 t ht
    rw [htime t ht, hFF t ht] at this
    exact this
  · exact hm _ ((hP' _).1 (hs t (hsub t ht)).2) i hi
  · exact (hP' _).1 (hs t (hsub t ht)).2

section

variable {D V : Type*} [Fintype D] [DecidableEq (D → ℤ)] [Fintype V]

/-- The solution and its approximations with a force which depends on the time. -/
theorem end_to_end_time (S : Finset (D → ℤ)) (δ : D → ℝ) {nu : Dissip.Nu} (hnu : Nu.Ok nu) {tend : (V → Fld D) → V → Fld D}
    (hsmooth : ∀ (G : Finset (D → ℤ)) (m : ℕ) v k, ContDiff ℝ m fun a : Arr (V × G) => tend (fields G a) v k)
    (Q : (V → Fld D) →ₗ[ℝ] (V → Fld D)) (hQS : ∀ u v k, k ∉ S → Q u v k = 0) (hQQ : ∀ u, Q (Q u) = Q u)
    (hQt : ∀ u, Q u = u → Q (tend u) = tend u)
    (hQf : ∀ u, Q u = u → Q (fun v k => (Dissip.fd nu (waveSq δ k) : ℂ) * u v k) = fun v k => (Dissip.fd nu (waveSq δ k) : ℂ) * u v k)
    {w : V → (D → ℤ) → ℝ} (hw : ∀ v k, 0 < w v k) {c : ℝ} (hc : 0 ≤ c)
    (hE : ∀ u, Q u = u → ∑ v, ∑ k ∈ S, w v k * (tend u v k * (starRingEnd ℂ) (u v k)).re
      ≤ c * (1 + ∑ v, ∑ k ∈ S, w v k * ‖u v k‖ ^ 2))
    {F : ℝ → V → Fld D} (hF : ∀ v k, ContDiff ℝ 1 fun t => F t v k) (hQF : ∀ t, Q (F t) = F t)
    {u0 : V → Fld D} (hu0 : Q u0 = u0) {T : ℝ} (hT : 0 ≤ T) :
    ∃ u : ℝ → V → Fld D, u 0 = u0 ∧ (∀ t ∈ Set.Icc 0 T, Q (u t) = u t) ∧
      (∀ t ∈ Set.Icc 0 T, ∀ v k, HasDerivAt (fun t => u t v k) (tend (u t) v k + F t v k - dissipation δ nu (u t v) k) t) ∧
      SimulationsConvergeTime S δ nu tend F T u := by
  have hmS : ∀ u, Q u = u → ∀ v k, k ∉ S → u v k = 0 := fun u hu v k hk => by rw [← hu]; exact hQS u v k hk
  have harr : ∀ a : Arr (V × S), array S (Q (fields S a)) = a → Q (fields S a) = fields S a := by
    intro a ha
    conv_rhs => rw [← ha]
    rw [fields_array (Subset.refl S) (hQS _)]
  have hFG : ∀ G : Finset (D → ℤ), ContDiff ℝ 1 fun t => array G (F t) := fun G => contDiff_pi.2 fun i => hF i.1 i.2.1
  have hfre : ∀ (G : Finset (D → ℤ)) (i : V × G), 0 ≤ (freqDiss G δ nu i).re := fun G i => by
    rw [freqDiss, Complex.ofReal_re]
    exact fd_nonneg hnu (waveSq_nonneg δ _)
  have hG := Subset.refl S
  obtain ⟨s, h0, hs, hP⟩ := solution_exists_time (N := onArrays S tend) (F := fun t => array S (F t)) (f := freqDiss S δ nu)
      (mask := truncated S S) (contDiff_pi.2 fun i => hsmooth S 1 i.1 i.2.1) (hFG S) (hfre S)
      (LinearMap.toContinuousLinearMap (arrayL S ∘ₗ Q ∘ₗ fieldsL S))
      (fun a => by
        show array S (Q (fields S (array S (Q (fields S a))))) = array S (Q (fields S a))
        rw [fields_array hG (hQS _), hQQ])
      (fun a ha => by
        have ha' := harr a ha
        constructor
        · show array S (Q (fields S (array S (tend (fields S a))))) = array S (tend (fields S a))
          rw [fields_array hG (fun v k hk => by rw [← hQt _ ha']; exact hQS _ v k hk), hQt _ ha']
        · have e : fields S (freqDiss S δ nu * a) = fun v k => (Dissip.fd nu (waveSq δ k) : ℂ) * fields S a v k := by
            funext v k
            by_cases hk : k ∈ S <;> simp [fields, hk, freqDiss]
          show array S (Q (fields S (freqDiss S δ nu * a))) = freqDiss S δ nu * a
          rw [e, hQf _ ha', ← e, array_fields])
      (fun t => by
        show array S (Q (fields S (array S (F t)))) = array S (F t)
        rw [fields_array hG (hmS _ (hQF t)), hQF])
      (fun a ha i hi => by
        have ha' := harr a ha
        have := hmS _ ha' i.1 i.2.1 (by simpa [truncated] using hi)
        simpa [fields] using this)
      (w := fun i => w i.1 i.2.1) (fun i => hw _ _) hc
      (fun a ha => by
        have ha' := harr a ha
        have h := hE _ ha'
        have hz := hmS _ ha'
        rw [← sum_arrays hG (fun v k => w v k * (tend (fields S a) v k * (starRingEnd ℂ) (fields S a v k)).re)
            (fun v k hk => by simp [hz v k hk]),
          ← sum_arrays hG (fun v k => w v k * ‖fields S a v k‖ ^ 2) (fun v k hk => by simp [hz v k hk])] at h
        have hfa : ∀ i : V × S, fields S a i.1 i.2.1 = a i := fun i => by simp [fields]
        simp only [hfa] at h
        exact h)
      (array S u0) (by
        show array S (Q (fields S (array S u0))) = array S u0
        rw [fields_array hG (hmS _ hu0), hu0]) hT
  have hQ : ∀ t ∈ Set.Icc 0 T, Q (fields S (s t)) = fields S (s t) := fun t ht => harr _ (hP t ht)
  have hder : ∀ t ∈ Set.Icc 0 T, ∀ v k, HasDerivAt (fun t => fields S (s t) v k)
      (tend (fields S (s t)) v k + F t v k - dissipation δ nu (fields S (s t) v) k) t := by
    intro t ht v k
    by_cases hk : k ∈ S
    · have h1 := (hasDerivAt_pi.1 (hs.deriv t ht)) (v, ⟨k, hk⟩)
      have e1 : (fun t => fields S (s t) v k) = fun t => s t (v, ⟨k, hk⟩) := by
        funext t; simp [fields, hk]
      rw [e1]
      refine h1.congr_deriv ?_
      simp only [Pi.sub_apply, Pi.add_apply, Pi.mul_apply, onArrays, array, freqDiss, dissipation, fd_eq hnu, waveSq]
      simp [fields, hk]
    · have e1 : (fun t => fields S (s t) v k) = fun _ => 0 := by
        funext t; simp [fields, hk]
      rw [e1]
      refine (hasDerivAt_const t (0 : ℂ)).congr_deriv ?_
      have h1 : tend (fields S (s t)) v k = 0 := by
        rw [← hQt _ (hQ t ht)]
        exact hQS _ v k hk
      have h2 : F t v k = 0 := hmS _ (hQF t) v k hk
      simp [h1, h2, dissipation, fields, hk]
  refine ⟨fun t => fields S (s t), ?_, hQ, hder, ?_⟩
  · show fields S (s 0) = u0
    rw [h0, fields_array (Subset.refl S) (hmS _ hu0)]
  · intro G hSG sc hsc ps pa pb heap g1 g2 cfl
    have hout : ∀ t, ∀ v k, k ∉ S → fields S (s t) v k = 0 := fun t v k hk => by simp [fields, hk]
    refine C83_forced_partial (N := onArrays G tend) (F := fun t _ => array G (F t)) (f := freqDiss G δ nu) (mask := truncated G S)
      (s := fun t => array G (fields S (s t))) (contDiff_pi.2 fun i => hsmooth G 1 i.1 i.2.1) ?_ (hfre G) ⟨?_, ?_⟩ hsc ps pa pb heap g1 g2 cfl
    · intro R
      obtain ⟨K, hK⟩ := ((hFG G).contDiffOn (s := Set.Icc 0 T)).exists_lipschitzOnWith one_ne_zero (convex_Icc 0 T) isCompact_Icc
      refine ⟨K, fun t ht t' ht' x y _ _ => ?_⟩
      have := hK.norm_sub_le ht ht'
      rw [Real.norm_eq_abs] at this
      exact this.trans (mul_le_mul_of_nonneg_left (by linarith [norm_nonneg (x - y)]) K.2)
    · intro t ht
      refine hasDerivAt_pi.2 fun i => (hder t ht i.1 i.2.1).congr_deriv ?_
      simp only [Pi.sub_apply, Pi.add_apply, Pi.mul_apply, onArrays, array, freqDiss, dissipation, fd_eq hnu, waveSq]
      rw [fields_array (u := fields S (s t)) hSG (hout t)]
    · intro t ht i hi
      exact hout t i.1 i.2.1 (by simpa [truncated] using hi)

/-- Two solutions with the same initial state are equal. -/
theorem end_unique_time (S : Finset (D → ℤ)) (δ : D → ℝ) {nu : Dissip.Nu} {tend : (V → Fld D) → V → Fld D}
    (hsmooth : ∀ (G : Finset (D → ℤ)) (m : ℕ) v k, ContDiff ℝ m fun a : Arr (V × G) => tend (fields G a) v k)
    {F : ℝ → V → Fld D} (hF : ∀ v k, ContDiff ℝ 1 fun t => F t v k)
    {T : ℝ} {u u' : ℝ → V → Fld D} (hm : ∀ t ∈ Set.Icc 0 T, ∀ v k, k ∉ S → u t v k = 0)
    (hm' : ∀ t ∈ Set.Icc 0 T, ∀ v k, k ∉ S → u' t v k = 0)
    (hu : ∀ t ∈ Set.Icc 0 T, ∀ v, ∀ k ∈ S, HasDerivAt (fun t => u t v k) (tend (u t) v k + F t v k - dissipation δ nu (u t v) k) t)
    (hu' : ∀ t ∈ Set.Icc 0 T, ∀ v, ∀ k ∈ S,
      HasDerivAt (fun t => u' t v k) (tend (u' t) v k + F t v k - dissipation δ nu (u' t v) k) t)
    (h0 : u 0 = u' 0) : ∀ t ∈ Set.Icc 0 T, u t = u' t := by
  have hF' : ContDiff ℝ 1 fun x : Arr (V × S) × ℝ =>
      ((fun i : V × S => tend (fields S x.1) i.1 i.2.1 + F x.2 i.1 i.2.1 - dissipation δ nu (fields S x.1 i.1) i.2.1, 1) :
        Arr (V × S) × ℝ) := by
    refine ContDiff.prodMk (contDiff_pi.2 fun i => ?_) contDiff_const
    refine (((hsmooth S 1 i.1 i.2.1).comp contDiff_fst).add ((hF i.1 i.2.1).comp contDiff_snd)).sub ?_
    have : (fun x : Arr (V × S) × ℝ => dissipation δ nu (fields S x.1 i.1) i.2.1)
        = fun x => dissipation δ nu (fun _ => 1) i.2.1 * x.1 i := by
      funext x
      simp [dissipation, fields]
    rw [this]
    exact contDiff_const.mul ((contDiff_apply ℝ ℂ i).comp contDiff_fst)
  have key := unique_solution hF' (T := T) (s := fun t => (array S (u t), t)) (s' := fun t => (array S (u' t), t)) ?_ ?_
    (by simp only [h0])
  · intro t ht
    have := congrArg (fun x => fields S x.1) (key t ht)
    simp only at this
    rwa [fields_array (Subset.refl S) (hm t ht), fields_array (Subset.refl S) (hm' t ht)] at this
  · intro t ht
    refine HasDerivAt.prodMk (hasDerivAt_pi.2 fun i => (hu t ht i.1 i.2.1 i.2.2).congr_deriv ?_) (hasDerivAt_id t)
    rw [fields_array (Subset.refl S) (hm t ht)]
  · intro t ht
    refine HasDerivAt.prodMk (hasDerivAt_pi.2 fun i => (hu' t ht i.1 i.2.1 i.2.2).congr_deriv ?_) (hasDerivAt_id t)
    rw [fields_array (Subset.refl S) (hm' t ht)]

end

/-! ### Projection -/

theorem mem_orders {sc : Scheme} (h : sc ∈ plain) : ∃ c ∈ orders, c.1 = sc := by
  simp only [plain, List.mem_cons, List.not_mem_nil, or_false] at h
  rcases h with rfl | rfl | rfl | rfl <;> simp [orders]

theorem simulation3dForced_eq {ι : Type*} [Fintype ι] {W : Submodule ℝ (Arr ι)} {N : Arr ι → Arr ι} {f : Arr ι} {mask : ι → Bool}
    {project : Arr ι → Arr ι} {F : ℝ → Arr ι → Arr ι}
    (hN : ∀ a ∈ W, N a ∈ W) (hF : ∀ t a, F t a ∈ W) (hE : ∀ (τ : ℝ), ∀ a ∈ W, expLin f (τ : ℂ) * a ∈ W)
    (hm : ∀ a ∈ W, ∀ i, mask i = true → a i = 0)
    (hp : ∀ a ∈ W, project a = a) {sc : Scheme} (hsc : sc ∈ plain) (ps pa pb : ℕ → Arr ι) (heap : Heap ι) (g1 g2 : Arr ι) (cfl : Bool)
    {u0 : Arr ι} (hu0 : u0 ∈ W) (dt : ℕ → ℝ) (hdt : ∀ k, 0 < dt k) (hcst : cfl = false → ∀ k, dt k = dt 0) (k : ℕ) :
    simulation3dForced project sc N F f mask ps pa pb heap g1 g2 cfl u0 dt k
        = simulationForced sc N F f mask ps pa pb heap g1 g2 cfl u0 dt k ∧
      (simulationForced sc N F f mask ps pa pb heap g1 g2 cfl u0 dt k).heap .state ∈ W := by
  obtain ⟨c, hc, rfl⟩ := mem_orders hsc
  induction k with
  | zero =>
    refine ⟨rfl, ?_⟩
    simpa [simulationForced] using hu0
  | succ k ih =>
    obtain ⟨e, hs⟩ := ih
    have hco := simulation_coefs c.1 N f mask ps pa pb heap g1 g2 cfl u0 dt hdt hcst k
    rw [← forced_coefs_eq c.1 N F f mask ps pa pb heap g1 g2 cfl u0 dt k] at hco
    have hmem := rk_mem (N := fun x => N x + F (elapsed dt k) ((simulationForced c.1 N F f mask ps pa pb heap g1 g2 cfl u0 dt k).heap .state))
      (fun a ha => W.add_mem (hN a ha) (hF _ _)) (E := expLin f (dt k : ℂ)) (E2 := expLin f ((dt k / 2 : ℝ) : ℂ)) (hE _) (hE _) hc
      (dt k) (ps k) (pa k) (pb k) _ hs
    constructor
    · simp only [simulation3dForced, simulationForced, oneStep3d, Schemes.oneStep, e]
      congr 2
      rw [hco, hp _ hmem]
      funext b
      by_cases hb : b = .state
      · rw [hb, set_same]
      · rw [set_other _ _ _ _ hb]
    · simp only [simulationForced, Schemes.oneStep, Schemes.dealias, hco, set_same]
      convert hmem using 1
      funext i
      split_ifs with hi
      · exact (hm _ hmem i hi).symm
      · rfl

theorem converge3d_time {V : Type*} [Fintype V] {S : Finset (Fin 3 → ℤ)} {δ : Fin 3 → ℝ} {nu : Dissip.Nu}
    {tend : (V → Fld (Fin 3)) → V → Fld (Fin 3)} {F : ℝ → V → Fld (Fin 3)} {T : ℝ} {u : ℝ → V → Fld (Fin 3)}
    (hconv : SimulationsConvergeTime S δ nu tend F T u) (Q : (V → Fld (Fin 3)) →ₗ[ℝ] (V → Fld (Fin 3)))
    (hQS : ∀ u v k, k ∉ S → Q u v k = 0) (hQt : ∀ u, Q u = u → Q (tend u) = tend u) (hQF : ∀ t, Q (F t) = F t)
    (hQf : ∀ (g : (Fin 3 → ℤ) → ℝ), (∀ k, g (-k) = g k) → ∀ u, Q u = u → Q (fun v k => (g k : ℂ) * u v k) = fun v k => (g k : ℂ) * u v k)
    {project : (G : Finset (Fin 3 → ℤ)) → Arr (V × G) → Arr (V × G)}
    (hp : ∀ G : Finset (Fin 3 → ℤ), S ⊆ G → ∀ a, Q (fields G a) = fields G a → project G a = a) (hu0 : Q (u 0) = u 0) :
    SimulationsConvergeTime3d S δ nu project tend F T u := by
  intro G hG sc hsc ps pa pb heap g1 g2 cfl
  obtain ⟨C, h0c, hpos, hC⟩ := hconv G hG sc hsc ps pa pb heap g1 g2 cfl
  refine ⟨C, h0c, hpos, fun h dt hh hdt hcst k hk => ?_⟩
  let W : Submodule ℝ (Arr (V × G)) := LinearMap.eqLocus (Q ∘ₗ fieldsL G) (fieldsL G)
  have hW : ∀ a, a ∈ W ↔ Q (fields G a) = fields G a := fun a => Iff.rfl
  have hout : ∀ {u}, Q u = u → ∀ c k, k ∉ S → u c k = 0 := fun {u} hu c k hk => by rw [← hu]; exact hQS u c k hk
  have hWarr : ∀ {u}, Q u = u → array G u ∈ W := fun {u} hu => by
    rw [hW, fields_array hG (hout hu)]
    exact hu
  have key := simulation3dForced_eq (W := W) (N := onArrays G tend) (F := fun t _ => array G (F t)) (f := freqDiss G δ nu)
    (mask := truncated G S) (project := project G)
    (fun a ha => hWarr (hQt _ ((hW a).1 ha))) (fun t _ => hWarr (hQF t))
    (fun τ a ha => by
      have ha' := (hW a).1 ha
      have e : fields G (expLin (freqDiss G δ nu) (τ : ℂ) * a)
          = fun c k => (Real.exp (-τ * Dissip.fd nu (waveSq δ k)) : ℂ) * fields G a c k := by
        funext c k
        by_cases hk : k ∈ G
        · simp [fields, hk, expLin, freqDiss]
        · simp [fields, hk]
      rw [hW, e]
      refine hQf (fun k => Real.exp (-τ * Dissip.fd nu (waveSq δ k))) (fun k => ?_) _ ha'
      rw [waveSq_neg])
    (fun a ha i hi => by
      have := hout ((hW a).1 ha) i.1 i.2.1 (by simpa [truncated] using hi)
      simpa [fields] using this)
    (fun a ha => hp G hG a ((hW a).1 ha))
    hsc ps pa pb heap g1 g2 cfl (u0 := array G (u 0)) (hWarr hu0) dt (fun k => (hdt k).1) hcst k
  beta_reduce
  rw [key.1]
  exact hC h dt hh hdt hcst k hk

end

end Verif.EndToEnd
