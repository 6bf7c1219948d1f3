import Verif.EndToEnd.Spec
import Verif.Convergence.PropsOrder
import Verif.Convergence.Existence
import Verif.Convergence.Spec
import Mathlib.Analysis.InnerProductSpace.Calculus
import Mathlib.Analysis.Complex.Basic
import Mathlib.Analysis.Normed.Module.FiniteDimension

/-! # Existence of the solutions and smoothness of the tendencies, for C87 -/

set_option linter.unusedSectionVars false

namespace Verif.EndToEnd

open Verif.Fourier Verif.Vectors Verif.Energy Verif.Schemes Verif.Convergence Finset

noncomputable section

/-- The energy with weights. -/
def quad {ι : Type*} [Fintype ι] (w : ι → ℝ) (a : Arr ι) : ℝ := ∑ i, w i * ‖a i‖ ^ 2

theorem quad_hasFDerivAt {ι : Type*} [Fintype ι] (w : ι → ℝ) (a : Arr ι) : Differentiable ℝ (quad w) ∧
    ∀ h : Arr ι, fderiv ℝ (quad w) a h = 2 * ∑ i, w i * (h i * (starRingEnd ℂ) (a i)).re := by
  have key : ∀ a : Arr ι, HasFDerivAt (quad w)
      (∑ i, w i • ((2 : ℕ) • (innerSL ℝ (a i)).comp (ContinuousLinearMap.proj (R := ℝ) (φ := fun _ : ι => ℂ) i))) a := by
    intro a
    unfold quad
    refine HasFDerivAt.fun_sum fun i _ => ?_
    have h1 : HasFDerivAt (fun a : Arr ι => a i) (ContinuousLinearMap.proj (R := ℝ) (φ := fun _ : ι => ℂ) i) a :=
      hasFDerivAt_apply i a
    exact (h1.norm_sq).const_mul (w i)
  refine ⟨fun a => (key a).differentiableAt, fun h => ?_⟩
  rw [(key a).fderiv, _root_.sum_apply, mul_sum]
  refine sum_congr rfl fun i _ => ?_
  simp only [smul_apply, ContinuousLinearMap.comp_apply, ContinuousLinearMap.proj_apply,
    innerSL_apply_apply, Complex.inner, smul_eq_mul, nsmul_eq_mul]
  push_cast
  ring

/-- The equations of the truncated system have a solution for all times when the nonlinear terms keep the image of a projection and
do not increase an energy there. -/
theorem solution_exists {ι : Type*} [Fintype ι] {N : Arr ι → Arr ι} (hN : ContDiff ℝ 1 N) {f : Arr ι} (hf : ∀ i, 0 ≤ (f i).re)
    {mask : ι → Bool} (P : Arr ι →L[ℝ] Arr ι) (hPP : ∀ a, P (P a) = P a)
    (hP : ∀ a, P a = a → P (N a) = N a ∧ P (f * a) = f * a) (hm : ∀ a, P a = a → ∀ i, mask i = true → a i = 0)
    {w : ι → ℝ} (hw : ∀ i, 0 < w i) {c : ℝ} (hc0 : 0 ≤ c)
    (hE : ∀ a, P a = a → ∑ i, w i * (N a i * (starRingEnd ℂ) (a i)).re ≤ c * (1 + quad w a))
    (a0 : Arr ι) (ha0 : P a0 = a0) {T : ℝ} (hT : 0 ≤ T) :
    ∃ s, s 0 = a0 ∧ Solution N f mask T s ∧ ∀ t ∈ Set.Icc 0 T, P (s t) = s t := by
  have hV0 : ∀ a, 0 ≤ quad w a := fun a => sum_nonneg fun i _ => mul_nonneg (hw i).le (sq_nonneg _)
  obtain ⟨s, h0, δ, hδ, hs⟩ := exists_solution (F := fun a => N a - f * a) (P := P) (V := quad w) (c := 2 * c)
    (hN.sub (contDiff_const.mul contDiff_id)) hPP (fun a ha => by rw [map_sub, (hP a ha).1, (hP a ha).2])
    (quad_hasFDerivAt w 0).1 hV0 (fun B => by
      refine ⟨∑ i, (1 + B / w i), fun a _ hB => ?_⟩
      have hB0 : 0 ≤ B := (hV0 a).trans hB
      have hi : ∀ i, ‖a i‖ ≤ 1 + B / w i := by
        intro i
        have h1 : w i * ‖a i‖ ^ 2 ≤ B := (single_le_sum (f := fun i => w i * ‖a i‖ ^ 2)
          (fun j _ => mul_nonneg (hw j).le (sq_nonneg _)) (mem_univ i)).trans hB
        have h2 : ‖a i‖ ^ 2 ≤ B / w i := by rw [le_div_iff₀ (hw i)]; linarith
        nlinarith [sq_nonneg (‖a i‖ - 1)]
      refine (pi_norm_le_iff_of_nonneg (sum_nonneg fun i _ => by have := hw i; positivity)).2 fun i => (hi i).trans ?_
      exact single_le_sum (f := fun i => 1 + B / w i) (fun j _ => by have := hw j; positivity) (mem_univ i))
    (by linarith) (fun a ha => by
      rw [(quad_hasFDerivAt w a).2]
      have h1 : ∑ i, w i * ((N a - f * a) i * (starRingEnd ℂ) (a i)).re
          = ∑ i, w i * (N a i * (starRingEnd ℂ) (a i)).re - ∑ i, w i * ((f i).re * ‖a i‖ ^ 2) := by
        rw [← sum_sub_distrib]
        refine sum_congr rfl fun i _ => ?_
        rw [← mul_sub]
        congr 1
        rw [Pi.sub_apply, Pi.mul_apply, sub_mul, Complex.sub_re, mul_assoc, Complex.mul_conj, Complex.re_mul_ofReal,
          Complex.normSq_eq_norm_sq]
      have h2 : 0 ≤ ∑ i, w i * ((f i).re * ‖a i‖ ^ 2) :=
        sum_nonneg fun i _ => mul_nonneg (hw i).le (mul_nonneg (hf i) (sq_nonneg _))
      rw [h1]
      linarith [hE a ha]) a0 ha0 hT
  exact ⟨s, h0, ⟨⟨δ, hδ, fun t ht => (hs t ht).1⟩, fun t ht i hi => hm _ (hs t ⟨by linarith [ht.1], by linarith [ht.2]⟩).2 i hi⟩,
    fun t ht => (hs t ⟨by linarith [ht.1], by linarith [ht.2]⟩).2⟩

/-! ### From arrays to fields -/

section

variable {D V : Type*} [Fintype D] [DecidableEq (D → ℤ)] [Fintype V]

theorem fields_array {G S : Finset (D → ℤ)} (hSG : S ⊆ G) {u : V → Fld D} (hu : ∀ v k, k ∉ S → u v k = 0) :
    fields G (array G u) = u := by
  funext v k
  by_cases hk : k ∈ G
  · simp [fields, array, hk]
  · simp [fields, hk, hu v k fun h => hk (hSG h)]

theorem array_fields (G : Finset (D → ℤ)) (a : Arr (V × G)) : array G (fields G a) = a := by
  funext ⟨v, k, hk⟩
  simp [fields, array, hk]

/-- The fields of an array, as a linear map. -/
def fieldsL (G : Finset (D → ℤ)) : Arr (V × G) →ₗ[ℝ] (V → Fld D) where
  toFun := fields G
  map_add' a b := by
    funext v k
    by_cases hk : k ∈ G <;> simp [fields, hk]
  map_smul' c a := by
    funext v k
    by_cases hk : k ∈ G <;> simp [fields, hk]

def arrayL (G : Finset (D → ℤ)) : (V → Fld D) →ₗ[ℝ] Arr (V × G) where
  toFun := array G
  map_add' a b := rfl
  map_smul' c a := rfl

theorem sum_arrays {G S : Finset (D → ℤ)} (hSG : S ⊆ G) (g : V → (D → ℤ) → ℝ) (hg : ∀ v k, k ∉ S → g v k = 0) :
    ∑ i : V × G, g i.1 i.2.1 = ∑ v, ∑ k ∈ S, g v k := by
  rw [Fintype.sum_prod_type]
  refine sum_congr rfl fun v _ => ?_
  rw [sum_coe_sort G fun k => g v k]
  exact (sum_subset hSG fun k _ hk => hg v k hk).symm

theorem fd_eq {nu : Dissip.Nu} (h : Nu.Ok nu) (x : ℝ) : Dissip.fd nu x = nu.nu2 * x + nu.nu4 * x ^ 2 + nu.nu8 * x ^ 4 := by
  obtain ⟨h2, h4, h8, -⟩ := h
  have e2 : (if nu.nu2 > 0 then nu.nu2 * x else 0) = nu.nu2 * x := by
    split
    · rfl
    · rw [le_antisymm (not_lt.1 ‹_›) h2, zero_mul]
  simp only [Dissip.fd, e2]
  by_cases a : nu.nu4 > 0 <;> by_cases b : nu.nu8 > 0
  · simp only [a, b, if_true]; ring
  · simp only [a, b, if_true, if_false]; rw [le_antisymm (not_lt.1 b) h8]; ring
  · simp only [a, b, if_true, if_false]; rw [le_antisymm (not_lt.1 a) h4]; ring
  · simp only [a, b, if_false]; rw [le_antisymm (not_lt.1 a) h4, le_antisymm (not_lt.1 b) h8]; ring

theorem waveSq_nonneg (δ : D → ℝ) (k : D → ℤ) : 0 ≤ waveSq δ k := sum_nonneg fun d _ => sq_nonneg _

theorem fd_nonneg {nu : Dissip.Nu} (h : Nu.Ok nu) {x : ℝ} (hx : 0 ≤ x) : 0 ≤ Dissip.fd nu x := by
  rw [fd_eq h]
  obtain ⟨h2, h4, h8, -⟩ := h
  positivity

/-- The solution and its approximations, for a solver whose tendencies keep the image of the projection `Q` and do not increase an energy
there. -/
theorem end_to_end (S : Finset (D → ℤ)) (δ : D → ℝ) {nu : Dissip.Nu} (hnu : Nu.Ok nu) {tend : (V → Fld D) → V → Fld D}
    (hsmooth : ∀ (G : Finset (D → ℤ)) (m : ℕ) v k, ContDiff ℝ m fun a : Arr (V × G) => tend (fields G a) v k)
    (Q : (V → Fld D) →ₗ[ℝ] (V → Fld D)) (hQS : ∀ u v k, k ∉ S → Q u v k = 0) (hQQ : ∀ u, Q (Q u) = Q u)
    (hQt : ∀ u, Q u = u → Q (tend u) = tend u)
    (hQf : ∀ u, Q u = u → Q (fun v k => (Dissip.fd nu (waveSq δ k) : ℂ) * u v k) = fun v k => (Dissip.fd nu (waveSq δ k) : ℂ) * u v k)
    {w : V → (D → ℤ) → ℝ} (hw : ∀ v k, 0 < w v k) {c : ℝ} (hc : 0 ≤ c)
    (hE : ∀ u, Q u = u → ∑ v, ∑ k ∈ S, w v k * (tend u v k * (starRingEnd ℂ) (u v k)).re
      ≤ c * (1 + ∑ v, ∑ k ∈ S, w v k * ‖u v k‖ ^ 2))
    {u0 : V → Fld D} (hu0 : Q u0 = u0) {T : ℝ} (hT : 0 ≤ T) :
    ∃ u : ℝ → V → Fld D, u 0 = u0 ∧ (∀ t ∈ Set.Icc 0 T, Q (u t) = u t) ∧
      (∀ t ∈ Set.Icc 0 T, ∀ v k, HasDerivAt (fun t => u t v k) (tend (u t) v k - dissipation δ nu (u t v) k) t) ∧
      SimulationsConverge S δ nu tend T u := by
  -- the arrays of the kept modes are enough for the existence
  have hmS : ∀ u, Q u = u → ∀ v k, k ∉ S → u v k = 0 := fun u hu v k hk => by rw [← hu]; exact hQS u v k hk
  have harr : ∀ (G : Finset (D → ℤ)), S ⊆ G → ∀ a : Arr (V × G), array G (Q (fields G a)) = a → Q (fields G a) = fields G a := by
    intro G hG a ha
    conv_rhs => rw [← ha]
    rw [fields_array hG (hQS _)]
  have hex : ∀ (G : Finset (D → ℤ)), S ⊆ G → ∃ s : ℝ → Arr (V × G), s 0 = array G u0 ∧
      Solution (onArrays G tend) (freqDiss G δ nu) (truncated G S) T s ∧
      ∀ t ∈ Set.Icc 0 T, Q (fields G (s t)) = fields G (s t) := by
    intro G hG
    obtain ⟨s, h0, hs, hP⟩ := solution_exists (N := onArrays G tend) (f := freqDiss G δ nu) (mask := truncated G S)
      (contDiff_pi.2 fun i => hsmooth G 1 i.1 i.2.1)
      (fun i => by
        rw [freqDiss, Complex.ofReal_re]
        exact fd_nonneg hnu (waveSq_nonneg δ _))
      (LinearMap.toContinuousLinearMap (arrayL G ∘ₗ Q ∘ₗ fieldsL G))
      (fun a => by
        show array G (Q (fields G (array G (Q (fields G a))))) = array G (Q (fields G a))
        rw [fields_array hG (hQS _), hQQ])
      (fun a ha => by
        have ha' := harr G hG a ha
        constructor
        · show array G (Q (fields G (array G (tend (fields G a))))) = array G (tend (fields G a))
          rw [fields_array hG (fun v k hk => by rw [← hQt _ ha']; exact hQS _ v k hk), hQt _ ha']
        · have e : fields G (freqDiss G δ nu * a) = fun v k => (Dissip.fd nu (waveSq δ k) : ℂ) * fields G a v k := by
            funext v k
            by_cases hk : k ∈ G <;> simp [fields, hk, freqDiss]
          show array G (Q (fields G (freqDiss G δ nu * a))) = freqDiss G δ nu * a
          rw [e, hQf _ ha', ← e, array_fields])
      (fun a ha i hi => by
        have ha' := harr G hG a ha
        have := hmS _ ha' i.1 i.2.1 (by simpa [truncated] using hi)
        simpa [fields] using this)
      (w := fun i => w i.1 i.2.1) (fun i => hw _ _) hc
      (fun a ha => by
        have ha' := harr G hG a ha
        have h := hE _ ha'
        have hz := hmS _ ha'
        rw [← sum_arrays hG (fun v k => w v k * (tend (fields G a) v k * (starRingEnd ℂ) (fields G a v k)).re)
            (fun v k hk => by simp [hz v k hk]),
          ← sum_arrays hG (fun v k => w v k * ‖fields G a v k‖ ^ 2) (fun v k hk => by simp [hz v k hk])] at h
        have hfa : ∀ i : V × G, fields G a i.1 i.2.1 = a i := fun i => by simp [fields]
        simp only [hfa] at h
        exact h)
      (array G u0) (by
        show array G (Q (fields G (array G u0))) = array G u0
        rw [fields_array hG (hmS _ hu0), hu0]) hT
    exact ⟨s, h0, hs, fun t ht => harr G hG _ (hP t ht)⟩
  obtain ⟨s, h0, hs, hQ⟩ := hex S (Subset.refl S)
  have hder : ∀ t ∈ Set.Icc 0 T, ∀ v k, HasDerivAt (fun t => fields S (s t) v k)
      (tend (fields S (s t)) v k - dissipation δ nu (fields S (s t) v) k) t := by
    intro t ht v k
    by_cases hk : k ∈ S
    · obtain ⟨δ', hδ', hd⟩ := hs.deriv
      have h1 := (hasDerivAt_pi.1 (hd t ⟨by linarith [ht.1], by linarith [ht.2]⟩)) (v, ⟨k, hk⟩)
      have e1 : (fun t => fields S (s t) v k) = fun t => s t (v, ⟨k, hk⟩) := by
        funext t; simp [fields, hk]
      rw [e1]
      refine h1.congr_deriv ?_
      simp only [Pi.sub_apply, Pi.mul_apply, onArrays, array, freqDiss, dissipation, fd_eq hnu, waveSq]
      simp [fields, hk]
    · have e1 : (fun t => fields S (s t) v k) = fun _ => 0 := by
        funext t; simp [fields, hk]
      rw [e1]
      refine (hasDerivAt_const t (0 : ℂ)).congr_deriv ?_
      have h1 : tend (fields S (s t)) v k = 0 := by
        rw [← hQt _ (hQ t ht)]
        exact hQS _ v k hk
      simp [h1, dissipation, fields, hk]
  refine ⟨fun t => fields S (s t), ?_, hQ, hder, ?_⟩
  · show fields S (s 0) = u0
    rw [h0, fields_array (Subset.refl S) (hmS _ hu0)]
  · intro G hG c hc' ps pa pb heap g1 g2 cfl
    obtain ⟨s', h0', hs', hQ'⟩ := hex G hG
    -- the two solutions are the same
    have hNc : ∀ m : ℕ, ContDiff ℝ m (onArrays (V := V) G tend) := fun m => contDiff_pi.2 fun i => hsmooth G m i.1 i.2.1
    have heq : ∀ t ∈ Set.Icc 0 T, s' t = array G (fields S (s t)) := by
      refine unique_solution (F := fun a => onArrays G tend a - freqDiss G δ nu * a)
        ((hNc 1).sub (contDiff_const.mul contDiff_id)) ?_ ?_ ?_
      · intro t ht
        obtain ⟨δ', hδ', hd⟩ := hs'.deriv
        exact hd t ⟨by linarith [ht.1], by linarith [ht.2]⟩
      · intro t ht
        refine hasDerivAt_pi.2 fun i => ?_
        refine (hder t ht i.1 i.2.1).congr_deriv ?_
        simp only [Pi.sub_apply, Pi.mul_apply, onArrays, array, freqDiss, dissipation, fd_eq hnu, waveSq]
        rw [fields_array (u := fields S (s t)) hG fun v k hk => by simp [fields, hk]]
      · rw [h0', h0, fields_array (Subset.refl S) (hmS _ hu0)]
    have hconv : ConvergesWithOrder c.2 T s' cfl
        (states c.1 (onArrays G tend) (freqDiss G δ nu) (truncated G S) ps pa pb heap g1 g2 cfl (s' 0)) := by
      have hf : ∀ i : V × G, 0 ≤ (freqDiss G δ nu i).re := fun i => by
        rw [freqDiss, Complex.ofReal_re]
        exact fd_nonneg hnu (waveSq_nonneg δ _)
      simp only [orders, List.mem_cons, List.not_mem_nil, or_false] at hc'
      rcases hc' with rfl | rfl | rfl | rfl
      · exact C83_euler (hNc 1) hf hs' ..
      · exact C83_rk2 (hNc 2) hf hs' ..
      · exact C83_rk2_trapezoid (hNc 2) hf hs' ..
      · exact C83_rk4 (hNc 4) hf hs' ..
    obtain ⟨C, h0c, hpos, hC⟩ := hconv
    refine ⟨C, h0c, hpos, fun h dt hh hdt hcst k hk => ?_⟩
    have hmem : elapsed dt k ∈ Set.Icc 0 T := ⟨sum_nonneg fun j _ => (hdt j).1.le, hk⟩
    have := hC h dt hh hdt hcst k hk
    rw [heq _ hmem, heq 0 ⟨le_rfl, hT⟩] at this
    exact this

/-- Two solutions with the same initial state are equal. -/
theorem end_unique (S : Finset (D → ℤ)) (δ : D → ℝ) {nu : Dissip.Nu} {tend : (V → Fld D) → V → Fld D}
    (hsmooth : ∀ (G : Finset (D → ℤ)) (m : ℕ) v k, ContDiff ℝ m fun a : Arr (V × G) => tend (fields G a) v k)
    {T : ℝ} {u u' : ℝ → V → Fld D} (hm : ∀ t ∈ Set.Icc 0 T, ∀ v k, k ∉ S → u t v k = 0)
    (hm' : ∀ t ∈ Set.Icc 0 T, ∀ v k, k ∉ S → u' t v k = 0)
    (hu : ∀ t ∈ Set.Icc 0 T, ∀ v, ∀ k ∈ S, HasDerivAt (fun t => u t v k) (tend (u t) v k - dissipation δ nu (u t v) k) t)
    (hu' : ∀ t ∈ Set.Icc 0 T, ∀ v, ∀ k ∈ S, HasDerivAt (fun t => u' t v k) (tend (u' t) v k - dissipation δ nu (u' t v) k) t)
    (h0 : u 0 = u' 0) : ∀ t ∈ Set.Icc 0 T, u t = u' t := by
  have hF : ContDiff ℝ 1 fun (a : Arr (V × S)) (i : V × S) => tend (fields S a) i.1 i.2.1 - dissipation δ nu (fields S a i.1) i.2.1 := by
    refine contDiff_pi.2 fun i => (hsmooth S 1 i.1 i.2.1).sub ?_
    have : (fun a : Arr (V × S) => dissipation δ nu (fields S a i.1) i.2.1)
        = fun a => dissipation δ nu (fun _ => 1) i.2.1 * a i := by
      funext a
      simp [dissipation, fields]
    rw [this]
    exact contDiff_const.mul (contDiff_apply ℝ ℂ i)
  have key := unique_solution hF (T := T) (s := fun t => array S (u t)) (s' := fun t => array S (u' t)) ?_ ?_ (by simp only [h0])
  · intro t ht
    have := congrArg (fields S) (key t ht)
    rwa [fields_array (Subset.refl S) (hm t ht), fields_array (Subset.refl S) (hm' t ht)] at this
  · intro t ht
    refine hasDerivAt_pi.2 fun i => (hu t ht i.1 i.2.1 i.2.2).congr_deriv ?_
    rw [fields_array (Subset.refl S) (hm t ht)]
  · intro t ht
    refine hasDerivAt_pi.2 fun i => (hu' t ht i.1 i.2.1 i.2.2).congr_deriv ?_
    rw [fields_array (Subset.refl S) (hm' t ht)]

end

end

end Verif.EndToEnd
