import Verif.Convergence.LemmasScheme
import Mathlib.Algebra.BigOperators.Field

/-! Helper lemmas for C83: the error of one time step of RK4. -/

namespace Verif.Convergence

open Verif Schemes Set

set_option linter.unusedSectionVars false

/-! ### Taylor's formula -/

theorem taylor {E : Type*} [NormedAddCommGroup E] [NormedSpace ℝ E] {M h : ℝ} (m : ℕ) :
    ∀ v : ℕ → ℝ → E, (∀ j < m, ∀ t ∈ Icc 0 h, HasDerivAt (v j) (v (j + 1) t) t) → (∀ t ∈ Icc 0 h, ‖v m t‖ ≤ M) →
      ∀ t ∈ Icc 0 h, ‖v 0 t - ∑ j ∈ Finset.range m, (t ^ j / (j.factorial : ℝ)) • v j 0‖ ≤
        M / (m.factorial : ℝ) * t ^ m := by
  induction m with
  | zero => intro v _ hM t ht; simpa using hM t ht
  | succ m ih =>
    intro v hv hM t ht
    have hd : ∀ t ∈ Icc 0 h, HasDerivAt (fun t => v 0 t - ∑ j ∈ Finset.range (m + 1), (t ^ j / (j.factorial : ℝ)) • v j 0)
        (v 1 t - ∑ j ∈ Finset.range m, (t ^ j / (j.factorial : ℝ)) • v (j + 1) 0) t := by
      intro t ht
      have h1 := hv 0 (by omega) t ht
      have h2 : HasDerivAt (fun t => ∑ j ∈ Finset.range (m + 1), (t ^ j / (j.factorial : ℝ)) • v j 0)
          (∑ j ∈ Finset.range m, (t ^ j / (j.factorial : ℝ)) • v (j + 1) 0) t := by
        simp only [Finset.sum_range_succ' _ m, pow_zero]
        have h3 : HasDerivAt (fun t : ℝ => ∑ j ∈ Finset.range m, (t ^ (j + 1) / ((j + 1).factorial : ℝ)) • v (j + 1) 0)
            (∑ j ∈ Finset.range m, (t ^ j / (j.factorial : ℝ)) • v (j + 1) 0) t := by
          refine HasDerivAt.fun_sum fun j _ => ?_
          refine ((hasDerivAt_pow (j + 1) t).div_const _ |>.smul_const _).congr_deriv ?_
          congr 1
          rw [Nat.factorial_succ]
          have : (j : ℝ) + 1 ≠ 0 := by positivity
          have : (j.factorial : ℝ) ≠ 0 := by positivity
          push_cast
          field_simp
        exact h3.add_const _
      exact h1.sub h2
    have := norm_le_pow (C := M / (m.factorial : ℝ)) m hd (by
        rw [Finset.sum_range_succ']
        simp [Finset.sum_eq_zero]) (fun t ht => ih (fun j => v (j + 1)) (fun j hj t ht => hv (j + 1) (by omega) t ht) hM t ht)
      ht
    refine this.trans (le_of_eq ?_)
    rw [Nat.factorial_succ]
    push_cast
    have : (m : ℝ) + 1 ≠ 0 := by positivity
    have : (m.factorial : ℝ) ≠ 0 := by positivity
    field_simp

variable {ι : Type*} [Fintype ι]

/-- The solution and its successive derivatives in the frame of the linear term, and the derivative of the
tendencies. -/
structure Jet (N : Arr ι → Arr ι) (f : Arr ι) (T : ℝ) (s : ℝ → Arr ι) (G : ℕ → ℝ → Arr ι) (M K L R B : ℝ) : Prop where
  fre : ∀ i, 0 ≤ (f i).re
  g0 : G 0 = s
  g1 : G 1 = fun t => N (s t)
  deriv : ∀ j < 5, ∀ t ∈ Icc 0 T, HasDerivAt (G j) (G (j + 1) t - f * G j t) t
  bound : ∀ j ≤ 5, ∀ t ∈ Icc 0 T, ‖G j t‖ ≤ M
  Mpos : 0 ≤ M
  Kpos : 0 ≤ K
  Lpos : 0 ≤ L
  Bpos : 0 ≤ B
  sR : ∀ t ∈ Icc 0 T, ‖s t‖ ≤ R - 3
  lip : ∀ x y : Arr ι, ‖x‖ ≤ R → ‖y‖ ≤ R → ‖N x - N y‖ ≤ L * ‖x - y‖
  bdN : ∀ x : Arr ι, ‖x‖ ≤ R → ‖N x‖ ≤ B
  linear : ∀ x y : Arr ι, ‖x‖ ≤ R → ‖y‖ ≤ R → ‖N x - N y - fderiv ℝ N y (x - y)‖ ≤ K * ‖x - y‖ ^ 2
  dlip : ∀ x y : Arr ι, ‖x‖ ≤ R → ‖y‖ ≤ R → ‖fderiv ℝ N x - fderiv ℝ N y‖ ≤ K * ‖x - y‖
  dbd : ∀ x : Arr ι, ‖x‖ ≤ R → ‖fderiv ℝ N x‖ ≤ L

/-- The derivatives. -/
noncomputable def jet (N : Arr ι → Arr ι) (f : Arr ι) (s : ℝ → Arr ι) : ℕ → ℝ → Arr ι
  | 0 => s
  | 1 => fun t => N (s t)
  | j + 2 => twist f (jet N f s (j + 1))

theorem linearise {N : Arr ι → Arr ι} (hN : ContDiff ℝ 2 N) (R : ℝ) :
    ∃ K L B : ℝ, 0 ≤ K ∧ 0 ≤ L ∧ 0 ≤ B ∧
      (∀ x y : Arr ι, ‖x‖ ≤ R → ‖y‖ ≤ R → ‖N x - N y‖ ≤ L * ‖x - y‖) ∧
      (∀ x : Arr ι, ‖x‖ ≤ R → ‖N x‖ ≤ B) ∧
      (∀ x y : Arr ι, ‖x‖ ≤ R → ‖y‖ ≤ R → ‖N x - N y - fderiv ℝ N y (x - y)‖ ≤ K * ‖x - y‖ ^ 2) ∧
      (∀ x y : Arr ι, ‖x‖ ≤ R → ‖y‖ ≤ R → ‖fderiv ℝ N x - fderiv ℝ N y‖ ≤ K * ‖x - y‖) ∧
      (∀ x : Arr ι, ‖x‖ ≤ R → ‖fderiv ℝ N x‖ ≤ L) := by
  have hN1 : ContDiff ℝ 1 N := hN.of_le (by norm_num)
  have hc : IsCompact (Metric.closedBall (0 : Arr ι) R) := isCompact_closedBall 0 R
  obtain ⟨L1, B, hL1, hB, hlip, hbd⟩ := lipschitz hN1 R
  have hd1 : ContDiff ℝ 1 (fderiv ℝ N) := hN.fderiv_right (by norm_num)
  obtain ⟨L2, hL2⟩ := hc.exists_bound_of_continuousOn hd1.continuous.continuousOn
  obtain ⟨K, hK⟩ := hc.exists_bound_of_continuousOn (hd1.continuous_fderiv (by norm_num)).continuousOn
  have hdl : ∀ x y : Arr ι, ‖x‖ ≤ R → ‖y‖ ≤ R → ‖fderiv ℝ N x - fderiv ℝ N y‖ ≤ max K 0 * ‖x - y‖ := by
    intro x y hx hy
    exact (convex_closedBall (0 : Arr ι) R).norm_image_sub_le_of_norm_fderiv_le (𝕜 := ℝ) (f := fderiv ℝ N)
      (C := max K 0) (fun z _ => (hd1.differentiable (by norm_num)).differentiableAt)
      (fun z hz => (hK z hz).trans (le_max_left _ _)) (x := y) (y := x) (by simpa using hy) (by simpa using hx)
  refine ⟨max K 0, max L1 L2, B, le_max_right _ _, hL1.trans (le_max_left _ _), hB, fun x y hx hy =>
    (hlip x y hx hy).trans (mul_le_mul_of_nonneg_right (le_max_left _ _) (norm_nonneg _)), hbd, fun x y hx hy => ?_,
    hdl, fun x hx => (hL2 x (by simpa using hx)).trans (le_max_right _ _)⟩
  have hseg : segment ℝ y x ⊆ Metric.closedBall (0 : Arr ι) R :=
    (convex_closedBall (0 : Arr ι) R).segment_subset (by simpa using hy) (by simpa using hx)
  have := (convex_segment y x).norm_image_sub_le_of_norm_fderiv_le' (𝕜 := ℝ) (f := N) (φ := fderiv ℝ N y)
    (C := max K 0 * ‖x - y‖) (fun z _ => (hN1.differentiable (by norm_num)).differentiableAt)
    (fun z hz => by
      refine (hdl z y (by simpa using hseg hz) hy).trans ?_
      refine mul_le_mul_of_nonneg_left ?_ (le_max_right _ _)
      obtain ⟨a, b, ha, hb, hab, rfl⟩ := hz
      have e : a • y + b • x - y = b • (x - y) := by
        have : a = 1 - b := by linarith
        rw [this]; module
      rw [e, norm_smul, Real.norm_eq_abs, abs_of_nonneg hb]
      exact mul_le_of_le_one_left (norm_nonneg _) (by linarith))
    (left_mem_segment ℝ y x) (right_mem_segment ℝ y x)
  rw [sq, ← mul_assoc]
  exact this

theorem jet_of {N : Arr ι → Arr ι} {f : Arr ι} {mask : ι → Bool} {T : ℝ} {s : ℝ → Arr ι} (hs : Solution N f mask T s)
    (hf : ∀ i, 0 ≤ (f i).re) (hN : ContDiff ℝ 4 N) :
    ∃ M K L R B : ℝ, Jet N f T s (jet N f s) M K L R B := by
  obtain ⟨δ, hδ, hd⟩ := hs.deriv
  have hU : IsOpen (Ioo (-δ) (T + δ)) := isOpen_Ioo
  have hsub : Icc 0 T ⊆ Ioo (-δ) (T + δ) := fun t ht => ⟨by linarith [ht.1], by linarith [ht.2]⟩
  have hs5 := smooth hU hd 4 hN
  have hsm : ∀ j, j ≤ 4 → ContDiffOn ℝ ((4 - j : ℕ) : ℕ) (jet N f s (j + 1)) (Ioo (-δ) (T + δ)) := by
    intro j
    induction j with
    | zero => intro _; exact hN.comp_contDiffOn (hs5.of_le (by norm_num))
    | succ j ih =>
      intro hj
      have := ih (by omega)
      rw [show 4 - j = (4 - (j + 1)) + 1 by omega] at this
      exact (twist_smooth (f := f) hU _ this).1
  have hder : ∀ j < 5, ∀ t ∈ Icc 0 T, HasDerivAt (jet N f s j) (jet N f s (j + 1) t - f * jet N f s j t) t := by
    intro j hj t ht
    rcases j with _ | j
    · exact hd t (hsub ht)
    · have := hsm j (by omega)
      rw [show 4 - j = (4 - j - 1) + 1 by omega] at this
      exact (twist_smooth (f := f) hU _ this).2 t (hsub ht)
  have hcont : ∀ j ≤ 5, ContinuousOn (jet N f s j) (Icc 0 T) := by
    intro j hj
    rcases j with _ | j
    · exact hs5.continuousOn.mono hsub
    · exact (hsm j (by omega)).continuousOn.mono hsub
  have hb : ∀ m ≤ 5, ∃ M, 0 ≤ M ∧ ∀ j ≤ m, ∀ t ∈ Icc 0 T, ‖jet N f s j t‖ ≤ M := by
    intro m
    induction m with
    | zero =>
      intro _
      obtain ⟨M, h0, hM⟩ := bounded (hcont 0 (by omega))
      exact ⟨M, h0, fun j hj t ht => by rw [Nat.le_zero.1 hj]; exact hM t ht⟩
    | succ m ih =>
      intro hm
      obtain ⟨M, h0, hM⟩ := ih (by omega)
      obtain ⟨M', h0', hM'⟩ := bounded (hcont (m + 1) hm)
      refine ⟨max M M', h0.trans (le_max_left _ _), fun j hj t ht => ?_⟩
      rcases Nat.lt_or_ge m j with h | h
      · rw [show j = m + 1 by omega]; exact (hM' t ht).trans (le_max_right _ _)
      · exact (hM j h t ht).trans (le_max_left _ _)
  obtain ⟨M, hM0, hM⟩ := hb 5 le_rfl
  obtain ⟨K, L, B, hK, hL, hB, a, b, c, d, e⟩ := linearise (hN.of_le (by norm_num)) (M + 3)
  exact ⟨M, K, L, M + 3, B, hf, rfl, rfl, hder, hM, hM0, hK, hL, hB,
    fun t ht => by have := hM 0 (by omega) t ht; simp only [jet] at this; linarith, a, b, c, d, e⟩

section

variable {N : Arr ι → Arr ι} {f : Arr ι} {T : ℝ} {s : ℝ → Arr ι} {G : ℕ → ℝ → Arr ι} {M K L R B : ℝ}

/-- Forward expansion. -/
theorem forward (J : Jet N f T s G M K L R B) (j m : ℕ) (hjm : j + m ≤ 5) {t H : ℝ} (ht : 0 ≤ t) (hH : 0 ≤ H)
    (hT : t + H ≤ T) :
    ‖G j (t + H) - ∑ i ∈ Finset.range m, (H ^ i / (i.factorial : ℝ)) • (expLin f (H : ℂ) * G (j + i) t)‖ ≤ M * H ^ m := by
  have := taylor (M := M) (h := H) m (fun i τ => expLin f ((H - τ : ℝ) : ℂ) * G (j + i) (t + τ))
    (fun i hi τ hτ => frame (J.deriv (j + i) (by omega) _ (shift_mem ht hT hτ)))
    (fun τ hτ => (norm_expLin_mul_le J.fre (by linarith [hτ.2]) _).trans (J.bound (j + m) hjm _ (shift_mem ht hT hτ)))
    H ⟨hH, le_rfl⟩
  simp only [sub_self, expLin_zero', one_mul, sub_zero, add_zero] at this
  refine this.trans (mul_le_mul_of_nonneg_right (div_le_self J.Mpos ?_) (by positivity))
  exact_mod_cast Nat.succ_le_of_lt m.factorial_pos

theorem hasDerivAt_expLin' (f : Arr ι) (t : ℝ) :
    HasDerivAt (fun τ : ℝ => expLin f (τ : ℂ)) (-(f * expLin f (t : ℂ))) t := by
  have h1 := hasDerivAt_expLin f 0 (-t)
  have := h1.scomp t ((hasDerivAt_id t).neg)
  simp only [zero_sub, neg_neg] at this
  refine (this.congr_deriv (by simp)).congr_of_eventuallyEq ?_
  refine Filter.Eventually.of_forall fun τ => ?_
  simp [Function.comp]

/-- Backward expansion. -/
theorem backward (J : Jet N f T s G M K L R B) (j m : ℕ) (hjm : j + m ≤ 5) {t H : ℝ} (ht : 0 ≤ t) (hH : 0 ≤ H)
    (hT : t + H ≤ T) :
    ‖expLin f (H : ℂ) * G j t - ∑ i ∈ Finset.range m, ((-H) ^ i / (i.factorial : ℝ)) • G (j + i) (t + H)‖
      ≤ M * H ^ m := by
  have hmem : ∀ τ ∈ Icc 0 H, t + H - τ ∈ Icc 0 T := fun τ hτ => ⟨by linarith [hτ.2], by linarith [hτ.1]⟩
  have := taylor (M := M) (h := H) m
    (fun i τ => (-1 : ℝ) ^ i • (expLin f (τ : ℂ) * G (j + i) (t + H - τ)))
    (fun i hi τ hτ => by
      have h1 := J.deriv (j + i) (by omega) _ (hmem τ hτ)
      have h2 : HasDerivAt (fun τ => G (j + i) (t + H - τ))
          (-(G (j + i + 1) (t + H - τ) - f * G (j + i) (t + H - τ))) τ := by
        have := h1.scomp τ ((hasDerivAt_id τ).const_sub (t + H))
        exact this.congr_deriv (by simp)
      refine (((hasDerivAt_expLin' f τ).mul h2).const_smul ((-1 : ℝ) ^ i)).congr_deriv ?_
      rw [pow_succ, mul_smul, ← add_assoc]
      congr 1
      rw [neg_one_smul]
      ring)
    (fun τ hτ => by
      rw [norm_smul, norm_pow, norm_neg, norm_one, one_pow, one_mul]
      exact (norm_expLin_mul_le J.fre hτ.1 _).trans (J.bound (j + m) hjm _ (hmem τ hτ)))
    H ⟨hH, le_rfl⟩
  simp only [expLin_zero', one_mul, sub_zero, add_zero, pow_zero, one_smul, smul_smul] at this
  have e : ∀ i, H ^ i / (i.factorial : ℝ) * (-1) ^ i = (-H) ^ i / (i.factorial : ℝ) := fun i => by
    rw [neg_pow H i]; ring
  simp only [e, add_sub_cancel_right] at this
  refine this.trans (mul_le_mul_of_nonneg_right (div_le_self J.Mpos ?_) (by positivity))
  exact_mod_cast Nat.succ_le_of_lt m.factorial_pos

/-! ### Orders of magnitude -/

/-- `‖X t h‖ ≤ C h ^ m` for all the steps of length `h` inside `[0, T]`. -/
def BO (T B : ℝ) (m : ℕ) (X : ℝ → ℝ → Arr ι) : Prop :=
  ∃ C, 0 ≤ C ∧ ∀ t h, 0 ≤ t → 0 < h → h ≤ 1 → h * B ≤ 1 → t + h ≤ T → ‖X t h‖ ≤ C * h ^ m

theorem BO.add {m : ℕ} {X Y : ℝ → ℝ → Arr ι} (hX : BO T B m X) (hY : BO T B m Y) :
    BO T B m (fun t h => X t h + Y t h) := by
  obtain ⟨C, hC, h1⟩ := hX
  obtain ⟨C', hC', h2⟩ := hY
  refine ⟨C + C', add_nonneg hC hC', fun t h a b c d e => (norm_add_le _ _).trans ?_⟩
  rw [add_mul]
  exact add_le_add (h1 t h a b c d e) (h2 t h a b c d e)

theorem BO.smul {m : ℕ} {X : ℝ → ℝ → Arr ι} (hX : BO T B m X) (c : ℝ) : BO T B m (fun t h => c • X t h) := by
  obtain ⟨C, hC, h1⟩ := hX
  refine ⟨|c| * C, by positivity, fun t h a b c' d e => ?_⟩
  rw [norm_smul, Real.norm_eq_abs, mul_assoc]
  exact mul_le_mul_of_nonneg_left (h1 t h a b c' d e) (abs_nonneg _)

theorem BO.sub {m : ℕ} {X Y : ℝ → ℝ → Arr ι} (hX : BO T B m X) (hY : BO T B m Y) :
    BO T B m (fun t h => X t h - Y t h) := by
  have := hX.add (hY.smul (-1))
  simpa [sub_eq_add_neg] using this

theorem BO.hpow {m : ℕ} {X : ℝ → ℝ → Arr ι} (hX : BO T B m X) (n : ℕ) :
    BO T B (m + n) (fun t h => h ^ n • X t h) := by
  obtain ⟨C, hC, h1⟩ := hX
  refine ⟨C, hC, fun t h a b c d e => ?_⟩
  rw [norm_smul_pos (by positivity), pow_add, mul_comm (h ^ n), ← mul_assoc]
  exact mul_le_mul_of_nonneg_right (h1 t h a b c d e) (by positivity)

theorem BO.mono {m n : ℕ} {X : ℝ → ℝ → Arr ι} (hX : BO T B m X) (hmn : n ≤ m) : BO T B n X := by
  obtain ⟨C, hC, h1⟩ := hX
  refine ⟨C, hC, fun t h a b c d e => (h1 t h a b c d e).trans ?_⟩
  exact mul_le_mul_of_nonneg_left (pow_le_pow_of_le_one b.le c hmn) hC

theorem BO.congr {m : ℕ} {X Y : ℝ → ℝ → Arr ι} (hX : BO T B m X) (hXY : ∀ t h, Y t h = X t h) : BO T B m Y := by
  have : Y = X := funext fun t => funext fun h => hXY t h
  rw [this]; exact hX

theorem BO.half (J : Jet N f T s G M K L R B) {m : ℕ} {X : ℝ → ℝ → Arr ι} (hX : BO T B m X) :
    BO T B m (fun t h => expLin f ((h / 2 : ℝ) : ℂ) * X t h) := by
  obtain ⟨C, hC, h1⟩ := hX
  exact ⟨C, hC, fun t h a b c d e => (norm_expLin_mul_le J.fre (by linarith) _).trans (h1 t h a b c d e)⟩

theorem BO.half_sub (J : Jet N f T s G M K L R B) {m : ℕ} {X : ℝ → ℝ → Arr ι} (hX : BO T B m X) :
    BO T B (m + 1) (fun t h => expLin f ((h / 2 : ℝ) : ℂ) * X t h - X t h) := by
  obtain ⟨C, hC, h1⟩ := hX
  refine ⟨‖f‖ * C, by positivity, fun t h a b c d e => ?_⟩
  have h2 := norm_expLin_sub_one J.fre (h := h / 2) (by linarith) (X t h)
  rw [sub_mul, one_mul] at h2
  refine h2.trans ?_
  have h3 := h1 t h a b c d e
  calc ‖f‖ * (h / 2) * ‖X t h‖ ≤ ‖f‖ * h * (C * h ^ m) := by gcongr; linarith
    _ = ‖f‖ * C * h ^ (m + 1) := by ring

theorem BO.lin (J : Jet N f T s G M K L R B) {m : ℕ} {X : ℝ → ℝ → Arr ι} (hX : BO T B m X) :
    BO T B m (fun t h => fderiv ℝ N (s (t + h / 2)) (X t h)) := by
  obtain ⟨C, hC, h1⟩ := hX
  refine ⟨L * C, mul_nonneg J.Lpos hC, fun t h a b c d e => ?_⟩
  have h2 := J.sR (t + h / 2) ⟨by linarith, by linarith⟩
  refine (ContinuousLinearMap.le_opNorm _ _).trans ?_
  rw [mul_assoc]
  exact mul_le_mul (J.dbd _ (by linarith)) (h1 t h a b c d e) (norm_nonneg _) J.Lpos

/-- The derivative of the tendencies at the middle and at the end of the step. -/
theorem BO.lin_sub (J : Jet N f T s G M K L R B) {m : ℕ} {X : ℝ → ℝ → Arr ι} (hX : BO T B m X) :
    BO T B (m + 1) (fun t h => fderiv ℝ N (s (t + h)) (X t h) - fderiv ℝ N (s (t + h / 2)) (X t h)) := by
  obtain ⟨C, hC, h1⟩ := hX
  have hKp := J.Kpos
  have hMp := J.Mpos
  refine ⟨K * (2 * M + ‖f‖ * M) * C, by positivity, fun t h a b c d e => ?_⟩
  have ha : t + h / 2 ∈ Icc 0 T := ⟨by linarith, by linarith⟩
  have hb : t + h ∈ Icc 0 T := ⟨by linarith, by linarith⟩
  have h2 := J.dlip (s (t + h)) (s (t + h / 2)) (by linarith [J.sR _ hb]) (by linarith [J.sR _ ha])
  beta_reduce
  rw [← ContinuousLinearMap.sub_apply]
  refine (ContinuousLinearMap.le_opNorm _ _).trans ?_
  have h3 : ‖s (t + h) - s (t + h / 2)‖ ≤ (2 * M + ‖f‖ * M) * h := by
    have h4 := forward J 0 1 (by norm_num) (t := t + h / 2) (H := h / 2) (by linarith) (by linarith) (by linarith)
    simp only [Finset.sum_range_one, pow_zero, Nat.factorial_zero, Nat.cast_one, div_one, one_smul, add_zero, pow_one,
      J.g0] at h4
    rw [show t + h / 2 + h / 2 = t + h by ring] at h4
    have h5 := norm_expLin_sub_one J.fre (h := h / 2) (by linarith) (s (t + h / 2))
    have h6 := J.bound 0 (by norm_num) _ ha
    rw [J.g0] at h6
    have e1 : s (t + h) - s (t + h / 2) = (s (t + h) - expLin f ((h / 2 : ℝ) : ℂ) * s (t + h / 2)) +
        (expLin f ((h / 2 : ℝ) : ℂ) - 1) * s (t + h / 2) := by rw [sub_mul, one_mul]; abel
    rw [e1]
    refine (norm_add_le _ _).trans ?_
    have h7 : ‖f‖ * (h / 2) * ‖s (t + h / 2)‖ ≤ ‖f‖ * (h / 2) * M := mul_le_mul_of_nonneg_left h6 (by positivity)
    have h8 : 0 ≤ ‖f‖ * M * h := by positivity
    nlinarith
  calc ‖fderiv ℝ N (s (t + h)) - fderiv ℝ N (s (t + h / 2))‖ * ‖X t h‖
      ≤ (K * ((2 * M + ‖f‖ * M) * h)) * (C * h ^ m) := by
        refine mul_le_mul (h2.trans (mul_le_mul_of_nonneg_left h3 hKp)) (h1 t h a b c d e) (norm_nonneg _) (by positivity)
    _ = K * (2 * M + ‖f‖ * M) * C * h ^ (m + 1) := by ring

/-- The derivatives at the middle of the step. -/
theorem BO.mid (J : Jet N f T s G M K L R B) (j : ℕ) (hj : j ≤ 5) : BO T B 0 (fun t h => G j (t + h / 2)) :=
  ⟨M, J.Mpos, fun t h a b c d e => by
    rw [pow_zero, mul_one]; exact J.bound j hj _ ⟨by linarith, by linarith⟩⟩

/-- Linearisation of the tendencies at the middle of the step. -/
theorem BO.tend (J : Jet N f T s G M K L R B) {X : ℝ → ℝ → Arr ι} (hX : BO T B 2 (fun t h => X t h - s (t + h / 2)))
    (hR : ∀ t h, 0 ≤ t → 0 < h → h ≤ 1 → h * B ≤ 1 → t + h ≤ T → ‖X t h‖ ≤ R) :
    BO T B 4 (fun t h => N (X t h) - N (s (t + h / 2)) - fderiv ℝ N (s (t + h / 2)) (X t h - s (t + h / 2))) := by
  obtain ⟨C, hC, h1⟩ := hX
  have hKp := J.Kpos
  refine ⟨K * C ^ 2, by positivity, fun t h a b c d e => ?_⟩
  have ha : t + h / 2 ∈ Icc 0 T := ⟨by linarith, by linarith⟩
  refine (J.linear _ _ (hR t h a b c d e) (by linarith [J.sR _ ha])).trans ?_
  calc K * ‖X t h - s (t + h / 2)‖ ^ 2 ≤ K * (C * h ^ 2) ^ 2 := by
        gcongr; exact h1 t h a b c d e
    _ = K * C ^ 2 * h ^ 4 := by ring

/-- Linearisation of the tendencies at the end of the step. -/
theorem BO.tend_end (J : Jet N f T s G M K L R B) {X : ℝ → ℝ → Arr ι} (hX : BO T B 2 (fun t h => X t h - s (t + h)))
    (hR : ∀ t h, 0 ≤ t → 0 < h → h ≤ 1 → h * B ≤ 1 → t + h ≤ T → ‖X t h‖ ≤ R) :
    BO T B 4 (fun t h => N (X t h) - N (s (t + h)) - fderiv ℝ N (s (t + h)) (X t h - s (t + h))) := by
  obtain ⟨C, hC, h1⟩ := hX
  have hKp := J.Kpos
  refine ⟨K * C ^ 2, by positivity, fun t h a b c d e => ?_⟩
  have ha : t + h ∈ Icc 0 T := ⟨by linarith, by linarith⟩
  refine (J.linear _ _ (hR t h a b c d e) (by linarith [J.sR _ ha])).trans ?_
  calc K * ‖X t h - s (t + h)‖ ^ 2 ≤ K * (C * h ^ 2) ^ 2 := by
        gcongr; exact h1 t h a b c d e
    _ = K * C ^ 2 * h ^ 4 := by ring

/-- Expansion of the solution at the beginning of the step, around the middle. -/
theorem BO.back (J : Jet N f T s G M K L R B) (j m : ℕ) (hjm : j + m ≤ 5) :
    BO T B m (fun t h => expLin f ((h / 2 : ℝ) : ℂ) * G j t -
      ∑ i ∈ Finset.range m, ((-(h / 2)) ^ i / (i.factorial : ℝ)) • G (j + i) (t + h / 2)) := by
  refine ⟨M, J.Mpos, fun t h a b c d e => ?_⟩
  refine (backward J j m hjm a (by linarith) (by linarith)).trans ?_
  have := J.Mpos
  gcongr
  linarith

/-- Expansion of the solution at the end of the step, around the middle. -/
theorem BO.forw (J : Jet N f T s G M K L R B) (j m : ℕ) (hjm : j + m ≤ 5) :
    BO T B m (fun t h => G j (t + h) -
      ∑ i ∈ Finset.range m, ((h / 2) ^ i / (i.factorial : ℝ)) • (expLin f ((h / 2 : ℝ) : ℂ) * G (j + i) (t + h / 2))) := by
  refine ⟨M, J.Mpos, fun t h a b c d e => ?_⟩
  have := forward J j m hjm (t := t + h / 2) (H := h / 2) (by linarith) (by linarith) (by linarith)
  rw [show t + h / 2 + h / 2 = t + h by ring] at this
  refine this.trans ?_
  have := J.Mpos
  gcongr
  linarith

/-! ### Consistency of RK4 -/

/-- The stages of RK4. -/
noncomputable def st1 (N : Arr ι → Arr ι) (f : Arr ι) (h : ℝ) (a : Arr ι) : Arr ι :=
  expLin f ((h / 2 : ℝ) : ℂ) * (a + (h / 2) • N a)

noncomputable def st2 (N : Arr ι → Arr ι) (f : Arr ι) (h : ℝ) (a : Arr ι) : Arr ι :=
  expLin f ((h / 2 : ℝ) : ℂ) * a + (h / 2) • N (st1 N f h a)

noncomputable def st3 (N : Arr ι → Arr ι) (f : Arr ι) (h : ℝ) (a : Arr ι) : Arr ι :=
  expLin f (h : ℂ) * a + h • (expLin f ((h / 2 : ℝ) : ℂ) * N (st2 N f h a))

noncomputable def out4 (N : Arr ι → Arr ι) (f : Arr ι) (h : ℝ) (a : Arr ι) : Arr ι :=
  expLin f (h : ℂ) * a + (h / 6) • (expLin f (h : ℂ) * N a + (2 : ℝ) • (expLin f ((h / 2 : ℝ) : ℂ) * N (st1 N f h a)) +
    (2 : ℝ) • (expLin f ((h / 2 : ℝ) : ℂ) * N (st2 N f h a)) + N (st3 N f h a))

/-- The stages stay in the ball. -/
theorem st_ball (J : Jet N f T s G M K L R B) {a : Arr ι} (ha : ‖a‖ ≤ R - 1) {h : ℝ} (hh : 0 ≤ h) (hB : h * B ≤ 1) :
    ‖st1 N f h a‖ ≤ R ∧ ‖st2 N f h a‖ ≤ R ∧ ‖st3 N f h a‖ ≤ R := by
  have hh2 : 0 ≤ h / 2 := by linarith
  have hB0 := J.Bpos
  have key : ∀ c : ℝ, 0 ≤ c → c ≤ h → ∀ y : Arr ι, ‖y‖ ≤ B → ‖c • y‖ ≤ 1 := by
    intro c hc hch y hy
    rw [norm_smul_pos hc]
    calc c * ‖y‖ ≤ h * B := mul_le_mul hch hy (norm_nonneg _) hh
      _ ≤ 1 := hB
  have e1 : ‖st1 N f h a‖ ≤ R := by
    refine (norm_expLin_mul_le J.fre hh2 _).trans ((norm_add_le _ _).trans ?_)
    have := key (h / 2) hh2 (by linarith) _ (J.bdN a (by linarith))
    linarith
  have e2 : ‖st2 N f h a‖ ≤ R := by
    refine (norm_add_le _ _).trans ?_
    have h1 := norm_expLin_mul_le J.fre hh2 a
    have h2 := key (h / 2) hh2 (by linarith) _ (J.bdN _ e1)
    linarith
  refine ⟨e1, e2, ?_⟩
  refine (norm_add_le _ _).trans ?_
  have h1 := norm_expLin_mul_le J.fre hh a
  have h2 := key h hh le_rfl _ ((norm_expLin_mul_le J.fre hh2 _).trans (J.bdN _ e2))
  linarith

/-- Local error of RK4. -/
theorem local_rk4 (J : Jet N f T s G M K L R B) : BO T B 5 (fun t h => out4 N f h (s t) - s (t + h)) := by
  have hball : ∀ t h, 0 ≤ t → 0 < h → h ≤ 1 → h * B ≤ 1 → t + h ≤ T →
      ‖st1 N f h (s t)‖ ≤ R ∧ ‖st2 N f h (s t)‖ ≤ R ∧ ‖st3 N f h (s t)‖ ≤ R := fun t h a b c d e =>
    st_ball J (by linarith [J.sR t ⟨a, by linarith⟩]) b.le d
  have hEE : ∀ (h : ℝ) (x : Arr ι), expLin f (h : ℂ) * x =
      expLin f ((h / 2 : ℝ) : ℂ) * (expLin f ((h / 2 : ℝ) : ℂ) * x) := fun h x => (half_half f h x).symm
  have b0 := BO.back (B := B) J 0 4 (by norm_num)
  have b0' := BO.back (B := B) J 0 5 (by norm_num)
  have b1 := BO.back (B := B) J 1 3 (by norm_num)
  have b1' := BO.back (B := B) J 1 4 (by norm_num)
  have f0 := BO.forw (B := B) J 0 4 (by norm_num)
  have f0' := BO.forw (B := B) J 0 5 (by norm_num)
  have f1' := BO.forw (B := B) J 1 4 (by norm_num)
  simp only [Finset.sum_range_succ, Finset.sum_range_zero, Nat.factorial, zero_add, add_zero, J.g0, J.g1] at b0 b0' b1 b1' f0 f0' f1'
  norm_num [-Complex.ofReal_div] at b0 b0' b1 b1' f0 f0' f1'
  have x0 : BO T B 0 (fun t h => N (s (t + h / 2))) := by
    have := BO.mid (B := B) J 1 (by norm_num); rwa [J.g1] at this
  have x1 := BO.mid (B := B) J 2 (by norm_num)
  have x2 := BO.mid (B := B) J 3 (by norm_num)
  -- first stage
  have d1 : BO T B 4 (fun t h => (st1 N f h (s t) - s (t + h / 2)) -
      (-(h ^ 2 / 8) • G 2 (t + h / 2) + (h ^ 3 / 24) • G 3 (t + h / 2))) := by
    refine (b0.add ((b1.hpow 1).smul (1 / 2))).congr fun t h => ?_
    simp only [st1, mul_add, mul_smul_comm]
    module
  have d1c : BO T B 2 (fun t h => st1 N f h (s t) - s (t + h / 2)) := by
    refine ((d1.mono (by norm_num)).add (((x1.hpow 2).smul (-1 / 8)).add
      (((x2.hpow 3).mono (by norm_num)).smul (1 / 24)))).congr fun t h => ?_
    module
  have e1 := BO.tend J d1c fun t h a b c d e => (hball t h a b c d e).1
  have ad1 : BO T B 3 (fun t h => fderiv ℝ N (s (t + h / 2)) (st1 N f h (s t) - s (t + h / 2)) +
      (h ^ 2 / 8) • fderiv ℝ N (s (t + h / 2)) (G 2 (t + h / 2))) := by
    refine (BO.lin J ((d1.mono (by norm_num : 3 ≤ 4)).add ((x2.hpow 3).smul (1 / 24)))).congr fun t h => ?_
    rw [← map_smul, ← map_add]
    congr 1
    module
  -- second stage
  have ax1 : BO T B 0 (fun t h => fderiv ℝ N (s (t + h / 2)) (G 2 (t + h / 2))) := BO.lin J x1
  have d2 : BO T B 4 (fun t h => (st2 N f h (s t) - s (t + h / 2)) -
      ((h ^ 2 / 8) • G 2 (t + h / 2) - (h ^ 3 / 48) • G 3 (t + h / 2) -
        (h ^ 3 / 16) • fderiv ℝ N (s (t + h / 2)) (G 2 (t + h / 2)))) := by
    refine (b0.add (((((e1.mono (by norm_num : 3 ≤ 4)).hpow 1).smul (1 / 2))).add ((ad1.hpow 1).smul (1 / 2)))).congr
      fun t h => ?_
    simp only [st2]
    module
  have d2c : BO T B 2 (fun t h => st2 N f h (s t) - s (t + h / 2)) := by
    refine ((d2.mono (by norm_num)).add (((x1.hpow 2).smul (1 / 8)).add
      ((((x2.hpow 3).mono (by norm_num)).smul (-1 / 48)).add
        (((ax1.hpow 3).mono (by norm_num)).smul (-1 / 16))))).congr fun t h => ?_
    module
  have e2 := BO.tend J d2c fun t h a b c d e => (hball t h a b c d e).2.1
  -- the two middle stages
  have v : BO T B 3 (fun t h => (h ^ 3 / 48) • G 3 (t + h / 2) -
      (h ^ 3 / 16) • fderiv ℝ N (s (t + h / 2)) (G 2 (t + h / 2))) := by
    refine (((x2.hpow 3).smul (1 / 48)).add ((ax1.hpow 3).smul (-1 / 16))).congr fun t h => ?_
    module
  have av := BO.lin J v
  have m12 : BO T B 4 (fun t h => (N (st1 N f h (s t)) + N (st2 N f h (s t)) - (2 : ℝ) • N (s (t + h / 2))) -
      fderiv ℝ N (s (t + h / 2)) ((h ^ 3 / 48) • G 3 (t + h / 2) -
      (h ^ 3 / 16) • fderiv ℝ N (s (t + h / 2)) (G 2 (t + h / 2)))) := by
    refine ((e1.add e2).add (BO.lin J (d1.add d2))).congr fun t h => ?_
    simp only [map_add, map_sub, map_smul]
    module
  -- third stage
  have ad2 : BO T B 3 (fun t h => fderiv ℝ N (s (t + h / 2)) (st2 N f h (s t) - s (t + h / 2)) -
      (h ^ 2 / 8) • fderiv ℝ N (s (t + h / 2)) (G 2 (t + h / 2))) := by
    refine (BO.lin J ((d2.mono (by norm_num : 3 ≤ 4)).add (((x2.hpow 3).smul (-1 / 48)).add
      ((ax1.hpow 3).smul (-1 / 16))))).congr fun t h => ?_
    rw [← map_smul, ← map_sub]
    congr 1
    module
  have d3 : BO T B 4 (fun t h => (st3 N f h (s t) - s (t + h)) +
      (2 : ℝ) • (expLin f ((h / 2 : ℝ) : ℂ) * ((h ^ 3 / 48) • G 3 (t + h / 2) -
      (h ^ 3 / 16) • fderiv ℝ N (s (t + h / 2)) (G 2 (t + h / 2))))) := by
    refine (((BO.half J b0).sub f0).add (BO.half J (((e2.mono (by norm_num : 3 ≤ 4)).hpow 1).add
      (ad2.hpow 1)))).congr fun t h => ?_
    simp only [st3, hEE h (s t), mul_add, mul_sub, mul_neg, mul_smul_comm]
    module
  have d3c : BO T B 3 (fun t h => st3 N f h (s t) - s (t + h)) := by
    refine ((d3.mono (by norm_num : 3 ≤ 4)).add ((BO.half J v).smul (-2))).congr fun t h => ?_
    module
  have e3 := BO.tend_end J (d3c.mono (by norm_num : 2 ≤ 3)) fun t h a b c d e => (hball t h a b c d e).2.2
  have m3 : BO T B 4 (fun t h => (N (st3 N f h (s t)) - N (s (t + h))) +
      (2 : ℝ) • fderiv ℝ N (s (t + h / 2)) ((h ^ 3 / 48) • G 3 (t + h / 2) -
      (h ^ 3 / 16) • fderiv ℝ N (s (t + h / 2)) (G 2 (t + h / 2)))) := by
    refine ((e3.add (BO.lin_sub J d3c)).add ((BO.lin J d3).sub ((BO.lin J (BO.half_sub J v)).smul 2))).congr
      fun t h => ?_
    simp only [map_add, map_sub, map_smul]
    module
  -- Simpson's rule
  have simpson : BO T B 5 (fun t h => expLin f (h : ℂ) * s t + (h / 6) • (expLin f (h : ℂ) * N (s t) +
      (4 : ℝ) • (expLin f ((h / 2 : ℝ) : ℂ) * N (s (t + h / 2))) + N (s (t + h))) - s (t + h)) := by
    refine ((BO.half J b0').add ((((BO.half J b1').hpow 1).smul (1 / 6)).add
      (((f1'.hpow 1).smul (1 / 6)).sub f0'))).congr fun t h => ?_
    simp only [hEE h (s t), hEE h (N (s t)), mul_add, mul_sub, mul_neg, mul_smul_comm]
    module
  refine (simpson.add ((((((BO.half J m12).smul 2).add m3).add ((BO.half_sub J av).smul 2)).hpow 1).smul
    (1 / 6))).congr fun t h => ?_
  simp only [out4, mul_add, mul_sub, mul_neg, mul_smul_comm]
  module

/-- Stability of RK4. -/
theorem stable_rk4 (J : Jet N f T s G M K L R B) {a b : Arr ι} (ha : ‖a‖ ≤ R - 1) (hb : ‖b‖ ≤ R - 1) {h : ℝ}
    (hh : 0 ≤ h) (hh1 : h ≤ 1) (hB : h * B ≤ 1) :
    ‖out4 N f h a - out4 N f h b‖ ≤ (1 + L * (1 + L) ^ 3 * h) * ‖a - b‖ := by
  have hh2 : 0 ≤ h / 2 := by linarith
  have hL := J.Lpos
  obtain ⟨a1, a2, a3⟩ := st_ball J ha hh hB
  obtain ⟨b1, b2, b3⟩ := st_ball J hb hh hB
  set e := ‖a - b‖ with he
  have he0 : 0 ≤ e := norm_nonneg _
  have n0 : ‖N a - N b‖ ≤ L * e := J.lip a b (by linarith) (by linarith)
  have s1 : ‖st1 N f h a - st1 N f h b‖ ≤ (1 + L) * e := by
    have e1 : st1 N f h a - st1 N f h b =
        expLin f ((h / 2 : ℝ) : ℂ) * ((a - b) + (h / 2) • (N a - N b)) := by
      simp only [st1, mul_add, mul_sub, smul_sub, mul_smul_comm]; abel
    rw [e1]
    refine (norm_expLin_mul_le J.fre hh2 _).trans ((norm_add_le _ _).trans ?_)
    rw [norm_smul_pos hh2]
    have := mul_le_mul (show h / 2 ≤ 1 by linarith) n0 (norm_nonneg _) zero_le_one
    linarith
  have n1 : ‖N (st1 N f h a) - N (st1 N f h b)‖ ≤ L * ((1 + L) * e) :=
    (J.lip _ _ a1 b1).trans (mul_le_mul_of_nonneg_left s1 hL)
  have s2 : ‖st2 N f h a - st2 N f h b‖ ≤ (1 + L) ^ 2 * e := by
    have e1 : st2 N f h a - st2 N f h b =
        expLin f ((h / 2 : ℝ) : ℂ) * (a - b) + (h / 2) • (N (st1 N f h a) - N (st1 N f h b)) := by
      simp only [st2, mul_sub, smul_sub]; abel
    rw [e1]
    refine (norm_add_le _ _).trans ?_
    rw [norm_smul_pos hh2]
    have h1 := norm_expLin_mul_le J.fre hh2 (a - b)
    have := mul_le_mul (show h / 2 ≤ 1 by linarith) n1 (norm_nonneg _) zero_le_one
    nlinarith [mul_nonneg hL he0]
  have n2 : ‖N (st2 N f h a) - N (st2 N f h b)‖ ≤ L * ((1 + L) ^ 2 * e) :=
    (J.lip _ _ a2 b2).trans (mul_le_mul_of_nonneg_left s2 hL)
  have s3 : ‖st3 N f h a - st3 N f h b‖ ≤ (1 + L) ^ 3 * e := by
    have e1 : st3 N f h a - st3 N f h b =
        expLin f (h : ℂ) * (a - b) +
          h • (expLin f ((h / 2 : ℝ) : ℂ) * (N (st2 N f h a) - N (st2 N f h b))) := by
      simp only [st3, mul_sub, smul_sub]; abel
    rw [e1]
    refine (norm_add_le _ _).trans ?_
    rw [norm_smul_pos hh]
    have h1 := norm_expLin_mul_le J.fre hh (a - b)
    have h2 := (norm_expLin_mul_le J.fre hh2 (N (st2 N f h a) - N (st2 N f h b))).trans n2
    have := mul_le_mul hh1 h2 (norm_nonneg _) zero_le_one
    have h3 : 0 ≤ L * e := mul_nonneg hL he0
    have h4 : 0 ≤ L * (L * e) := mul_nonneg hL h3
    nlinarith
  have n3 : ‖N (st3 N f h a) - N (st3 N f h b)‖ ≤ L * ((1 + L) ^ 3 * e) :=
    (J.lip _ _ a3 b3).trans (mul_le_mul_of_nonneg_left s3 hL)
  have e1 : out4 N f h a - out4 N f h b = expLin f (h : ℂ) * (a - b) + (h / 6) • (expLin f (h : ℂ) * (N a - N b) +
      (2 : ℝ) • (expLin f ((h / 2 : ℝ) : ℂ) * (N (st1 N f h a) - N (st1 N f h b))) +
      (2 : ℝ) • (expLin f ((h / 2 : ℝ) : ℂ) * (N (st2 N f h a) - N (st2 N f h b))) +
      (N (st3 N f h a) - N (st3 N f h b))) := by
    simp only [out4, mul_sub]; module
  rw [e1]
  have g : ∀ k : ℕ, k ≤ 3 → L * ((1 + L) ^ k * e) ≤ L * ((1 + L) ^ 3 * e) := fun k hk =>
    mul_le_mul_of_nonneg_left (mul_le_mul_of_nonneg_right (pow_le_pow_right₀ (by linarith) hk) he0) hL
  have h0 := norm_expLin_mul_le J.fre hh (a - b)
  have q0 := (norm_expLin_mul_le J.fre hh (N a - N b)).trans (n0.trans (by simpa using g 0 (by norm_num)))
  have q1 := (norm_expLin_mul_le J.fre hh2 (N (st1 N f h a) - N (st1 N f h b))).trans
    (n1.trans (by simpa using g 1 (by norm_num)))
  have q2 := (norm_expLin_mul_le J.fre hh2 (N (st2 N f h a) - N (st2 N f h b))).trans (n2.trans (g 2 (by norm_num)))
  refine (norm_add_le _ _).trans ?_
  rw [norm_smul_pos (by linarith : 0 ≤ h / 6)]
  set Q := L * ((1 + L) ^ 3 * e) with hQ
  have : ‖expLin f (h : ℂ) * (N a - N b) +
      (2 : ℝ) • (expLin f ((h / 2 : ℝ) : ℂ) * (N (st1 N f h a) - N (st1 N f h b))) +
      (2 : ℝ) • (expLin f ((h / 2 : ℝ) : ℂ) * (N (st2 N f h a) - N (st2 N f h b))) +
      (N (st3 N f h a) - N (st3 N f h b))‖ ≤ 6 * Q := by
    refine (norm_add_le _ _).trans ?_
    refine (add_le_add (norm_add_le _ _) n3).trans ?_
    refine (add_le_add (add_le_add (norm_add_le _ _) le_rfl) le_rfl).trans ?_
    rw [norm_smul_pos (by norm_num), norm_smul_pos (by norm_num)]
    linarith
  have := mul_le_mul_of_nonneg_left this (by linarith : 0 ≤ h / 6)
  nlinarith

end

end Verif.Convergence
