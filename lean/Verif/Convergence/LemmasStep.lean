import Verif.Convergence.Lemmas

/-! Helper lemmas for C83: the error of one time step. -/

namespace Verif.Convergence

open Verif Schemes Set

set_option linter.unusedSectionVars false

variable {ι : Type*} [Fintype ι]

local notation "EL" => fun (f : Arr _) (t : ℝ) => expLin f (t : ℂ)

theorem expLin_zero' (f : Arr ι) : expLin f ((0 : ℝ) : ℂ) = 1 := by
  rw [Complex.ofReal_zero, expLin_zero]

section Local

variable {N : Arr ι → Arr ι} {f : Arr ι} {T : ℝ} {s n1 n2 : ℝ → Arr ι} {M0 M1 M2 L R B : ℝ}

theorem shift_mem {t h τ : ℝ} (ht : 0 ≤ t) (hT : t + h ≤ T) (hτ : τ ∈ Icc 0 h) : t + τ ∈ Icc 0 T :=
  ⟨by linarith [hτ.1], by linarith [hτ.2]⟩

/-- Local error of Euler's method. -/
theorem local_euler (D : Data N f T s n1 n2 M0 M1 M2 L R B) {t h : ℝ} (ht : 0 ≤ t) (hh : 0 ≤ h) (hT : t + h ≤ T) :
    ‖expLin f (h : ℂ) * (s t + h • N (s t)) - s (t + h)‖ ≤ M1 * h ^ 2 / 2 := by
  have := taylor1 (v := fun τ => expLin f ((h - τ : ℝ) : ℂ) * s (t + τ))
    (v' := fun τ => expLin f ((h - τ : ℝ) : ℂ) * N (s (t + τ)))
    (v'' := fun τ => expLin f ((h - τ : ℝ) : ℂ) * n1 (t + τ)) (M := M1) hh
    (fun τ hτ => frame (g1 := fun t => N (s t)) (D.ds _ (shift_mem ht hT hτ)))
    (fun τ hτ => frame (g := fun t => N (s t)) (D.dn _ (shift_mem ht hT hτ)))
    (fun τ hτ => (norm_expLin_mul_le D.fre (by linarith [hτ.2]) _).trans (D.bM1 _ (shift_mem ht hT hτ)))
  rw [norm_sub_rev]
  refine le_trans (le_of_eq ?_) this
  congr 1
  simp only [sub_self, expLin_zero', sub_zero, add_zero, one_mul, mul_add, mul_smul_comm]
  abel

/-- Local error of the midpoint rule, at the exact middle state. -/
theorem local_midpoint (D : Data N f T s n1 n2 M0 M1 M2 L R B) (D2 : Data2 f T n1 n2 M2) {t h : ℝ} (ht : 0 ≤ t)
    (hh : 0 ≤ h) (hT : t + h ≤ T) :
    ‖expLin f (h : ℂ) * s t + h • (expLin f ((h / 2 : ℝ) : ℂ) * N (s (t + h / 2))) - s (t + h)‖ ≤ M2 * h ^ 3 / 24 := by
  have := midpoint (v := fun τ => expLin f ((h - τ : ℝ) : ℂ) * s (t + τ))
    (v' := fun τ => expLin f ((h - τ : ℝ) : ℂ) * N (s (t + τ)))
    (v'' := fun τ => expLin f ((h - τ : ℝ) : ℂ) * n1 (t + τ))
    (v''' := fun τ => expLin f ((h - τ : ℝ) : ℂ) * n2 (t + τ)) (M := M2) hh
    (fun τ hτ => frame (g1 := fun t => N (s t)) (D.ds _ (shift_mem ht hT hτ)))
    (fun τ hτ => frame (g := fun t => N (s t)) (D.dn _ (shift_mem ht hT hτ)))
    (fun τ hτ => frame (D2.dn1 _ (shift_mem ht hT hτ)))
    (fun τ hτ => (norm_expLin_mul_le D.fre (by linarith [hτ.2]) _).trans (D2.bM2 _ (shift_mem ht hT hτ)))
  rw [norm_sub_rev]
  refine le_trans (le_of_eq ?_) this
  congr 1
  simp only [sub_self, expLin_zero', sub_zero, add_zero, one_mul]
  rw [show h - h / 2 = h / 2 by ring]
  abel

/-- Local error of the trapezoidal rule, at the exact final state. -/
theorem local_trapezoid (D : Data N f T s n1 n2 M0 M1 M2 L R B) (D2 : Data2 f T n1 n2 M2) {t h : ℝ} (ht : 0 ≤ t)
    (hh : 0 ≤ h) (hT : t + h ≤ T) :
    ‖expLin f (h : ℂ) * s t + (h / 2) • (expLin f (h : ℂ) * N (s t) + N (s (t + h))) - s (t + h)‖
      ≤ M2 * h ^ 3 / 12 := by
  have := trapezoid (v := fun τ => expLin f ((h - τ : ℝ) : ℂ) * s (t + τ))
    (v' := fun τ => expLin f ((h - τ : ℝ) : ℂ) * N (s (t + τ)))
    (v'' := fun τ => expLin f ((h - τ : ℝ) : ℂ) * n1 (t + τ))
    (v''' := fun τ => expLin f ((h - τ : ℝ) : ℂ) * n2 (t + τ)) (M := M2) hh
    (fun τ hτ => frame (g1 := fun t => N (s t)) (D.ds _ (shift_mem ht hT hτ)))
    (fun τ hτ => frame (g := fun t => N (s t)) (D.dn _ (shift_mem ht hT hτ)))
    (fun τ hτ => frame (D2.dn1 _ (shift_mem ht hT hτ)))
    (fun τ hτ => (norm_expLin_mul_le D.fre (by linarith [hτ.2]) _).trans (D2.bM2 _ (shift_mem ht hT hτ)))
  rw [norm_sub_rev]
  refine le_trans (le_of_eq ?_) this
  congr 1
  simp only [sub_self, expLin_zero', sub_zero, add_zero, one_mul]
  abel

/-- The tendencies at the end of the step. -/
theorem local_tend (D : Data N f T s n1 n2 M0 M1 M2 L R B) {t h : ℝ} (ht : 0 ≤ t) (hh : 0 ≤ h) (hT : t + h ≤ T) :
    ‖N (s (t + h)) - expLin f (h : ℂ) * N (s t)‖ ≤ M1 * h := by
  have := norm_le_pow (f := fun τ => expLin f ((h - τ : ℝ) : ℂ) * N (s (t + τ)) - expLin f (h : ℂ) * N (s t))
    (f' := fun τ => expLin f ((h - τ : ℝ) : ℂ) * n1 (t + τ)) (C := M1) (h := h) 0
    (fun τ hτ => (frame (g := fun t => N (s t)) (D.dn _ (shift_mem ht hT hτ))).sub_const _)
    (by simp only [sub_zero, add_zero, sub_self])
    (fun τ hτ => by
      rw [pow_zero, mul_one]
      exact (norm_expLin_mul_le D.fre (by linarith [hτ.2]) _).trans (D.bM1 _ (shift_mem ht hT hτ)))
    (t := h) ⟨hh, le_rfl⟩
  simp only [sub_self, expLin_zero', one_mul] at this
  refine this.trans (le_of_eq ?_)
  norm_num

/-- `|e^{-f h} - 1| ≤ |f| h`. -/
theorem norm_expLin_sub_one {f : Arr ι} (hf : ∀ i, 0 ≤ (f i).re) {h : ℝ} (hh : 0 ≤ h) (x : Arr ι) :
    ‖(expLin f (h : ℂ) - 1) * x‖ ≤ ‖f‖ * h * ‖x‖ := by
  have hd : ∀ τ ∈ Icc 0 h, HasDerivAt (fun τ : ℝ => expLin f ((h - τ : ℝ) : ℂ) * x - expLin f (h : ℂ) * x)
      (expLin f ((h - τ : ℝ) : ℂ) * (f * x)) τ := fun τ _ => by
    refine (((hasDerivAt_expLin f h τ).mul_const x).sub_const _).congr_deriv (by ring)
  have := norm_le_pow (C := ‖f‖ * ‖x‖) 0 hd (by simp only [sub_zero, sub_self]) (fun τ hτ => by
    rw [pow_zero, mul_one]
    exact (norm_expLin_mul_le hf (by linarith [hτ.2]) _).trans (norm_mul_le f x)) (t := h) ⟨hh, le_rfl⟩
  rw [norm_sub_rev] at this
  simp only [sub_self, expLin_zero', one_mul] at this
  rw [sub_mul, one_mul]
  refine this.trans (le_of_eq ?_)
  norm_num
  ring

/-- States close to the solution are in the ball. -/
theorem mem_ball (D : Data N f T s n1 n2 M0 M1 M2 L R B) {t : ℝ} (ht : t ∈ Icc 0 T) {a : Arr ι}
    (ha : ‖a - s t‖ ≤ 1) : ‖a‖ ≤ R - 1 := by
  have := norm_add_le (a - s t) (s t)
  rw [sub_add_cancel] at this
  linarith [D.sR t ht]

theorem norm_smul_pos {h : ℝ} (hh : 0 ≤ h) (x : Arr ι) : ‖h • x‖ = h * ‖x‖ := by
  rw [norm_smul, Real.norm_eq_abs, abs_of_nonneg hh]

theorem stage_ball (D : Data N f T s n1 n2 M0 M1 M2 L R B) {t : ℝ} (ht : t ∈ Icc 0 T) {a : Arr ι}
    (ha : ‖a - s t‖ ≤ 1) {d h : ℝ} (hd : 0 ≤ d) (hh : 0 ≤ h) (hB : h * B ≤ 1) (y : Arr ι) (hy : ‖y‖ ≤ B) :
    ‖expLin f (d : ℂ) * (a + h • y)‖ ≤ R := by
  refine (norm_expLin_mul_le D.fre hd _).trans ((norm_add_le _ _).trans ?_)
  have h1 := mem_ball D ht ha
  rw [norm_smul_pos hh]
  have h2 := mul_le_mul_of_nonneg_left hy hh
  linarith

/-- Error of Euler's method. -/
theorem step_euler (D : Data N f T s n1 n2 M0 M1 M2 L R B) {t h : ℝ} (ht : 0 ≤ t) (hh : 0 ≤ h) (hT : t + h ≤ T)
    {a : Arr ι} (ha : ‖a - s t‖ ≤ 1) :
    ‖expLin f (h : ℂ) * (a + h • N a) - s (t + h)‖ ≤ (1 + h * L) * ‖a - s t‖ + M1 * h ^ 2 / 2 := by
  have htm : t ∈ Icc 0 T := ⟨ht, by linarith⟩
  have e : expLin f (h : ℂ) * (a + h • N a) - s (t + h) =
      expLin f (h : ℂ) * ((a - s t) + h • (N a - N (s t))) +
      (expLin f (h : ℂ) * (s t + h • N (s t)) - s (t + h)) := by
    simp only [mul_add, mul_sub, smul_sub, mul_smul_comm]; abel
  rw [e]
  have h1 := D.lip a (s t) (by linarith [mem_ball D htm ha]) (by linarith [D.sR t htm])
  have h2 := norm_expLin_mul_le D.fre hh ((a - s t) + h • (N a - N (s t)))
  have h3 := norm_add_le (a - s t) (h • (N a - N (s t)))
  rw [norm_smul_pos hh] at h3
  have h4 := local_euler D ht hh hT
  have h5 := mul_le_mul_of_nonneg_left h1 hh
  refine (norm_add_le _ _).trans ?_
  nlinarith

/-- Error of the midpoint method. -/
theorem step_midpoint (D : Data N f T s n1 n2 M0 M1 M2 L R B) (D2 : Data2 f T n1 n2 M2) {t h : ℝ} (ht : 0 ≤ t)
    (hh : 0 ≤ h) (hh1 : h ≤ 1) (hB : h * B ≤ 1) (hT : t + h ≤ T) {a : Arr ι} (ha : ‖a - s t‖ ≤ 1) :
    ‖expLin f (h : ℂ) * a
        + h • (expLin f ((h / 2 : ℝ) : ℂ) * N (expLin f ((h / 2 : ℝ) : ℂ) * (a + (h / 2) • N a))) - s (t + h)‖
      ≤ (1 + (L + L ^ 2 / 2) * h) * ‖a - s t‖ + (L * M1 / 8 + M2 / 24) * h ^ 3 := by
  have htm : t ∈ Icc 0 T := ⟨ht, by linarith⟩
  have htm2 : t + h / 2 ∈ Icc 0 T := ⟨by linarith, by linarith⟩
  have hh2 : 0 ≤ h / 2 := by linarith
  have hst := step_euler D ht hh2 (by linarith) ha
  set a1 := expLin f ((h / 2 : ℝ) : ℂ) * (a + (h / 2) • N a) with ha1
  have hb := D.bound a (by linarith [mem_ball D htm ha])
  have ha1R : ‖a1‖ ≤ R := stage_ball D htm ha hh2 hh2 (by nlinarith [D.Bpos]) _ hb
  have e : expLin f (h : ℂ) * a + h • (expLin f ((h / 2 : ℝ) : ℂ) * N a1) - s (t + h) =
      expLin f (h : ℂ) * (a - s t) + h • (expLin f ((h / 2 : ℝ) : ℂ) * (N a1 - N (s (t + h / 2)))) +
      (expLin f (h : ℂ) * s t + h • (expLin f ((h / 2 : ℝ) : ℂ) * N (s (t + h / 2))) - s (t + h)) := by
    simp only [mul_sub, smul_sub]; abel
  rw [e]
  have h1 := D.lip a1 (s (t + h / 2)) ha1R (by linarith [D.sR _ htm2])
  have h2 := norm_expLin_mul_le D.fre hh (a - s t)
  have h3 := norm_expLin_mul_le D.fre hh2 (N a1 - N (s (t + h / 2)))
  have h4 := local_midpoint D D2 ht hh hT
  have h5 : ‖h • (expLin f ((h / 2 : ℝ) : ℂ) * (N a1 - N (s (t + h / 2))))‖
      ≤ h * (L * ((1 + h / 2 * L) * ‖a - s t‖ + M1 * (h / 2) ^ 2 / 2)) := by
    rw [norm_smul_pos hh]
    exact mul_le_mul_of_nonneg_left (h3.trans (h1.trans (mul_le_mul_of_nonneg_left hst D.Lpos))) hh
  have h6 := norm_add_le (expLin f (h : ℂ) * (a - s t))
    (h • (expLin f ((h / 2 : ℝ) : ℂ) * (N a1 - N (s (t + h / 2)))))
  have h7 : h * h * (L ^ 2 * ‖a - s t‖) ≤ h * (L ^ 2 * ‖a - s t‖) := by
    exact mul_le_mul_of_nonneg_right (mul_le_of_le_one_right hh hh1) (by positivity)
  refine (norm_add_le _ _).trans ?_
  have h8 := norm_nonneg (a - s t)
  nlinarith

/-- Error of Heun's method. -/
theorem step_trapezoid (D : Data N f T s n1 n2 M0 M1 M2 L R B) (D2 : Data2 f T n1 n2 M2) {t h : ℝ} (ht : 0 ≤ t)
    (hh : 0 ≤ h) (hh1 : h ≤ 1) (hB : h * B ≤ 1) (hT : t + h ≤ T) {a : Arr ι} (ha : ‖a - s t‖ ≤ 1) :
    ‖expLin f (h : ℂ) * (a + (h / 2) • N a) + (h / 2) • N (expLin f (h : ℂ) * (a + h • N a)) - s (t + h)‖
      ≤ (1 + (L + L ^ 2 / 2) * h) * ‖a - s t‖ + (L * M1 / 4 + M2 / 12) * h ^ 3 := by
  have htm : t ∈ Icc 0 T := ⟨ht, by linarith⟩
  have htm2 : t + h ∈ Icc 0 T := ⟨by linarith, by linarith⟩
  have hh2 : 0 ≤ h / 2 := by linarith
  have hst := step_euler D ht hh hT ha
  set a1 := expLin f (h : ℂ) * (a + h • N a) with ha1
  have hb := D.bound a (by linarith [mem_ball D htm ha])
  have ha1R : ‖a1‖ ≤ R := stage_ball D htm ha hh hh hB _ hb
  have e : expLin f (h : ℂ) * (a + (h / 2) • N a) + (h / 2) • N a1 - s (t + h) =
      expLin f (h : ℂ) * ((a - s t) + (h / 2) • (N a - N (s t))) + (h / 2) • (N a1 - N (s (t + h))) +
      (expLin f (h : ℂ) * s t + (h / 2) • (expLin f (h : ℂ) * N (s t) + N (s (t + h))) - s (t + h)) := by
    simp only [mul_add, mul_sub, smul_sub, smul_add, mul_smul_comm]; abel
  rw [e]
  have h0 := D.lip a (s t) (by linarith [mem_ball D htm ha]) (by linarith [D.sR t htm])
  have h1 := D.lip a1 (s (t + h)) ha1R (by linarith [D.sR _ htm2])
  have h2 := norm_expLin_mul_le D.fre hh ((a - s t) + (h / 2) • (N a - N (s t)))
  have h3 := norm_add_le (a - s t) ((h / 2) • (N a - N (s t)))
  rw [norm_smul_pos hh2] at h3
  have h4 := local_trapezoid D D2 ht hh hT
  have h5 : ‖(h / 2) • (N a1 - N (s (t + h)))‖ ≤ h / 2 * (L * ((1 + h * L) * ‖a - s t‖ + M1 * h ^ 2 / 2)) := by
    rw [norm_smul_pos hh2]
    exact mul_le_mul_of_nonneg_left (h1.trans (mul_le_mul_of_nonneg_left hst D.Lpos)) hh2
  have h0' := mul_le_mul_of_nonneg_left h0 hh2
  have h6 := norm_add_le (expLin f (h : ℂ) * ((a - s t) + (h / 2) • (N a - N (s t)))) ((h / 2) • (N a1 - N (s (t + h))))
  have h7 : h * h * (L ^ 2 * ‖a - s t‖) ≤ h * (L ^ 2 * ‖a - s t‖) := by
    exact mul_le_mul_of_nonneg_right (mul_le_of_le_one_right hh hh1) (by positivity)
  refine (norm_add_le _ _).trans ?_
  have h8 := norm_nonneg (a - s t)
  nlinarith

theorem half_half (f : Arr ι) (h : ℝ) (x : Arr ι) :
    expLin f ((h / 2 : ℝ) : ℂ) * (expLin f ((h / 2 : ℝ) : ℂ) * x) = expLin f (h : ℂ) * x := by
  rw [← mul_assoc, ← expLin_add]
  congr 2
  push_cast
  ring

/-- Error of the averaged predictor-corrector method with the coefficient of the middle of the step. -/
theorem step_shift (D : Data N f T s n1 n2 M0 M1 M2 L R B) (D2 : Data2 f T n1 n2 M2) {t h : ℝ} (ht : 0 ≤ t)
    (hh : 0 ≤ h) (hh1 : h ≤ 1) (hB : h * B ≤ 1) (hT : t + h ≤ T) {a : Arr ι} (ha : ‖a - s t‖ ≤ 1) :
    ‖expLin f (h : ℂ) * a + h • (expLin f ((h / 2 : ℝ) : ℂ) *
        ((1 / 2 : ℝ) • (N a + N (expLin f (h : ℂ) * (a + h • N a))))) - s (t + h)‖
      ≤ (1 + (L + L ^ 2 / 2) * h) * ‖a - s t‖ +
        (L * M1 / 4 + M2 / 12 + ‖f‖ * (M1 + ‖f‖ * M0 / 2) / 4) * h ^ 3 := by
  have htm : t ∈ Icc 0 T := ⟨ht, by linarith⟩
  have htm2 : t + h ∈ Icc 0 T := ⟨by linarith, by linarith⟩
  have hh2 : 0 ≤ h / 2 := by linarith
  have hst := step_euler D ht hh hT ha
  set a1 := expLin f (h : ℂ) * (a + h • N a) with ha1
  have hb := D.bound a (by linarith [mem_ball D htm ha])
  have ha1R : ‖a1‖ ≤ R := stage_ball D htm ha hh hh hB _ hb
  set Eh := expLin f ((h / 2 : ℝ) : ℂ) with hEh
  have hE2 : ∀ x : Arr ι, expLin f (h : ℂ) * x = Eh * (Eh * x) := fun x => (half_half f h x).symm
  have e : expLin f (h : ℂ) * a + h • (Eh * ((1 / 2 : ℝ) • (N a + N a1))) - s (t + h) =
      expLin f (h : ℂ) * (a - s t) + h • (Eh * ((1 / 2 : ℝ) • ((N a - N (s t)) + (N a1 - N (s (t + h)))))) +
      (h / 2) • ((Eh - 1) * (N (s (t + h)) - Eh * N (s t))) +
      (expLin f (h : ℂ) * s t + (h / 2) • (expLin f (h : ℂ) * N (s t) + N (s (t + h))) - s (t + h)) := by
    rw [hE2, hE2, hE2, hE2]
    simp only [mul_add, mul_sub, sub_mul, one_mul, smul_sub, smul_add, mul_smul_comm]
    module
  rw [e]
  have h0 := D.lip a (s t) (by linarith [mem_ball D htm ha]) (by linarith [D.sR t htm])
  have h1 := D.lip a1 (s (t + h)) ha1R (by linarith [D.sR _ htm2])
  have h2 := norm_expLin_mul_le D.fre hh (a - s t)
  have h3 : ‖h • (Eh * ((1 / 2 : ℝ) • ((N a - N (s t)) + (N a1 - N (s (t + h))))))‖ ≤
      h * (1 / 2 * (L * ‖a - s t‖ + L * ((1 + h * L) * ‖a - s t‖ + M1 * h ^ 2 / 2))) := by
    rw [norm_smul_pos hh]
    refine mul_le_mul_of_nonneg_left ((norm_expLin_mul_le D.fre hh2 _).trans ?_) hh
    rw [norm_smul_pos (by norm_num)]
    refine mul_le_mul_of_nonneg_left ((norm_add_le _ _).trans (add_le_add h0 ?_)) (by norm_num)
    exact h1.trans (mul_le_mul_of_nonneg_left hst D.Lpos)
  have h4 := local_trapezoid D D2 ht hh hT
  have h5 : ‖(h / 2) • ((Eh - 1) * (N (s (t + h)) - Eh * N (s t)))‖ ≤
      h / 2 * (‖f‖ * (h / 2) * (M1 * h + ‖f‖ * (h / 2) * M0)) := by
    rw [norm_smul_pos hh2]
    refine mul_le_mul_of_nonneg_left ((norm_expLin_sub_one D.fre hh2 _).trans ?_) hh2
    refine mul_le_mul_of_nonneg_left ?_ (by positivity)
    have e2 : N (s (t + h)) - Eh * N (s t) =
        (N (s (t + h)) - expLin f (h : ℂ) * N (s t)) + (Eh - 1) * (Eh * N (s t)) := by
      rw [hE2, sub_mul, one_mul]; abel
    rw [e2]
    refine (norm_add_le _ _).trans (add_le_add (local_tend D ht hh hT) ?_)
    refine (norm_expLin_sub_one D.fre hh2 _).trans (mul_le_mul_of_nonneg_left ?_ (by positivity))
    exact (norm_expLin_mul_le D.fre hh2 _).trans (D.bM0 t htm)
  have h7 : h * h * (L ^ 2 * ‖a - s t‖) ≤ h * (L ^ 2 * ‖a - s t‖) :=
    mul_le_mul_of_nonneg_right (mul_le_of_le_one_right hh hh1) (by positivity)
  refine (norm_add_le _ _).trans ?_
  have h8 := norm_add_le (expLin f (h : ℂ) * (a - s t) + h • (Eh * ((1 / 2 : ℝ) • ((N a - N (s t)) +
    (N a1 - N (s (t + h))))))) ((h / 2) • ((Eh - 1) * (N (s (t + h)) - Eh * N (s t))))
  have h9 := norm_add_le (expLin f (h : ℂ) * (a - s t)) (h • (Eh * ((1 / 2 : ℝ) • ((N a - N (s t)) +
    (N a1 - N (s (t + h)))))))
  have h10 := norm_nonneg (a - s t)
  nlinarith

/-- The same method with different tendencies `Na` and `Nb` of mean `N`: first order. -/
theorem step_shift_mean (D : Data N f T s n1 n2 M0 M1 M2 L R B) {Na Nb : Arr ι → Arr ι} {L' B' : ℝ} (hL' : 0 ≤ L')
    (hB'0 : 0 ≤ B') (hmean : ∀ x, (1 / 2 : ℝ) • (Na x + Nb x) = N x)
    (hlip : ∀ x y : Arr ι, ‖x‖ ≤ R → ‖y‖ ≤ R → ‖Nb x - Nb y‖ ≤ L' * ‖x - y‖)
    (hbound : ∀ x : Arr ι, ‖x‖ ≤ R → ‖Na x‖ ≤ B') {t h : ℝ} (ht : 0 ≤ t)
    (hh : 0 ≤ h) (hB' : h * B' ≤ 1) (hT : t + h ≤ T) {a : Arr ι} (ha : ‖a - s t‖ ≤ 1) :
    ‖expLin f (h : ℂ) * a + h • (expLin f ((h / 2 : ℝ) : ℂ) *
        ((1 / 2 : ℝ) • (Na a + Nb (expLin f (h : ℂ) * (a + h • Na a))))) - s (t + h)‖
      ≤ (1 + L * h) * ‖a - s t‖ + (M1 / 2 + L' * (‖f‖ * R + B') / 2 + ‖f‖ * B / 2) * h ^ 2 := by
  have htm : t ∈ Icc 0 T := ⟨ht, by linarith⟩
  have hh2 : 0 ≤ h / 2 := by linarith
  have hst := step_euler D ht hh hT ha
  have hRa := mem_ball D htm ha
  have hb := hbound a (by linarith)
  set a1 := expLin f (h : ℂ) * (a + h • Na a) with ha1
  have ha1R : ‖a1‖ ≤ R := by
    refine (norm_expLin_mul_le D.fre hh _).trans ((norm_add_le _ _).trans ?_)
    rw [norm_smul_pos hh]
    have h2 := mul_le_mul_of_nonneg_left hb hh
    linarith
  set Eh := expLin f ((h / 2 : ℝ) : ℂ) with hEh
  have hE2 : ∀ x : Arr ι, expLin f (h : ℂ) * x = Eh * (Eh * x) := fun x => (half_half f h x).symm
  have e : expLin f (h : ℂ) * a + h • (Eh * ((1 / 2 : ℝ) • (Na a + Nb a1))) - s (t + h) =
      (expLin f (h : ℂ) * (a + h • N a) - s (t + h)) + h • (Eh * ((1 / 2 : ℝ) • (Nb a1 - Nb a))) -
      h • ((Eh - 1) * (Eh * N a)) := by
    rw [hE2, hE2, ← hmean a]
    simp only [mul_add, mul_sub, sub_mul, one_mul, smul_sub, smul_add, mul_smul_comm]
    module
  rw [e]
  have h1 : ‖a1 - a‖ ≤ h * (‖f‖ * R + B') := by
    have e2 : a1 - a = (expLin f (h : ℂ) - 1) * a + expLin f (h : ℂ) * (h • Na a) := by
      rw [ha1, mul_add, sub_mul, one_mul]; abel
    rw [e2]
    refine (norm_add_le _ _).trans ?_
    have h2 := norm_expLin_sub_one D.fre hh a
    have h3 := norm_expLin_mul_le D.fre hh (h • Na a)
    rw [norm_smul_pos hh] at h3
    have h4 := mul_le_mul_of_nonneg_left hb hh
    have h5 : ‖f‖ * h * ‖a‖ ≤ ‖f‖ * h * R := mul_le_mul_of_nonneg_left (by linarith) (by positivity)
    linarith
  have h2 : ‖h • (Eh * ((1 / 2 : ℝ) • (Nb a1 - Nb a)))‖ ≤ h * (1 / 2 * (L' * (h * (‖f‖ * R + B')))) := by
    rw [norm_smul_pos hh]
    refine mul_le_mul_of_nonneg_left ((norm_expLin_mul_le D.fre hh2 _).trans ?_) hh
    rw [norm_smul_pos (by norm_num)]
    refine mul_le_mul_of_nonneg_left ?_ (by norm_num)
    exact (hlip _ _ ha1R (by linarith)).trans (mul_le_mul_of_nonneg_left h1 hL')
  have h3 : ‖h • ((Eh - 1) * (Eh * N a))‖ ≤ h * (‖f‖ * (h / 2) * B) := by
    rw [norm_smul_pos hh]
    refine mul_le_mul_of_nonneg_left ((norm_expLin_sub_one D.fre hh2 _).trans ?_) hh
    refine mul_le_mul_of_nonneg_left ?_ (by positivity)
    exact (norm_expLin_mul_le D.fre hh2 _).trans (D.bound a (by linarith))
  refine (norm_sub_le _ _).trans ?_
  have h4 := norm_add_le (expLin f (h : ℂ) * (a + h • N a) - s (t + h)) (h • (Eh * ((1 / 2 : ℝ) • (Nb a1 - Nb a))))
  nlinarith

end Local

/-! ### From one step to the simulation -/

theorem converge {T : ℝ} {s : ℝ → Arr ι} {cfl : Bool} {u : (ℕ → ℝ) → ℕ → Arr ι} {c K B : ℝ} (p : ℕ) (hp : 1 ≤ p)
    (hc : 0 ≤ c) (hK : 0 ≤ K) (hB : 0 ≤ B) (hu : ∀ dt, u dt 0 = s 0)
    (hstep : ∀ dt : ℕ → ℝ, (∀ k, 0 < dt k) → (cfl = false → ∀ k, dt k = dt 0) → ∀ k : ℕ, ∀ t h, t = elapsed dt k →
      h = dt k → 0 ≤ t → 0 < h → h ≤ 1 → h * B ≤ 1 → t + h ≤ T → ‖u dt k - s t‖ ≤ 1 →
      ‖u dt (k + 1) - s (t + h)‖ ≤ (1 + c * h) * ‖u dt k - s t‖ + K * h ^ (p + 1)) :
    ConvergesWithOrder p T s cfl u := by
  set Q := |T| * K * Real.exp (c * |T|) with hQ
  have hQ0 : 0 ≤ Q := by positivity
  refine ⟨Q, 1 / (1 + Q + B), by positivity, fun h dt hh0 hdt hcst k hk => ?_⟩
  have hh : 0 < h := (hdt 0).1.trans_le (hdt 0).2
  have hel : ∀ k, 0 ≤ elapsed dt k := fun k => Finset.sum_nonneg fun j _ => (hdt j).1.le
  have hT : 0 ≤ T := le_trans (hel k) hk
  rw [abs_of_nonneg hT] at hQ
  have hm : h * (1 + Q + B) ≤ 1 := by
    rw [le_div_iff₀ (by positivity)] at hh0; exact hh0
  have hh1 : h ≤ 1 := by nlinarith
  have hhB : h * B ≤ 1 := by nlinarith
  have hhp : h ^ p ≤ h := by
    calc h ^ p ≤ h ^ 1 := pow_le_pow_of_le_one hh.le hh1 hp
      _ = h := pow_one h
  have := accumulate (u := u dt) (s := s) (c := c) (K := K) (ρ := 1) (T := T) (h := h) dt p hc hK hdt (hu dt)
    (fun k hk he => hstep dt (fun k => (hdt k).1) hcst k _ _ rfl rfl (hel k) (hdt k).1 ((hdt k).2.trans hh1)
      (le_trans (mul_le_mul_of_nonneg_right (hdt k).2 hB) hhB) hk he)
    (by rw [← hQ]; nlinarith) k hk
  refine this.trans ?_
  rw [hQ]
  have h0 := hel k
  have : Real.exp (c * elapsed dt k) ≤ Real.exp (c * T) := Real.exp_le_exp.2 (by nlinarith)
  gcongr

/-- The truncation does not increase the distance to the solution. -/
theorem dealias_le {mask : ι → Bool} {x y : Arr ι} (hy : ∀ i, mask i = true → y i = 0) :
    ‖(fun i => if mask i then 0 else x i) - y‖ ≤ ‖x - y‖ := by
  rw [pi_norm_le_iff_of_nonneg (norm_nonneg _)]
  intro i
  by_cases h : mask i = true
  · simp [h, hy i h]
  · simp only [Pi.sub_apply, h]
    exact norm_le_pi_norm (x - y) i

/-- The coefficients returned at each step are those of its increment. -/
theorem simulation_coefs (sc : Scheme) (N : Arr ι → Arr ι) (f : Arr ι) (mask : ι → Bool) (ps pa pb : ℕ → Arr ι)
    (heap : Heap ι) (g1 g2 : Arr ι) (cfl : Bool) (u0 : Arr ι) (dt : ℕ → ℝ) (hdt : ∀ k, 0 < dt k)
    (hcst : cfl = false → ∀ k, dt k = dt 0) (k : ℕ) :
    ((simulation sc N f mask ps pa pb heap g1 g2 cfl u0 dt k).coefs.get (dt k)).2 =
      (expLin f (dt k : ℂ), expLin f ((dt k / 2 : ℝ) : ℂ)) := by
  have e2 : ∀ d : ℝ, expLin f ((d : ℂ) / 2) = expLin f ((d / 2 : ℝ) : ℂ) := fun d => by push_cast; rfl
  have e3 : ∀ d : ℝ, (fun i => Complex.exp (-(d : ℂ) / 2 * f i)) = expLin f ((d / 2 : ℝ) : ℂ) := fun d => by
    funext i; rw [expLin]; push_cast; rw [neg_div]
  cases cfl with
  | false =>
    have hc : ∀ k, (simulation sc N f mask ps pa pb heap g1 g2 false u0 dt k).coefs =
        Coefs.init f false (dt 0) g1 g2 := by
      intro k
      induction k with
      | zero => rfl
      | succ k ih =>
        rw [simulation, oneStep]
        simp only [Coefs.get, ih, Coefs.init, Coefs.compute]
        simp
    rw [hc]
    simp only [Coefs.get, Coefs.init, Coefs.compute, Bool.false_eq_true, if_false, hcst rfl k, e3]
    rfl
  | true =>
    have inv : ∀ k, (simulation sc N f mask ps pa pb heap g1 g2 true u0 dt k).coefs.useCFL = true ∧
        (simulation sc N f mask ps pa pb heap g1 g2 true u0 dt k).coefs.freq = f ∧
        ((simulation sc N f mask ps pa pb heap g1 g2 true u0 dt k).coefs.dtOld = 0 ∨
          ((simulation sc N f mask ps pa pb heap g1 g2 true u0 dt k).coefs.exact1 =
            expLin f (simulation sc N f mask ps pa pb heap g1 g2 true u0 dt k).coefs.dtOld ∧
          (simulation sc N f mask ps pa pb heap g1 g2 true u0 dt k).coefs.exact2 =
            expLin f ((simulation sc N f mask ps pa pb heap g1 g2 true u0 dt k).coefs.dtOld / 2))) := by
      intro k
      induction k with
      | zero => exact ⟨rfl, rfl, .inl rfl⟩
      | succ k ih =>
        obtain ⟨-, a, b, c, d⟩ := coefs_get_inv (hdt k).ne' ih.1 ih.2.1 ih.2.2
        exact ⟨a, b, .inr ⟨c, d⟩⟩
    obtain ⟨h1, h2, h3⟩ := inv k
    obtain ⟨a, -, -, -, d⟩ := coefs_get_inv (hdt k).ne' h1 h2 h3
    refine Prod.ext a ?_
    have hd : ((simulation sc N f mask ps pa pb heap g1 g2 true u0 dt k).coefs.get (dt k)).1.dtOld = dt k := by
      simp only [Coefs.get, h1, if_true]
      by_cases hd : (simulation sc N f mask ps pa pb heap g1 g2 true u0 dt k).coefs.dtOld = dt k
      · simp [hd]
      · simp [hd, Coefs.compute]
    rw [hd] at d
    exact d.trans (e2 _)

theorem simulation_succ (sc : Scheme) (N : Arr ι → Arr ι) (f : Arr ι) (mask : ι → Bool) (ps pa pb : ℕ → Arr ι)
    (heap : Heap ι) (g1 g2 : Arr ι) (cfl : Bool) (u0 : Arr ι) (dt : ℕ → ℝ) (hdt : ∀ k, 0 < dt k)
    (hcst : cfl = false → ∀ k, dt k = dt 0) (k : ℕ) :
    (simulation sc N f mask ps pa pb heap g1 g2 cfl u0 dt (k + 1)).heap .state =
      fun i => if mask i then 0 else
        timeStepRK sc (fun _ => N) (dt k : ℂ) (expLin f (dt k : ℂ)) (expLin f ((dt k / 2 : ℝ) : ℂ)) (ps k) (pa k) (pb k)
          (simulation sc N f mask ps pa pb heap g1 g2 cfl u0 dt k).heap .state i := by
  have hc := simulation_coefs sc N f mask ps pa pb heap g1 g2 cfl u0 dt hdt hcst k
  rw [simulation, oneStep]
  simp only [hc, dealias, set_same]

end Verif.Convergence
