import Verif.Convergence.Spec
import Verif.Schemes.Props
import Mathlib.Analysis.Calculus.MeanValue
import Mathlib.Analysis.Calculus.ContDiff.RCLike
import Mathlib.Analysis.SpecialFunctions.ExpDeriv
import Mathlib.Analysis.Calculus.Deriv.Pi
import Mathlib.Analysis.Calculus.Deriv.Pow
import Mathlib.Analysis.Calculus.Deriv.Prod
import Mathlib.Tactic.LinearCombination

/-! Helper lemmas for C83. -/

namespace Verif.Convergence

open Verif Schemes Set

set_option linter.unusedSectionVars false

/-! ### Mean values -/

section Mean

variable {E : Type*} [NormedAddCommGroup E] [NormedSpace ℝ E]

/-- `‖f'‖ ≤ C t ^ n` and `f 0 = 0` give `‖f t‖ ≤ C t ^ (n + 1) / (n + 1)`. -/
theorem norm_le_pow {f f' : ℝ → E} {C h : ℝ} (n : ℕ) (hf : ∀ t ∈ Icc 0 h, HasDerivAt f (f' t) t) (h0 : f 0 = 0)
    (hb : ∀ t ∈ Icc 0 h, ‖f' t‖ ≤ C * t ^ n) {t : ℝ} (ht : t ∈ Icc 0 h) : ‖f t‖ ≤ C * t ^ (n + 1) / (n + 1) := by
  have key := image_norm_le_of_norm_deriv_right_le_deriv_boundary (f := f) (f' := f') (a := 0) (b := h)
    (B := fun t => C * t ^ (n + 1) / (n + 1)) (B' := fun t => C * t ^ n)
    (fun x hx => (hf x hx).continuousAt.continuousWithinAt)
    (fun x hx => (hf x ⟨hx.1, hx.2.le⟩).hasDerivWithinAt)
    (by simp [h0]) ?_ (fun x hx => hb x ⟨hx.1, hx.2.le⟩)
  · exact key ht
  · intro x
    have := ((hasDerivAt_pow (n + 1) x).const_mul C).div_const ((n : ℝ) + 1)
    refine this.congr_deriv ?_
    have hn : (n : ℝ) + 1 ≠ 0 := by positivity
    push_cast
    field_simp

/-- First order Taylor formula. -/
theorem taylor1 {v v' v'' : ℝ → E} {M h : ℝ} (hh : 0 ≤ h) (hv : ∀ t ∈ Icc 0 h, HasDerivAt v (v' t) t)
    (hv' : ∀ t ∈ Icc 0 h, HasDerivAt v' (v'' t) t) (hM : ∀ t ∈ Icc 0 h, ‖v'' t‖ ≤ M) :
    ‖v h - v 0 - h • v' 0‖ ≤ M * h ^ 2 / 2 := by
  have h1 : ∀ t ∈ Icc 0 h, ‖v' t - v' 0‖ ≤ M * t ^ 1 := by
    intro t ht
    have := norm_le_pow (f := fun t => v' t - v' 0) (f' := v'') (C := M) 0
      (fun t ht => (hv' t ht).sub_const _) (by simp) (fun t ht => by simpa using hM t ht) ht
    simpa using this
  have := norm_le_pow (f := fun t => v t - v 0 - t • v' 0) (f' := fun t => v' t - v' 0) (C := M) 1
    (fun t ht => by
      have := ((hv t ht).sub_const (v 0)).sub ((hasDerivAt_id t).smul_const (v' 0))
      exact this.congr_deriv (by simp)) (by simp) h1 (t := h) ⟨hh, le_rfl⟩
  norm_num at this
  exact this

/-- Error of the trapezoidal rule. -/
theorem trapezoid {v v' v'' v''' : ℝ → E} {M h : ℝ} (hh : 0 ≤ h) (hv : ∀ t ∈ Icc 0 h, HasDerivAt v (v' t) t)
    (hv' : ∀ t ∈ Icc 0 h, HasDerivAt v' (v'' t) t) (hv'' : ∀ t ∈ Icc 0 h, HasDerivAt v'' (v''' t) t)
    (hM : ∀ t ∈ Icc 0 h, ‖v''' t‖ ≤ M) :
    ‖v h - v 0 - (h / 2) • (v' 0 + v' h)‖ ≤ M * h ^ 3 / 12 := by
  have h1 : ∀ t ∈ Icc 0 h, ‖(1 / 2 : ℝ) • (v' t - v' 0) - (t / 2) • v'' t‖ ≤ M / 4 * t ^ 2 := by
    intro t ht
    have := norm_le_pow (f := fun t => (1 / 2 : ℝ) • (v' t - v' 0) - (t / 2) • v'' t)
      (f' := fun t => -((t / 2) • v''' t)) (C := M / 2) 1 (fun t ht => by
        have a := ((hv' t ht).sub_const (v' 0)).const_smul (1 / 2 : ℝ)
        have b := ((hasDerivAt_id t).div_const 2).smul (hv'' t ht)
        refine (a.sub b).congr_deriv ?_
        simp only [id]
        module) (by simp) (fun t ht => by
        rw [norm_neg, norm_smul, Real.norm_eq_abs, abs_of_nonneg (by linarith [ht.1])]
        have := hM t ht
        have h0 := ht.1
        nlinarith) ht
    refine this.trans (le_of_eq ?_)
    norm_num
    ring
  have := norm_le_pow (f := fun t => v t - v 0 - (t / 2) • (v' 0 + v' t))
    (f' := fun t => (1 / 2 : ℝ) • (v' t - v' 0) - (t / 2) • v'' t) (C := M / 4) 2 (fun t ht => by
      have b := ((hasDerivAt_id t).div_const 2).smul ((hv' t ht).const_add (v' 0))
      refine (((hv t ht).sub_const (v 0)).sub b).congr_deriv ?_
      simp only [id]
      module) (by simp) h1 (t := h) ⟨hh, le_rfl⟩
  refine this.trans (le_of_eq ?_)
  norm_num
  ring

/-- Error of the midpoint rule. -/
theorem midpoint {v v' v'' v''' : ℝ → E} {M h : ℝ} (hh : 0 ≤ h) (hv : ∀ t ∈ Icc 0 h, HasDerivAt v (v' t) t)
    (hv' : ∀ t ∈ Icc 0 h, HasDerivAt v' (v'' t) t) (hv'' : ∀ t ∈ Icc 0 h, HasDerivAt v'' (v''' t) t)
    (hM : ∀ t ∈ Icc 0 h, ‖v''' t‖ ≤ M) :
    ‖v h - v 0 - h • v' (h / 2)‖ ≤ M * h ^ 3 / 24 := by
  have hp : ∀ t ∈ Icc 0 (h / 2), h / 2 + t ∈ Icc 0 h := fun t ht => ⟨by linarith [ht.1], by linarith [ht.2]⟩
  have hm : ∀ t ∈ Icc 0 (h / 2), h / 2 - t ∈ Icc 0 h := fun t ht => ⟨by linarith [ht.2], by linarith [ht.1]⟩
  have dp : ∀ t : ℝ, HasDerivAt (fun t : ℝ => h / 2 + t) 1 t := fun t => (hasDerivAt_id t).const_add _
  have dm : ∀ t : ℝ, HasDerivAt (fun t : ℝ => h / 2 - t) (-1) t := fun t => (hasDerivAt_id t).const_sub _
  have cp : ∀ {g g' : ℝ → E}, (∀ t ∈ Icc 0 h, HasDerivAt g (g' t) t) → ∀ t ∈ Icc 0 (h / 2),
      HasDerivAt (fun t => g (h / 2 + t)) (g' (h / 2 + t)) t := by
    intro g g' hg t ht
    exact ((hg _ (hp t ht)).scomp t (dp t)).congr_deriv (by simp)
  have cm : ∀ {g g' : ℝ → E}, (∀ t ∈ Icc 0 h, HasDerivAt g (g' t) t) → ∀ t ∈ Icc 0 (h / 2),
      HasDerivAt (fun t => g (h / 2 - t)) (-g' (h / 2 - t)) t := by
    intro g g' hg t ht
    exact ((hg _ (hm t ht)).scomp t (dm t)).congr_deriv (by simp)
  have h0 : ∀ t ∈ Icc 0 (h / 2), ‖v'' (h / 2 + t) - v'' (h / 2 - t)‖ ≤ 2 * M * t ^ 1 := by
    intro t ht
    have := norm_le_pow (f := fun t => v'' (h / 2 + t) - v'' (h / 2 - t))
      (f' := fun t => v''' (h / 2 + t) + v''' (h / 2 - t)) (C := 2 * M) 0 (fun t ht => by
        refine ((cp hv'' t ht).sub (cm hv'' t ht)).congr_deriv ?_
        module) (by simp) (fun t ht => by
        have a := hM _ (hp t ht)
        have b := hM _ (hm t ht)
        have := norm_add_le (v''' (h / 2 + t)) (v''' (h / 2 - t))
        simp only [pow_zero, mul_one]
        linarith) ht
    simpa using this
  have h1 : ∀ t ∈ Icc 0 (h / 2), ‖v' (h / 2 + t) + v' (h / 2 - t) - (2 : ℝ) • v' (h / 2)‖ ≤ M * t ^ 2 := by
    intro t ht
    have := norm_le_pow (f := fun t => v' (h / 2 + t) + v' (h / 2 - t) - (2 : ℝ) • v' (h / 2))
      (f' := fun t => v'' (h / 2 + t) - v'' (h / 2 - t)) (C := 2 * M) 1 (fun t ht => by
        refine (((cp hv' t ht).add (cm hv' t ht)).sub_const _).congr_deriv ?_
        module) (by simp only [add_zero, sub_zero]; module) h0 ht
    refine this.trans (le_of_eq ?_)
    norm_num
    ring
  have := norm_le_pow (f := fun t => v (h / 2 + t) - v (h / 2 - t) - (2 * t) • v' (h / 2))
    (f' := fun t => v' (h / 2 + t) + v' (h / 2 - t) - (2 : ℝ) • v' (h / 2)) (C := M) 2 (fun t ht => by
      have b := (((hasDerivAt_id t).const_mul 2).smul_const (v' (h / 2)))
      refine (((cp hv t ht).sub (cm hv t ht)).sub b).congr_deriv ?_
      simp only [mul_one]
      module) (by simp) h1 (t := h / 2) ⟨by linarith, le_rfl⟩
  rw [show h / 2 + h / 2 = h by ring, show h / 2 - h / 2 = 0 by ring, show 2 * (h / 2) = h by ring] at this
  refine this.trans (le_of_eq ?_)
  norm_num
  ring

/-- Accumulation of the errors: a method whose error grows by a factor `1 + c dt` at each step and gets a local error
`K dt ^ (p + 1)`, as long as the error is smaller than `ρ`. -/
theorem accumulate (u : ℕ → E) (s : ℝ → E) {c K ρ h T : ℝ} (dt : ℕ → ℝ) (p : ℕ) (hc : 0 ≤ c) (hK : 0 ≤ K)
    (hdt : ∀ k, 0 < dt k ∧ dt k ≤ h) (hu : u 0 = s 0)
    (hstep : ∀ k : ℕ, elapsed dt k + dt k ≤ T → ‖u k - s (elapsed dt k)‖ ≤ ρ →
      ‖u (k + 1) - s (elapsed dt k + dt k)‖ ≤ (1 + c * dt k) * ‖u k - s (elapsed dt k)‖ + K * dt k ^ (p + 1))
    (hρ : T * K * Real.exp (c * T) * h ^ p ≤ ρ) (k : ℕ) (hk : elapsed dt k ≤ T) :
    ‖u k - s (elapsed dt k)‖ ≤ elapsed dt k * K * Real.exp (c * elapsed dt k) * h ^ p := by
  have hh : 0 < h := (hdt 0).1.trans_le (hdt 0).2
  induction k with
  | zero => simp [hu, elapsed]
  | succ k ih =>
    have hsucc : elapsed dt (k + 1) = elapsed dt k + dt k := Finset.sum_range_succ _ _
    obtain ⟨hd0, hdh⟩ := hdt k
    rw [hsucc] at hk ⊢
    have hk' : elapsed dt k ≤ T := by linarith
    have ih := ih hk'
    have h0 : 0 ≤ elapsed dt k := Finset.sum_nonneg fun j _ => (hdt j).1.le
    have hsmall : ‖u k - s (elapsed dt k)‖ ≤ ρ := by
      refine ih.trans (le_trans ?_ hρ)
      have : Real.exp (c * elapsed dt k) ≤ Real.exp (c * T) := Real.exp_le_exp.2 (by nlinarith)
      have hT : 0 ≤ T := h0.trans hk'
      gcongr
    refine (hstep k hk hsmall).trans ?_
    have e1 : 1 + c * dt k ≤ Real.exp (c * dt k) := by linarith [Real.add_one_le_exp (c * dt k)]
    have e2 : Real.exp (c * (elapsed dt k + dt k)) = Real.exp (c * dt k) * Real.exp (c * elapsed dt k) := by
      rw [← Real.exp_add]; congr 1; ring
    have e3 : 1 ≤ Real.exp (c * (elapsed dt k + dt k)) := Real.one_le_exp (by positivity)
    have e4 : K * dt k ^ (p + 1) ≤ dt k * K * h ^ p := by
      have : dt k ^ p ≤ h ^ p := pow_le_pow_left₀ hd0.le hdh p
      calc K * dt k ^ (p + 1) = dt k * K * dt k ^ p := by ring
        _ ≤ dt k * K * h ^ p := mul_le_mul_of_nonneg_left this (by positivity)
    calc (1 + c * dt k) * ‖u k - s (elapsed dt k)‖ + K * dt k ^ (p + 1)
        ≤ Real.exp (c * dt k) * (elapsed dt k * K * Real.exp (c * elapsed dt k) * h ^ p)
          + dt k * K * h ^ p * Real.exp (c * (elapsed dt k + dt k)) := by
          refine add_le_add (mul_le_mul e1 ih (norm_nonneg _) (Real.exp_pos _).le) (e4.trans ?_)
          exact le_mul_of_one_le_right (by positivity) e3
      _ = (elapsed dt k + dt k) * K * Real.exp (c * (elapsed dt k + dt k)) * h ^ p := by
          rw [e2]; ring

end Mean

/-! ### Solutions -/

section Sol

variable {ι : Type*} [Fintype ι]

/-- `p` times differentiable tendencies give solutions which are `p + 1` times differentiable. -/
theorem smooth {N : Arr ι → Arr ι} {f : Arr ι} {s : ℝ → Arr ι} {U : Set ℝ} (hU : IsOpen U)
    (hs : ∀ t ∈ U, HasDerivAt s (N (s t) - f * s t) t) (p : ℕ) (hN : ContDiff ℝ p N) :
    ContDiffOn ℝ (p + 1 : ℕ) s U := by
  have hd : ∀ t ∈ U, deriv s t = N (s t) - f * s t := fun t ht => (hs t ht).deriv
  have hdiff : DifferentiableOn ℝ s U := fun t ht => (hs t ht).differentiableAt.differentiableWithinAt
  have step : ∀ q : ℕ, q ≤ p → ContDiffOn ℝ q s U → ContDiffOn ℝ (q + 1 : ℕ) s U := by
    intro q hq hc
    have h1 : ContDiffOn ℝ q (fun t => N (s t) - f * s t) U := by
      refine ContDiffOn.sub ?_ (contDiffOn_const.mul hc)
      exact (hN.of_le (by exact_mod_cast hq)).comp_contDiffOn hc
    have := (contDiffOn_succ_iff_deriv_of_isOpen (n := (q : WithTop ℕ∞)) hU).2
      ⟨hdiff, by simp, h1.congr hd⟩
    exact_mod_cast this
  have : ∀ q : ℕ, q ≤ p + 1 → ContDiffOn ℝ q s U := by
    intro q
    induction q with
    | zero => intro _; exact contDiffOn_zero.2 hdiff.continuousOn
    | succ q ih => intro hq; exact step q (by omega) (ih (by omega))
  exact this _ le_rfl

/-- `g' = g1 - f g`: the derivative in the frame of the linear term. -/
noncomputable def twist (f : Arr ι) (g : ℝ → Arr ι) : ℝ → Arr ι := fun t => deriv g t + f * g t

theorem twist_smooth {f : Arr ι} {g : ℝ → Arr ι} {U : Set ℝ} (hU : IsOpen U) (p : ℕ)
    (hg : ContDiffOn ℝ (p + 1 : ℕ) g U) :
    ContDiffOn ℝ p (twist f g) U ∧ ∀ t ∈ U, HasDerivAt g (twist f g t - f * g t) t := by
  have h := (contDiffOn_succ_iff_deriv_of_isOpen (n := (p : WithTop ℕ∞)) hU).1 (by exact_mod_cast hg)
  refine ⟨h.2.2.add (contDiffOn_const.mul (hg.of_le (by exact_mod_cast Nat.le_succ p))), fun t ht => ?_⟩
  have := ((h.1 t ht).differentiableAt (hU.mem_nhds ht)).hasDerivAt
  refine this.congr_deriv ?_
  simp [twist]

theorem hasDerivAt_expLin (f : Arr ι) (h t : ℝ) :
    HasDerivAt (fun τ : ℝ => expLin f ((h - τ : ℝ) : ℂ)) (f * expLin f ((h - t : ℝ) : ℂ)) t := by
  refine hasDerivAt_pi.2 ?_
  intro i
  have h1 : HasDerivAt (fun τ : ℝ => ((h - τ : ℝ) : ℂ)) (-1) t := by
    have := ((hasDerivAt_id t).const_sub h).ofReal_comp
    simpa using this
  have h2 : HasDerivAt (fun τ : ℝ => -((h - τ : ℝ) : ℂ) * f i) (f i) t := by
    refine (h1.neg.mul_const (f i)).congr_deriv (by simp)
  exact h2.cexp.congr_deriv (by simp [expLin]; ring)

theorem norm_expLin_mul_le {f : Arr ι} (hf : ∀ i, 0 ≤ (f i).re) {h : ℝ} (hh : 0 ≤ h) (x : Arr ι) :
    ‖expLin f (h : ℂ) * x‖ ≤ ‖x‖ := by
  rw [pi_norm_le_iff_of_nonneg (norm_nonneg _)]
  intro i
  have h1 : ‖expLin f (h : ℂ) i‖ ≤ 1 := by
    rw [expLin, Complex.norm_exp, Real.exp_le_one_iff]
    simp only [neg_mul, Complex.neg_re, Complex.re_ofReal_mul]
    have := mul_nonneg hh (hf i)
    linarith
  calc ‖(expLin f (h : ℂ) * x) i‖ = ‖expLin f (h : ℂ) i‖ * ‖x i‖ := by simp
    _ ≤ 1 * ‖x‖ := mul_le_mul h1 (norm_le_pi_norm x i) (norm_nonneg _) zero_le_one
    _ = ‖x‖ := one_mul _

/-- In the frame of the linear term. -/
theorem frame {f : Arr ι} {g g1 : ℝ → Arr ι} {t h τ : ℝ} (hg : HasDerivAt g (g1 (t + τ) - f * g (t + τ)) (t + τ)) :
    HasDerivAt (fun τ : ℝ => expLin f ((h - τ : ℝ) : ℂ) * g (t + τ)) (expLin f ((h - τ : ℝ) : ℂ) * g1 (t + τ)) τ := by
  have h1 : HasDerivAt (fun τ : ℝ => g (t + τ)) (g1 (t + τ) - f * g (t + τ)) τ := by
    have := hg.scomp τ ((hasDerivAt_id τ).const_add t)
    exact this.congr_deriv (by simp)
  refine ((hasDerivAt_expLin f h τ).mul h1).congr_deriv ?_
  ring

/-- What the proofs use of a solution: its tendencies `n0 = N(s)` and their derivatives in the frame of the linear
term. -/
structure Data (N : Arr ι → Arr ι) (f : Arr ι) (T : ℝ) (s : ℝ → Arr ι) (n1 n2 : ℝ → Arr ι) (M0 M1 M2 L R B : ℝ) :
    Prop where
  fre : ∀ i, 0 ≤ (f i).re
  ds : ∀ t ∈ Icc 0 T, HasDerivAt s (N (s t) - f * s t) t
  dn : ∀ t ∈ Icc 0 T, HasDerivAt (fun t => N (s t)) (n1 t - f * N (s t)) t
  bM0 : ∀ t ∈ Icc 0 T, ‖N (s t)‖ ≤ M0
  bM1 : ∀ t ∈ Icc 0 T, ‖n1 t‖ ≤ M1
  M1pos : 0 ≤ M1
  Lpos : 0 ≤ L
  Bpos : 0 ≤ B
  sR : ∀ t ∈ Icc 0 T, ‖s t‖ ≤ R - 2
  lip : ∀ x y : Arr ι, ‖x‖ ≤ R → ‖y‖ ≤ R → ‖N x - N y‖ ≤ L * ‖x - y‖
  bound : ∀ x : Arr ι, ‖x‖ ≤ R → ‖N x‖ ≤ B

/-- Second derivative. -/
structure Data2 (f : Arr ι) (T : ℝ) (n1 n2 : ℝ → Arr ι) (M2 : ℝ) : Prop where
  dn1 : ∀ t ∈ Icc 0 T, HasDerivAt n1 (n2 t - f * n1 t) t
  bM2 : ∀ t ∈ Icc 0 T, ‖n2 t‖ ≤ M2
  M2pos : 0 ≤ M2

theorem bounded {g : ℝ → Arr ι} {T : ℝ} (hg : ContinuousOn g (Icc 0 T)) :
    ∃ M, 0 ≤ M ∧ ∀ t ∈ Icc 0 T, ‖g t‖ ≤ M := by
  obtain ⟨M, hM⟩ := isCompact_Icc.exists_bound_of_continuousOn hg
  exact ⟨max M 0, le_max_right _ _, fun t ht => (hM t ht).trans (le_max_left _ _)⟩

/-- Lipschitz on balls. -/
theorem lipschitz {N : Arr ι → Arr ι} (hN : ContDiff ℝ 1 N) (R : ℝ) :
    ∃ L B : ℝ, 0 ≤ L ∧ 0 ≤ B ∧ (∀ x y : Arr ι, ‖x‖ ≤ R → ‖y‖ ≤ R → ‖N x - N y‖ ≤ L * ‖x - y‖) ∧
      ∀ x : Arr ι, ‖x‖ ≤ R → ‖N x‖ ≤ B := by
  have hc : IsCompact (Metric.closedBall (0 : Arr ι) R) := isCompact_closedBall 0 R
  obtain ⟨B, hB⟩ := hc.exists_bound_of_continuousOn hN.continuous.continuousOn
  have hd : Continuous (fderiv ℝ N) := hN.continuous_fderiv (by norm_num)
  obtain ⟨L, hL⟩ := hc.exists_bound_of_continuousOn hd.continuousOn
  refine ⟨max L 0, max B 0, le_max_right _ _, le_max_right _ _, fun x y hx hy => ?_, fun x hx =>
    (hB x (by simpa using hx)).trans (le_max_left _ _)⟩
  have := (convex_closedBall (0 : Arr ι) R).norm_image_sub_le_of_norm_fderiv_le (𝕜 := ℝ) (f := N) (C := max L 0)
    (fun z _ => (hN.differentiable (by norm_num)).differentiableAt) (fun z hz => (hL z hz).trans (le_max_left _ _))
    (x := y) (y := x) (by simpa using hy) (by simpa using hx)
  exact this

theorem data_of {N : Arr ι → Arr ι} {f : Arr ι} {mask : ι → Bool} {T : ℝ} {s : ℝ → Arr ι} (hs : Solution N f mask T s)
    (hf : ∀ i, 0 ≤ (f i).re) (hN : ContDiff ℝ 1 N) :
    ∃ n1 n2 : ℝ → Arr ι, ∃ M0 M1 M2 L R B : ℝ, Data N f T s n1 n2 M0 M1 M2 L R B ∧
      (ContDiff ℝ 2 N → Data2 f T n1 n2 M2) := by
  obtain ⟨δ, hδ, hd⟩ := hs.deriv
  have hU : IsOpen (Ioo (-δ) (T + δ)) := isOpen_Ioo
  have hsub : Icc 0 T ⊆ Ioo (-δ) (T + δ) := fun t ht => ⟨by linarith [ht.1], by linarith [ht.2]⟩
  have hs2 := smooth hU hd 1 hN
  have hn : ContDiffOn ℝ (0 + 1 : ℕ) (fun t => N (s t)) (Ioo (-δ) (T + δ)) :=
    (hN.comp_contDiffOn (hs2.of_le (by norm_num)))
  obtain ⟨c1, d0⟩ := twist_smooth (f := f) hU 0 hn
  obtain ⟨M0, -, hM0⟩ := bounded (hn.continuousOn.mono hsub)
  obtain ⟨M1, hM1p, hM1⟩ := bounded (c1.continuousOn.mono hsub)
  obtain ⟨R, hRp, hR⟩ := bounded (hs2.continuousOn.mono hsub)
  obtain ⟨L, B, hL, hB, hlip, hbd⟩ := lipschitz hN (R + 2)
  have D : ∀ n2 M2, Data N f T s (twist f fun t => N (s t)) n2 M0 M1 M2 L (R + 2) B := fun n2 M2 =>
    ⟨hf, fun t ht => hd t (hsub ht), fun t ht => d0 t (hsub ht), hM0, hM1, hM1p, hL, hB,
      fun t ht => by linarith [hR t ht], hlip, hbd⟩
  by_cases h2 : ContDiff ℝ 2 N
  · have hs3 := smooth hU hd 2 h2
    have hn : ContDiffOn ℝ (1 + 1 : ℕ) (fun t => N (s t)) (Ioo (-δ) (T + δ)) :=
      (h2.comp_contDiffOn (hs3.of_le (by norm_num)))
    obtain ⟨c1, -⟩ := twist_smooth (f := f) hU 1 hn
    obtain ⟨c2, d1⟩ := twist_smooth (f := f) hU 0 c1
    obtain ⟨M2, hM2p, hM2⟩ := bounded (c2.continuousOn.mono hsub)
    exact ⟨_, _, M0, M1, M2, L, R + 2, B, D _ _, fun _ => ⟨fun t ht => d1 t (hsub ht), hM2, hM2p⟩⟩
  · exact ⟨_, fun _ => 0, M0, M1, 0, L, R + 2, B, D _ _, fun h => absurd h h2⟩

end Sol

end Verif.Convergence
