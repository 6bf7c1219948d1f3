import Mathlib.Analysis.Calculus.MeanValue
import Mathlib.Analysis.Calculus.Deriv.Mul
import Mathlib.Analysis.Calculus.Deriv.Pow
import Mathlib.Analysis.Calculus.Deriv.Shift
import Mathlib.Analysis.Calculus.Deriv.Comp
import Mathlib.Tactic.Linarith
import Mathlib.Tactic.LinearCombination

/-! # Taylor estimates used for the finite differences -/

namespace Verif.FiniteDiff

theorem integrate_bound {g g' : ℝ → ℝ} {c : ℝ} (m : ℕ) (h0 : g 0 = 0)
    (hd : ∀ h, HasDerivAt g (g' h) h) (hb : ∀ h, 0 ≤ h → |g' h| ≤ c * h ^ m) {h : ℝ} (hh : 0 ≤ h) :
    |g h| ≤ c / (m + 1) * h ^ (m + 1) := by
  have key := image_norm_le_of_norm_deriv_right_le_deriv_boundary (f := g) (f' := g') (a := 0) (b := h)
    (B := fun x => c / (m + 1) * x ^ (m + 1)) (B' := fun x => c * x ^ m)
    (fun x _ => (hd x).continuousAt.continuousWithinAt) (fun x _ => (hd x).hasDerivWithinAt)
    (by simp [h0]) (fun x => by
      refine ((hasDerivAt_pow (m + 1) x).const_mul (c / (m + 1))).congr_deriv ?_
      have : (m + 1 : ℝ) ≠ 0 := by positivity
      push_cast
      field_simp)
    (fun x hx => by simpa using hb x hx.1)
  simpa using key ⟨hh, le_refl h⟩

theorem hasDeriv_plus {f f' : ℝ → ℝ} (hd : ∀ x, HasDerivAt f (f' x) x) (x h : ℝ) :
    HasDerivAt (fun h => f (x + h)) (f' (x + h)) h := (hd (x + h)).comp_const_add x h

theorem hasDeriv_minus {f f' : ℝ → ℝ} (hd : ∀ x, HasDerivAt f (f' x) x) (x h : ℝ) :
    HasDerivAt (fun h => f (x - h)) (-f' (x - h)) h := (hd (x - h)).comp_const_sub x h

/-- Centred first difference. -/
theorem centred_first {f f1 f2 f3 : ℝ → ℝ} {M : ℝ} (d1 : ∀ x, HasDerivAt f (f1 x) x)
    (d2 : ∀ x, HasDerivAt f1 (f2 x) x) (d3 : ∀ x, HasDerivAt f2 (f3 x) x) (hM : ∀ x, |f3 x| ≤ M)
    (x : ℝ) {h : ℝ} (hh : 0 ≤ h) : |f (x + h) - f (x - h) - 2 * h * f1 x| ≤ M / 3 * h ^ 3 := by
  have b3 : ∀ h, 0 ≤ h → |f3 (x + h) + f3 (x - h)| ≤ 2 * M * h ^ 0 := by
    intro h _
    have := abs_add_le (f3 (x + h)) (f3 (x - h))
    have := hM (x + h)
    have := hM (x - h)
    simp only [pow_zero, mul_one]
    linarith
  have b2 : ∀ h, 0 ≤ h → |f2 (x + h) - f2 (x - h)| ≤ 2 * M * h ^ 1 := by
    intro h hh
    have := integrate_bound (g := fun h => f2 (x + h) - f2 (x - h))
      (g' := fun h => f3 (x + h) + f3 (x - h)) 0 (by simp)
      (fun h => ((hasDeriv_plus d3 x h).fun_sub (hasDeriv_minus d3 x h)).congr_deriv (by ring)) b3 hh
    simpa using this
  have b1 : ∀ h, 0 ≤ h → |f1 (x + h) + f1 (x - h) - 2 * f1 x| ≤ M * h ^ 2 := by
    intro h hh
    have := integrate_bound (g := fun h => f1 (x + h) + f1 (x - h) - 2 * f1 x)
      (g' := fun h => f2 (x + h) - f2 (x - h)) 1 (by simp; ring)
      (fun h => (((hasDeriv_plus d2 x h).fun_add (hasDeriv_minus d2 x h)).sub_const _).congr_deriv
        (by ring)) b2 hh
    refine this.trans (le_of_eq ?_)
    push_cast; ring
  have := integrate_bound (g := fun h => f (x + h) - f (x - h) - 2 * h * f1 x)
    (g' := fun h => f1 (x + h) + f1 (x - h) - 2 * f1 x) 2 (by simp)
    (fun h => (((hasDeriv_plus d1 x h).fun_sub (hasDeriv_minus d1 x h)).fun_sub
      (((hasDerivAt_id h).const_mul 2).mul_const (f1 x))).congr_deriv (by ring)) b1 hh
  refine this.trans (le_of_eq ?_)
  push_cast; ring

/-- Centred second difference. -/
theorem centred_second {f f1 f2 f3 f4 : ℝ → ℝ} {M : ℝ} (d1 : ∀ x, HasDerivAt f (f1 x) x)
    (d2 : ∀ x, HasDerivAt f1 (f2 x) x) (d3 : ∀ x, HasDerivAt f2 (f3 x) x)
    (d4 : ∀ x, HasDerivAt f3 (f4 x) x) (hM : ∀ x, |f4 x| ≤ M)
    (x : ℝ) {h : ℝ} (hh : 0 ≤ h) :
    |f (x + h) - 2 * f x + f (x - h) - h ^ 2 * f2 x| ≤ M / 12 * h ^ 4 := by
  have b1 : ∀ h, 0 ≤ h → |f1 (x + h) - f1 (x - h) - 2 * h * f2 x| ≤ M / 3 * h ^ 3 :=
    fun h hh => centred_first d2 d3 d4 hM x hh
  have := integrate_bound (g := fun h => f (x + h) - 2 * f x + f (x - h) - h ^ 2 * f2 x)
    (g' := fun h => f1 (x + h) - f1 (x - h) - 2 * h * f2 x) 3 (by simp; ring)
    (fun h => ((((hasDeriv_plus d1 x h).sub_const (2 * f x)).fun_add (hasDeriv_minus d1 x h)).fun_sub
      ((hasDerivAt_pow 2 h).mul_const (f2 x))).congr_deriv (by push_cast; ring)) b1 hh
  refine this.trans (le_of_eq ?_)
  push_cast; ring

/-- Trapezoidal rule. -/
theorem trapezoid {f f1 f2 f3 : ℝ → ℝ} {M t : ℝ} (d1 : ∀ x, HasDerivAt f (f1 x) x)
    (d2 : ∀ x, HasDerivAt f1 (f2 x) x) (d3 : ∀ x, HasDerivAt f2 (f3 x) x)
    (hM : ∀ x, t ≤ x → |f3 x| ≤ M) {h : ℝ} (hh : 0 ≤ h) :
    |f (t + h) - f t - h / 2 * (f1 t + f1 (t + h))| ≤ M / 12 * h ^ 3 := by
  have b2 : ∀ h, 0 ≤ h → |-(h / 2 * f3 (t + h))| ≤ M / 2 * h ^ 1 := by
    intro h hh
    rw [abs_neg, abs_mul, abs_of_nonneg (by linarith : 0 ≤ h / 2)]
    have := mul_le_mul_of_nonneg_left (hM (t + h) (by linarith)) (by linarith : 0 ≤ h / 2)
    refine this.trans (le_of_eq (by ring))
  have b1 : ∀ h, 0 ≤ h → |1 / 2 * (f1 (t + h) - f1 t) - h / 2 * f2 (t + h)| ≤ M / 4 * h ^ 2 := by
    intro h hh
    have := integrate_bound (g := fun h => 1 / 2 * (f1 (t + h) - f1 t) - h / 2 * f2 (t + h))
      (g' := fun h => -(h / 2 * f3 (t + h))) 1 (by simp)
      (fun h => ((((hasDeriv_plus d2 t h).sub_const (f1 t)).const_mul (1 / 2)).fun_sub
        (((hasDerivAt_id h).div_const 2).fun_mul (hasDeriv_plus d3 t h))).congr_deriv
          (by simp only [id]; ring)) b2 hh
    refine this.trans (le_of_eq ?_)
    push_cast; ring
  have := integrate_bound (g := fun h => f (t + h) - f t - h / 2 * (f1 t + f1 (t + h)))
    (g' := fun h => 1 / 2 * (f1 (t + h) - f1 t) - h / 2 * f2 (t + h)) 2 (by simp)
    (fun h => (((hasDeriv_plus d1 t h).sub_const (f t)).fun_sub
      (((hasDerivAt_id h).div_const 2).fun_mul ((hasDeriv_plus d2 t h).const_add (f1 t)))).congr_deriv
        (by simp only [id]; ring)) b1 hh
  refine this.trans (le_of_eq ?_)
  push_cast; ring

end Verif.FiniteDiff
