import Verif.SpatialMeans.Spec
import Verif.SpectBudget.Props
import Verif.Energy.PropsPlate

namespace Verif.SpatialMeans

open Verif.Fourier Verif.Energy Verif.Vectors Verif.SpectBudget Verif.Galerkin Finset

set_option linter.unusedSectionVars false

noncomputable section

variable {D : Type*} [Fintype D] [DecidableEq D]

/-! ### modes -/

theorem sq_kick (dt : ℝ) (a F : ℂ) :
    ‖a + dt * F‖ ^ 2 = ‖a‖ ^ 2 + dt * (2 * innerProd a F) + dt ^ 2 * ‖F‖ ^ 2 := by
  simp only [← Complex.normSq_eq_norm_sq, Complex.normSq_apply, innerProd, Complex.add_re,
    Complex.add_im, Complex.mul_re, Complex.mul_im, Complex.ofReal_re, Complex.ofReal_im,
    Complex.conj_re, Complex.conj_im]
  ring

theorem innerProd_self (a : ℂ) : innerProd a a = ‖a‖ ^ 2 := by
  simp only [← Complex.normSq_eq_norm_sq, Complex.normSq_apply, innerProd, Complex.mul_re,
    Complex.conj_re, Complex.conj_im]
  ring

theorem innerProd_sub_smul (a T : ℂ) (s : ℝ) (b : ℂ) :
    innerProd a (T - s * b) = innerProd a T - s * innerProd a b := by
  simp only [innerProd, Complex.mul_re, Complex.conj_re, Complex.conj_im, Complex.sub_re,
    Complex.sub_im, Complex.mul_im, Complex.ofReal_re, Complex.ofReal_im]
  ring

theorem innerProd_add (a b c : ℂ) : innerProd a (b + c) = innerProd a b + innerProd a c := by
  simp only [innerProd, mul_add, Complex.add_re]

theorem innerProd_symm (a b : ℂ) : innerProd a b = innerProd b a := by
  simp only [innerProd, Complex.mul_re, Complex.conj_re, Complex.conj_im]
  ring

theorem sq_deriv {g : ℝ → ℂ} {g' : ℂ} {t : ℝ} (h : HasDerivAt g g' t) :
    HasDerivAt (fun s => ‖g s‖ ^ 2) (2 * innerProd (g t) g') t := by
  have h2 := (half_deriv h).const_mul 2
  have e : (fun s => ‖g s‖ ^ 2) = fun s => 2 * half (g s) := by
    funext s; rw [half]; ring
  rw [e]; exact h2

/-- Derivative of a sum of squares. -/
theorem sumSq_deriv {S : Finset (D → ℤ)} {a : ℝ → Fld D} {T : Fld D} {σ : (D → ℤ) → ℝ} {t : ℝ}
    (h : Evolves S a T σ t) :
    HasDerivAt (fun s => ∑ k ∈ S, ‖a s k‖ ^ 2 / 2)
      (∑ k ∈ S, innerProd (a t k) (T k) - ∑ k ∈ S, σ k * ‖a t k‖ ^ 2) t := by
  rw [← sum_sub_distrib]
  refine HasDerivAt.fun_sum fun k hk => ?_
  refine ((sq_deriv (h k hk)).div_const 2).congr_deriv ?_
  rw [innerProd_sub_smul, innerProd_self]; ring

theorem diss_tot (S : Finset (D → ℤ)) (fd fdHypo e : (D → ℤ) → ℝ) :
    (diss S fd fdHypo e).tot = ∑ k ∈ S, (fd k + fdHypo k) * (2 * e k) := by
  simp only [diss, ← sum_add_distrib]
  exact sum_congr rfl fun k _ => by ring

/-! ### the grid -/

theorem gmean_re (n : D → ℕ) (x : Pt n → ℂ) : (gmean n x).re = gridMean n fun j => (x j).re := by
  have e : (∏ d, (n d : ℂ)) = ((∏ d, (n d : ℝ) : ℝ) : ℂ) := by push_cast; rfl
  rw [gmean, gridMean, e, Complex.div_ofReal_re, Complex.re_sum]

theorem grid_ofReal {n : D → ℕ} {S : Finset (D → ℤ)} {a : Fld D} (h : RealOn S a) (j : Pt n) :
    gridVal n S a j = (phys n S a j : ℂ) := by
  have := real_grid (n := n) h j
  rw [phys]
  exact (Complex.conj_eq_iff_re.1 this).symm

/-- Parseval for the transform of a real array. -/
theorem sum_inner_fft (n : D → ℕ) (S : Finset (D → ℤ)) (x : Pt n → ℝ) (u : Fld D) :
    ∑ k ∈ S, innerProd (fftCoef n (fun j => (x j : ℂ)) k) (u k)
      = gridMean n fun j => x j * phys n S u j := by
  have h := congrArg Complex.re (parseval n S (fun j => (x j : ℂ)) u)
  rw [Complex.re_sum, gmean_re] at h
  rw [show (gridMean n fun j => x j * phys n S u j)
    = gridMean n fun j => ((x j : ℂ) * (starRingEnd ℂ) (gridVal n S u j)).re by
      congr 1; funext j
      rw [Complex.re_ofReal_mul, Complex.conj_re, phys], ← h]
  refine sum_congr rfl fun k _ => ?_
  rw [innerProd_symm, innerProd, mul_comm]

theorem sum_inner_fft' (n : D → ℕ) (S : Finset (D → ℤ)) {x : Pt n → ℂ} {y : Pt n → ℝ}
    (h : ∀ j, x j = (y j : ℂ)) (u : Fld D) :
    ∑ k ∈ S, innerProd (fftCoef n x k) (u k) = gridMean n fun j => y j * phys n S u j := by
  have : x = fun j => (y j : ℂ) := funext h
  rw [this, sum_inner_fft]

theorem sumSq_mean {n : D → ℕ} (hn : ∀ d, 0 < n d) {S : Finset (D → ℤ)} (hD : Distinct n S)
    {a : Fld D} (h : RealOn S a) : ∑ k ∈ S, ‖a k‖ ^ 2 = gridMean n fun j => phys n S a j ^ 2 := by
  have e := sum_inner_fft' n S (fun j => grid_ofReal h j) a
  rw [show (gridMean n fun j => phys n S a j ^ 2)
    = gridMean n fun j => phys n S a j * phys n S a j by simp only [sq], ← e]
  refine sum_congr rfl fun k hk => ?_
  rw [fft_grid hn hD a hk, innerProd_self]

theorem gridMean_add (n : D → ℕ) (f g : Pt n → ℝ) :
    gridMean n (fun j => f j + g j) = gridMean n f + gridMean n g := by
  simp only [gridMean, sum_add_distrib, add_div]

theorem gridMean_sub (n : D → ℕ) (f g : Pt n → ℝ) :
    gridMean n (fun j => f j - g j) = gridMean n f - gridMean n g := by
  simp only [gridMean, sum_sub_distrib, sub_div]

theorem gridMean_mul (n : D → ℕ) (c : ℝ) (f : Pt n → ℝ) :
    gridMean n (fun j => c * f j) = c * gridMean n f := by
  simp only [gridMean, ← mul_sum, mul_div_assoc]

theorem gridMean_div (n : D → ℕ) (c : ℝ) (f : Pt n → ℝ) :
    gridMean n (fun j => f j / c) = gridMean n f / c := by
  simp only [gridMean, ← sum_div]; ring

theorem gridMean_congr (n : D → ℕ) {f g : Pt n → ℝ} (h : ∀ j, f j = g j) :
    gridMean n f = gridMean n g := by rw [funext h]

theorem gridMean_deriv (n : D → ℕ) {f : ℝ → Pt n → ℝ} {f' : Pt n → ℝ} {t : ℝ}
    (h : ∀ j, HasDerivAt (fun s => f s j) (f' j) t) :
    HasDerivAt (fun s => gridMean n (f s)) (gridMean n f') t := by
  simp only [gridMean]
  exact (HasDerivAt.fun_sum fun j _ => h j).div_const _

theorem phys_deriv {n : D → ℕ} {S : Finset (D → ℤ)} {a : ℝ → Fld D} {a' : Fld D} {t : ℝ}
    (h : ∀ k ∈ S, HasDerivAt (fun s => a s k) (a' k) t) (j : Pt n) :
    HasDerivAt (fun s => phys n S (a s) j) (phys n S a' j) t := by
  have h2 : HasDerivAt (fun s => gridVal n S (a s) j) (gridVal n S a' j) t := by
    simp only [gridVal]
    exact HasDerivAt.fun_sum fun k hk => (h k hk).mul_const _
  exact Complex.reCLM.hasFDerivAt.comp_hasDerivAt t h2

theorem phys_kick (n : D → ℕ) (S : Finset (D → ℤ)) (dt : ℝ) (a F : Fld D) (j : Pt n) :
    phys n S (kick dt a F) j = phys n S a j + dt * phys n S F j := by
  have : gridVal n S (kick dt a F) j = gridVal n S a j + dt * gridVal n S F j := by
    simp only [gridVal, kick, add_mul, sum_add_distrib, mul_assoc, mul_sum]
  rw [phys, this, Complex.add_re, Complex.re_ofReal_mul, phys, phys]

theorem phys_scale (n : D → ℕ) (S : Finset (D → ℤ)) (c : ℝ) (a : Fld D) (j : Pt n) :
    phys n S (fun k => c * a k) j = c * phys n S a j := by
  have : gridVal n S (fun k => c * a k) j = c * gridVal n S a j := by
    simp only [gridVal, mul_assoc, mul_sum]
  rw [phys, this, Complex.re_ofReal_mul, phys]

theorem RealOn.kick {S : Finset (D → ℤ)} {a F : Fld D} (ha : RealOn S a) (hF : RealOn S F) (dt : ℝ) :
    RealOn S (kick dt a F) := by
  intro k hk
  refine ⟨(ha k hk).1, ?_⟩
  simp only [SpatialMeans.kick, (ha k hk).2, (hF k hk).2, map_add, map_mul, Complex.conj_ofReal]

/-! ### 2D velocity -/

theorem ux2_kick (δ : Fin 2 → ℝ) (dt : ℝ) (rot F : Fld (Fin 2)) (k : Fin 2 → ℤ) :
    ux2 δ (kick dt rot F) k = ux2 δ rot k + dt * ux2 δ F k := by
  simp only [ux2, kick, Forcing.vecFromRot]; ring

theorem uy2_kick (δ : Fin 2 → ℝ) (dt : ℝ) (rot F : Fld (Fin 2)) (k : Fin 2 → ℤ) :
    uy2 δ (kick dt rot F) k = uy2 δ rot k + dt * uy2 δ F k := by
  simp only [uy2, kick, Forcing.vecFromRot]; ring

theorem vel_evolves {S : Finset (Fin 2 → ℤ)} (δ : Fin 2 → ℝ) {rot : ℝ → Fld (Fin 2)}
    {T : Fld (Fin 2)} {σ : (Fin 2 → ℤ) → ℝ} {t : ℝ} (h : Evolves S rot T σ t) :
    Evolves S (fun s => ux2 δ (rot s)) (ux2 δ T) σ t ∧
      Evolves S (fun s => uy2 δ (rot s)) (uy2 δ T) σ t := by
  refine ⟨fun k hk => ?_, fun k hk => ?_⟩
  · simp only [ux2, Forcing.vecFromRot]
    exact ((h k hk).const_mul _).congr_deriv (by ring)
  · simp only [uy2, Forcing.vecFromRot]
    exact ((h k hk).const_mul _).congr_deriv (by ring)

/-- Work on the velocity is the work on the vorticity divided by `k²`. -/
theorem vel_work {S : Finset (Fin 2 → ℤ)} {δ : Fin 2 → ℝ} (hδ : ∀ d, δ d ≠ 0)
    (rot T : Fld (Fin 2)) :
    ∑ k ∈ S, (innerProd (ux2 δ rot k) (ux2 δ T k) + innerProd (uy2 δ rot k) (uy2 δ T k))
      = rateEnergy2 S δ rot T := by
  rw [rateEnergy2, sum_filter]
  refine sum_congr rfl fun k _ => ?_
  by_cases h0 : k = 0
  · subst h0
    simp [ux2, uy2, Forcing.vecFromRot, innerProd]
  · rw [if_pos h0]
    have hk := k2_ne hδ h0
    have e : Forcing.k2not0 (δ 0 * k 0) (δ 1 * k 1) = (δ 0 * k 0) ^ 2 + (δ 1 * k 1) ^ 2 := by
      rw [Forcing.k2not0, if_neg hk]
    have hx : ∀ r : Fld (Fin 2), ux2 δ r k
        = Complex.I * ((δ 1 * k 1 / ((δ 0 * k 0) ^ 2 + (δ 1 * k 1) ^ 2) : ℝ) : ℂ) * r k := by
      intro r; simp only [ux2, Forcing.vecFromRot]; rw [e]; push_cast; ring
    have hy : ∀ r : Fld (Fin 2), uy2 δ r k
        = -Complex.I * ((δ 0 * k 0 / ((δ 0 * k 0) ^ 2 + (δ 1 * k 1) ^ 2) : ℝ) : ℂ) * r k := by
      intro r; simp only [uy2, Forcing.vecFromRot]; rw [e]; push_cast; ring
    rw [hx, hx, hy, hy]
    have h1 : ∀ (c : ℝ) (a b : ℂ), innerProd (Complex.I * c * a) (Complex.I * c * b)
        = c ^ 2 * innerProd a b := by
      intro c a b
      simp only [innerProd, Complex.mul_re, Complex.conj_re, Complex.conj_im, Complex.mul_im,
        Complex.I_re, Complex.I_im, Complex.ofReal_re, Complex.ofReal_im]
      ring
    have h2 : ∀ (c : ℝ) (a b : ℂ), innerProd (-Complex.I * c * a) (-Complex.I * c * b)
        = c ^ 2 * innerProd a b := by
      intro c a b
      simp only [innerProd, Complex.mul_re, Complex.conj_re, Complex.conj_im, Complex.mul_im,
        Complex.I_re, Complex.I_im, Complex.ofReal_re, Complex.ofReal_im, Complex.neg_re,
        Complex.neg_im]
      ring
    rw [h1, h2, innerProd, mul_comm (T k)]
    clear hx hy e
    generalize δ 0 * (k 0 : ℝ) = A at *
    generalize δ 1 * (k 1 : ℝ) = B at *
    field_simp
    ring

theorem rate_add (S : Finset (D → ℤ)) (u T F : Fld D) :
    rate S u (fun k => T k + F k) = rate S u T + ∑ k ∈ S, innerProd (u k) (F k) := by
  simp only [rate, ← sum_add_distrib]
  refine sum_congr rfl fun k _ => ?_
  rw [innerProd, add_mul, Complex.add_re, mul_comm (F k)]

theorem rate_inner (S : Finset (D → ℤ)) (u T : Fld D) :
    ∑ k ∈ S, innerProd (u k) (T k) = rate S u T := by
  simp only [rate, innerProd, mul_comm]

end

end Verif.SpatialMeans
