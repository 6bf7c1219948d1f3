import Verif.HorizMeans.Spec
import Verif.Galerkin.Props

/-! # Lemmas on the horizontal means -/

namespace Verif.HorizMeans

open Verif.Fourier Finset

set_option linter.unusedSectionVars false

noncomputable section

variable {K : Type} [Field K]

/-- The points of the grid. -/
def ptEquiv (n : Fin 3 → ℕ) : (Fin (n 2) × Fin (n 1) × Fin (n 0)) ≃ Pt n where
  toFun t := pt t.2.2 t.2.1 t.1
  invFun j := (j 2, j 1, j 0)
  left_inv t := rfl
  right_inv j := by
    funext d
    fin_cases d <;> rfl

theorem sum_pt {M : Type} [AddCommMonoid M] (n : Fin 3 → ℕ) (g : Pt n → M) :
    ∑ j, g j = ∑ c, ∑ b, ∑ a, g (pt a b c) := by
  rw [← (ptEquiv n).sum_comp]
  simp only [Fintype.sum_prod_type]
  rfl

theorem sum_level {M : Type} [AddCommMonoid M] (n : Fin 3 → ℕ) (g : Pt n → M) (c : Fin (n 2)) :
    ∑ j : Pt n with j 2 = c, g j = ∑ b, ∑ a, g (pt a b c) := by
  rw [sum_filter, sum_pt]
  rw [sum_eq_single c]
  · refine sum_congr rfl fun b _ => sum_congr rfl fun a _ => ?_
    exact if_pos rfl
  · intro c' _ h
    refine sum_eq_zero fun b _ => sum_eq_zero fun a _ => ?_
    rw [if_neg (show ¬ (pt a b c' : Pt n) 2 = c from h)]
  · simp

theorem card_level (n : Fin 3 → ℕ) (c : Fin (n 2)) :
    (univ.filter fun j : Pt n => j 2 = c).card = n 0 * n 1 := by
  rw [card_eq_sum_ones, sum_level]
  simp [mul_comm]

theorem hmean_eq (n : Fin 3 → ℕ) (f : Pt n → K) : hmean n f = levelMean n f := by
  funext c
  rw [hmean, levelMean, sum_level, card_level]

variable {n : Fin 3 → ℕ}

theorem hmean_add (f g : Pt n → K) (c : Fin (n 2)) :
    hmean n (fun j => f j + g j) c = hmean n f c + hmean n g c := by
  simp only [hmean, sum_add_distrib, add_div]

theorem hmean_sub (f g : Pt n → K) (c : Fin (n 2)) :
    hmean n (fun j => f j - g j) c = hmean n f c - hmean n g c := by
  simp only [hmean, sum_sub_distrib, sub_div]

/-- A factor which depends only on the level. -/
theorem hmean_level (f : Pt n → K) (p : Fin (n 2) → K) (c : Fin (n 2)) :
    hmean n (fun j => p (j 2) * f j) c = p c * hmean n f c := by
  have : ∀ (a : Fin (n 0)) (b : Fin (n 1)), (pt a b c : Pt n) 2 = c := fun _ _ => rfl
  simp only [hmean, this, ← mul_sum, mul_div_assoc]

theorem hmean_const [CharZero K] (h0 : 0 < n 0) (h1 : 0 < n 1) (p : Fin (n 2) → K) (c : Fin (n 2)) :
    hmean n (fun j => p (j 2)) c = p c := by
  have : ∀ (a : Fin (n 0)) (b : Fin (n 1)), (pt a b c : Pt n) 2 = c := fun _ _ => rfl
  have hz : ((n 0 * n 1 : ℕ) : K) ≠ 0 := by
    rw [Nat.cast_ne_zero]
    positivity
  simp only [hmean, this, sum_const, card_univ, Fintype.card_fin, nsmul_eq_mul]
  rw [div_eq_iff hz]
  push_cast
  ring

theorem stress_eq [CharZero K] (h0 : 0 < n 0) (h1 : 0 < n 1) (f g : Pt n → K) (c : Fin (n 2)) :
    stress n f g c = hmean n (fun j => f j * g j) c - hmean n f c * hmean n g c := by
  have e : (fun j => fluct n f j * fluct n g j) = fun j : Pt n =>
      ((f j * g j - hmean n g (j 2) * f j) - (hmean n f (j 2) * g j))
        + (fun c => hmean n f c * hmean n g c) (j 2) := by
    funext j
    simp only [fluct]
    ring
  rw [stress, e, hmean_add, hmean_sub, hmean_sub, hmean_level f (hmean n g),
    hmean_level g (hmean n f), hmean_const h0 h1 fun c => hmean n f c * hmean n g c]
  ring

theorem chi_pt (k : Fin 3 → ℤ) (a : Fin (n 0)) (b : Fin (n 1)) (c : Fin (n 2)) :
    chi n k (pt a b c) =
      Complex.exp (2 * Real.pi * Complex.I * ((k 0 : ℂ) * (a : ℕ) / n 0)) *
      Complex.exp (2 * Real.pi * Complex.I * ((k 1 : ℂ) * (b : ℕ) / n 1)) *
      Complex.exp (2 * Real.pi * Complex.I * ((k 2 : ℂ) * (c : ℕ) / n 2)) := by
  rw [chi_prod, Fin.prod_univ_three]
  rfl

theorem hmean_chi (h0 : 0 < n 0) (h1 : 0 < n 1) {k : Fin 3 → ℤ} (hk0 : |k 0| < n 0) (hk1 : |k 1| < n 1)
    (c : Fin (n 2)) :
    hmean n (chi n k) c = if k 0 = 0 ∧ k 1 = 0 then
      Complex.exp (2 * Real.pi * Complex.I * ((k 2 : ℂ) * (c : ℕ) / n 2)) else 0 := by
  have e : ∑ b : Fin (n 1), ∑ a : Fin (n 0), chi n k (pt a b c) =
      (∑ a : Fin (n 0), Complex.exp (2 * Real.pi * Complex.I * ((k 0 : ℂ) * (a : ℕ) / n 0))) *
      (∑ b : Fin (n 1), Complex.exp (2 * Real.pi * Complex.I * ((k 1 : ℂ) * (b : ℕ) / n 1))) *
      Complex.exp (2 * Real.pi * Complex.I * ((k 2 : ℂ) * (c : ℕ) / n 2)) := by
    simp only [chi_pt]
    rw [sum_mul_sum, sum_comm, sum_mul]
    refine sum_congr rfl fun a _ => ?_
    rw [sum_mul]
  have d0 : (n 0 : ℤ) ∣ k 0 ↔ k 0 = 0 := ⟨fun h => dvd_small h hk0, fun h => h ▸ dvd_zero _⟩
  have d1 : (n 1 : ℤ) ∣ k 1 ↔ k 1 = 0 := ⟨fun h => dvd_small h hk1, fun h => h ▸ dvd_zero _⟩
  have hz : ((n 0 * n 1 : ℕ) : ℂ) ≠ 0 := by
    rw [Nat.cast_ne_zero]
    positivity
  rw [hmean, e, sum_exp_fin _ h0, sum_exp_fin _ h1]
  simp only [d0, d1]
  by_cases ha : k 0 = 0 <;> by_cases hb : k 1 = 0 <;> simp only [ha, hb, if_true, if_false, and_self,
    and_false, false_and, zero_mul, mul_zero, zero_div, and_true, true_and]
  rw [div_eq_iff hz]
  push_cast
  ring

/-- The mean of a field over a level. -/
theorem hmean_gridVal (h0 : 0 < n 0) (h1 : 0 < n 1) {S : Finset (Fin 3 → ℤ)}
    (hS : ∀ k ∈ S, |k 0| < n 0 ∧ |k 1| < n 1) (u : (Fin 3 → ℤ) → ℂ) (c : Fin (n 2)) :
    hmean n (gridVal n S u) c = ∑ k ∈ S, if k 0 = 0 ∧ k 1 = 0 then
      u k * Complex.exp (2 * Real.pi * Complex.I * ((k 2 : ℂ) * (c : ℕ) / n 2)) else 0 := by
  have e : hmean n (gridVal n S u) c = ∑ k ∈ S, u k * hmean n (chi n k) c := by
    simp only [hmean, gridVal, mul_div_assoc', ← sum_div, mul_sum]
    congr 1
    symm
    rw [sum_comm]
    refine sum_congr rfl fun b _ => ?_
    exact sum_comm
  rw [e]
  refine sum_congr rfl fun k hk => ?_
  rw [hmean_chi h0 h1 (hS k hk).1 (hS k hk).2]
  split <;> simp

/-- The Fourier coefficient of a field at a vertical wavenumber is the one of its mean profile. -/
theorem fft_vertical (f : Pt n → ℂ) (k : ℤ) :
    fftCoef n f (vertical k) = profileFft (hmean n f) k := by
  rw [fftCoef, sum_pt, profileFft]
  have e : ∀ (a : Fin (n 0)) (b : Fin (n 1)) (c : Fin (n 2)), chi n (-vertical k) (pt a b c) =
      Complex.exp (-(2 * Real.pi * Complex.I * (k * (c : ℕ) / n 2))) := by
    intro a b c
    rw [chi_pt]
    simp [vertical]
    ring_nf
  simp only [e, ← sum_mul, hmean, Fin.prod_univ_three, div_mul_eq_mul_div, ← sum_div]
  rw [div_div]
  congr 1
  push_cast
  ring

end

end Verif.HorizMeans
