import Verif.Fourier.Spec
import Mathlib.Tactic.LinearCombination
import Mathlib.Tactic.Positivity
import Mathlib.Tactic.FieldSimp
import Mathlib.Algebra.BigOperators.Field

set_option linter.unusedSectionVars false

namespace Verif.Fourier

open Finset

noncomputable section

variable {D : Type*} [Fintype D] [DecidableEq D]

/-- one-dimensional orthogonality -/
theorem sum_exp_fin (n : ℕ) (hn : 0 < n) (m : ℤ) :
    ∑ j : Fin n, Complex.exp (2 * Real.pi * Complex.I * ((m : ℂ) * (j : ℕ) / n))
      = if (n : ℤ) ∣ m then (n : ℂ) else 0 := by
  have hn0 : (n : ℂ) ≠ 0 := by exact_mod_cast hn.ne'
  set ζ := Complex.exp (2 * Real.pi * Complex.I * ((m : ℂ) / n)) with hζ
  have hpow : ∀ j : ℕ, Complex.exp (2 * Real.pi * Complex.I * ((m : ℂ) * j / n)) = ζ ^ j := by
    intro j
    rw [hζ, ← Complex.exp_nat_mul]
    congr 1; ring
  simp only [hpow]
  rw [Fin.sum_univ_eq_sum_range (fun j => ζ ^ j) n]
  have hζn : ζ ^ n = 1 := by
    rw [← hpow n, Complex.exp_eq_one_iff]
    exact ⟨m, by field_simp⟩
  have hiff : ζ = 1 ↔ (n : ℤ) ∣ m := by
    rw [hζ, Complex.exp_eq_one_iff]
    constructor
    · rintro ⟨c, hc⟩
      have h2 : (2 * Real.pi * Complex.I : ℂ) ≠ 0 := by
        simp [Real.pi_ne_zero]
      have : (m : ℂ) / n = c := by
        have : (2 * Real.pi * Complex.I : ℂ) * ((m : ℂ) / n) = (2 * Real.pi * Complex.I) * c := by
          rw [hc]; ring
        exact mul_left_cancel₀ h2 this
      rw [div_eq_iff hn0] at this
      refine ⟨c, ?_⟩
      have : (m : ℂ) = ((n : ℤ) * c : ℤ) := by push_cast; rw [this]; ring
      exact_mod_cast this
    · rintro ⟨c, hc⟩
      refine ⟨c, ?_⟩
      rw [hc]; push_cast; field_simp
  by_cases h : (n : ℤ) ∣ m
  · have : ζ = 1 := hiff.2 h
    simp [h, this]
  · have h1 : ζ ≠ 1 := fun e => h (hiff.1 e)
    rw [if_neg h, geom_sum_eq h1, hζn]; simp

theorem chi_prod (n : D → ℕ) (k : D → ℤ) (j : Pt n) :
    chi n k j
      = ∏ d, Complex.exp (2 * Real.pi * Complex.I * ((k d : ℂ) * (j d : ℕ) / n d)) := by
  rw [chi, mul_sum, Complex.exp_sum]

theorem sum_chi (n : D → ℕ) (hn : ∀ d, 0 < n d) (m : D → ℤ) :
    ∑ j, chi n m j = if ∀ d, (n d : ℤ) ∣ m d then ∏ d, (n d : ℂ) else 0 := by
  simp only [chi_prod]
  have := Finset.prod_univ_sum (fun d => (Finset.univ : Finset (Fin (n d))))
    (fun d (j : Fin (n d)) =>
      Complex.exp (2 * Real.pi * Complex.I * ((m d : ℂ) * (j : ℕ) / n d)))
  rw [Fintype.piFinset_univ] at this
  rw [← this]
  simp only [sum_exp_fin _ (hn _)]
  by_cases h : ∀ d, (n d : ℤ) ∣ m d
  · rw [if_pos h]; exact prod_congr rfl (fun d _ => if_pos (h d))
  · rw [if_neg h]
    push Not at h
    obtain ⟨d, hd⟩ := h
    exact prod_eq_zero (mem_univ d) (if_neg hd)

theorem chi_mul (n : D → ℕ) (p q : D → ℤ) (j : Pt n) :
    chi n p j * chi n q j = chi n (p + q) j := by
  rw [chi, chi, chi, ← Complex.exp_add, ← mul_add, ← sum_add_distrib]
  congr 2
  apply sum_congr rfl
  intro d _
  simp only [Pi.add_apply]; push_cast; ring

/-- The product on the grid contains all triads seen on the grid. -/
theorem gridProduct_eq (n : D → ℕ) (hn : ∀ d, 0 < n d) (S : Finset (D → ℤ))
    (u v : (D → ℤ) → ℂ) (k : D → ℤ) :
    gridProduct n S u v k = ∑ p ∈ S, ∑ q ∈ S, if Seen n p q k then u p * v q else 0 := by
  have hN : (∏ d, (n d : ℂ)) ≠ 0 := by
    rw [prod_ne_zero_iff]; intro d _; exact_mod_cast (hn d).ne'
  rw [gridProduct, fftCoef, div_eq_iff hN]
  have h1 : ∀ j : Pt n, gridVal n S u j * gridVal n S v j * chi n (-k) j
      = ∑ p ∈ S, ∑ q ∈ S, u p * v q * chi n (p + q + -k) j := by
    intro j
    rw [gridVal, gridVal, sum_mul_sum, sum_mul]
    apply sum_congr rfl; intro p _
    rw [sum_mul]
    apply sum_congr rfl; intro q _
    rw [← chi_mul, ← chi_mul]; ring
  simp only [h1]
  rw [sum_comm, sum_mul]
  apply sum_congr rfl; intro p _
  rw [sum_comm, sum_mul]
  apply sum_congr rfl; intro q _
  rw [← mul_sum, sum_chi n hn]
  have : (∀ d, (n d : ℤ) ∣ (p + q + -k) d) ↔ Seen n p q k := by
    simp [Seen, sub_eq_add_neg]
  simp only [this]
  split <;> simp

theorem gridProduct_eq_exact (n : D → ℕ) (hn : ∀ d, 0 < n d) (S : Finset (D → ℤ))
    (u v : (D → ℤ) → ℂ) (k : D → ℤ)
    (h : ∀ p ∈ S, ∀ q ∈ S, Seen n p q k → p + q = k) :
    gridProduct n S u v k = exactProduct S u v k := by
  rw [gridProduct_eq n hn, exactProduct]
  apply sum_congr rfl; intro p hp
  apply sum_congr rfl; intro q hq
  have : Seen n p q k ↔ p + q = k := by
    refine ⟨h p hp q hq, ?_⟩
    rintro rfl d
    simp
  simp only [this]

/-- a small multiple of `n` is zero -/
theorem dvd_small {n : ℕ} {m : ℤ} (h : (n : ℤ) ∣ m) (hm : |m| < n) : m = 0 :=
  Int.eq_zero_of_abs_lt_dvd h hm

theorem eq_of_seen_small (n : D → ℕ) (p q k : D → ℤ)
    (hs : ∀ d, 3 * |p d| < n d ∧ 3 * |q d| < n d ∧ 3 * |k d| < n d) (h : Seen n p q k) :
    p + q = k := by
  funext d
  have h1 := h d
  obtain ⟨hp, hq, hk⟩ := hs d
  have := dvd_small h1 (by
    have a1 := abs_le.1 (le_refl |p d|); have a2 := abs_le.1 (le_refl |q d|)
    have a3 := abs_le.1 (le_refl |k d|)
    rw [abs_lt]; constructor <;> omega)
  simp only [Pi.add_apply]; omega

theorem spherical_bound (δ : D → ℝ) (n : D → ℕ) (x : D) (coef : ℝ) (hδ : ∀ d, 0 < δ d)
    (hc0 : 0 ≤ coef) (hc : coef ≤ 2 / 3) (hiso : ∀ d, δ x * n x ≤ δ d * n d)
    (k : D → ℤ) (hk : keptSpherical δ n x coef k) (d : D) : 3 * |k d| < n d := by
  rw [keptSpherical, not_le] at hk
  have h1 : (δ d * k d) ^ 2 ≤ ∑ d, (δ d * k d) ^ 2 :=
    single_le_sum (f := fun d => (δ d * (k d : ℝ)) ^ 2) (fun _ _ => sq_nonneg _) (mem_univ d)
  have h2 : (δ d * k d) ^ 2 < (coef * δ x * n x / 2) ^ 2 := lt_of_le_of_lt h1 hk
  have h3 : 0 ≤ coef * δ x * n x / 2 := by
    have := (hδ x).le; positivity
  have h4 : |δ d * k d| < coef * δ x * n x / 2 := by
    have := sq_lt_sq.1 h2
    rwa [abs_of_nonneg h3] at this
  rw [abs_mul, abs_of_pos (hδ d)] at h4
  have h5 : coef * δ x * n x / 2 ≤ 1 / 3 * (δ d * n d) := by
    have h6 : coef * (δ x * n x) ≤ 2 / 3 * (δ d * n d) :=
      mul_le_mul hc (hiso d) (by have := (hδ x).le; positivity) (by norm_num)
    linarith
  have h7 : δ d * (3 * |(k d : ℝ)|) < δ d * n d := by linarith
  have h8 : 3 * |(k d : ℝ)| < n d := lt_of_mul_lt_mul_left h7 (hδ d).le
  have : ((3 * |k d| : ℤ) : ℝ) < ((n d : ℤ) : ℝ) := by push_cast; exact h8
  exact_mod_cast this

/-! ### Phase shifts -/

theorem phaseShift_eq (L : D → ℝ) (hL : ∀ d, L d ≠ 0) (n : D → ℕ)
    (a : D → ℝ) (k : D → ℤ) :
    phaseShift L n a k
      = Complex.exp (2 * Real.pi * Complex.I * ∑ d, (a d : ℂ) * (k d : ℂ) / n d) := by
  rw [phaseShift]
  congr 1
  rw [mul_sum, mul_sum]
  apply sum_congr rfl
  intro d _
  have : a d * (L d / n d) * (2 * Real.pi / L d * k d) = 2 * Real.pi * (a d * k d / n d) := by
    have := hL d
    field_simp
  rw [this]; push_cast; ring

theorem phaseShift_ne_zero (L : D → ℝ) (n : D → ℕ) (a : D → ℝ) (k : D → ℤ) :
    phaseShift L n a k ≠ 0 := Complex.exp_ne_zero _

/-- the factor that a shift gives to a triad seen on the grid -/
theorem phase_ratio (L : D → ℝ) (hL : ∀ d, L d ≠ 0) (n : D → ℕ) (hn : ∀ d, 0 < n d)
    (a : D → ℝ) (p q k : D → ℤ) (h : Seen n p q k) :
    phaseShift L n a p * phaseShift L n a q / phaseShift L n a k
      = Complex.exp (2 * Real.pi * Complex.I * ∑ d, (a d : ℂ) * (aliasVec n p q k d : ℂ)) := by
  rw [phaseShift_eq L hL, phaseShift_eq L hL, phaseShift_eq L hL, ← Complex.exp_add,
    ← Complex.exp_sub, ← mul_add, ← mul_sub, ← sum_add_distrib, ← sum_sub_distrib]
  congr 2
  apply sum_congr rfl
  intro d _
  have hn0 : (n d : ℂ) ≠ 0 := by exact_mod_cast (hn d).ne'
  have h1 : (n d : ℤ) * aliasVec n p q k d = p d + q d - k d := Int.mul_ediv_cancel' (h d)
  have h2 : (n d : ℂ) * (aliasVec n p q k d : ℂ) = p d + q d - k d := by exact_mod_cast h1
  field_simp
  linear_combination (-(a d : ℂ)) * h2

theorem shiftedProduct_eq (L : D → ℝ) (hL : ∀ d, L d ≠ 0) (n : D → ℕ) (hn : ∀ d, 0 < n d)
    (a : D → ℝ) (S : Finset (D → ℤ)) (u v : (D → ℤ) → ℂ) (k : D → ℤ) :
    shiftedProduct L n a S u v k = ∑ p ∈ S, ∑ q ∈ S, if Seen n p q k then
      Complex.exp (2 * Real.pi * Complex.I * ∑ d, (a d : ℂ) * (aliasVec n p q k d : ℂ))
        * (u p * v q) else 0 := by
  rw [shiftedProduct, gridProduct_eq n hn, sum_div]
  apply sum_congr rfl; intro p _
  rw [sum_div]
  apply sum_congr rfl; intro q _
  split
  · next h =>
    rw [← phase_ratio L hL n hn a p q k h]
    ring
  · simp

theorem exp_half_shift (m : ℤ) :
    Complex.exp (Real.pi * Complex.I * m) = if Even m then 1 else -1 := by
  have h1 : Complex.exp (Real.pi * Complex.I * m) = (Complex.exp (Real.pi * Complex.I)) ^ m := by
    rw [← Complex.exp_int_mul]; congr 1; ring
  rw [h1, Complex.exp_pi_mul_I]
  split
  · next h => exact h.neg_one_zpow
  · next h => exact (Int.not_even_iff_odd.1 h).neg_one_zpow

/-- shifts that differ by half a cell in each direction give opposite or equal factors -/
theorem exp_pair (a b : D → ℝ) (hab : ∀ d, b d = a d + 1 / 2 ∨ b d = a d - 1 / 2)
    (m : D → ℤ) :
    Complex.exp (2 * Real.pi * Complex.I * ∑ d, (b d : ℂ) * (m d : ℂ))
      = (if Even (∑ d, m d) then 1 else -1)
        * Complex.exp (2 * Real.pi * Complex.I * ∑ d, (a d : ℂ) * (m d : ℂ)) := by
  -- signs
  let s : D → ℤ := fun d => if b d = a d + 1 / 2 then 1 else -1
  have hb : ∀ d, (b d : ℂ) = a d + (s d : ℂ) / 2 := by
    intro d
    by_cases h : b d = a d + 1 / 2
    · simp only [s, h, if_true]; push_cast; ring
    · have h' := (hab d).resolve_left h
      simp only [s, h, if_false]; rw [h']; push_cast; ring
  have hsum : (2 * Real.pi * Complex.I * ∑ d, (b d : ℂ) * (m d : ℂ))
      = Real.pi * Complex.I * ((∑ d, s d * m d : ℤ) : ℂ)
        + 2 * Real.pi * Complex.I * ∑ d, (a d : ℂ) * (m d : ℂ) := by
    push_cast
    simp only [hb, add_mul, sum_add_distrib, mul_add, mul_sum]
    rw [add_comm]
    congr 1
    apply sum_congr rfl; intro d _; ring
  have heven : Even (∑ d, s d * m d) ↔ Even (∑ d, m d) := by
    have : (∑ d, s d * m d) = ∑ d, m d - 2 * ∑ d, (if b d = a d + 1 / 2 then 0 else m d) := by
      rw [mul_sum, ← sum_sub_distrib]
      apply sum_congr rfl; intro d _
      by_cases h : b d = a d + 1 / 2 <;> simp only [s, h, if_true, if_false] <;> ring
    rw [this, Int.even_sub]
    simp
  rw [hsum, Complex.exp_add, exp_half_shift]
  simp only [heven]

theorem pairAverage_eq (L : D → ℝ) (hL : ∀ d, L d ≠ 0) (n : D → ℕ) (hn : ∀ d, 0 < n d)
    (a b : D → ℝ) (hab : ∀ d, b d = a d + 1 / 2 ∨ b d = a d - 1 / 2)
    (S : Finset (D → ℤ)) (u v : (D → ℤ) → ℂ) (k : D → ℤ) :
    pairAverage L n a b S u v k
      = ∑ p ∈ S, ∑ q ∈ S, pairWeight n a p q k * (u p * v q) := by
  rw [pairAverage, shiftedProduct_eq L hL n hn, shiftedProduct_eq L hL n hn,
    ← sum_add_distrib, mul_sum]
  apply sum_congr rfl; intro p _
  rw [← sum_add_distrib, mul_sum]
  apply sum_congr rfl; intro q _
  rw [pairWeight]
  by_cases h : Seen n p q k
  · simp only [h, if_true, true_and]
    rw [exp_pair a b hab]
    by_cases he : Even (∑ d, aliasVec n p q k d)
    · simp only [he, if_true]; ring
    · simp only [he, if_false]; ring
  · simp [h]

theorem aliasVec_exact (n : D → ℕ) (p q : D → ℤ) :
    aliasVec n p q (p + q) = 0 := by
  funext d; simp [aliasVec]

theorem shiftedProduct_zero (L : D → ℝ) (n : D → ℕ) (S : Finset (D → ℤ))
    (u v : (D → ℤ) → ℂ) (k : D → ℤ) :
    shiftedProduct L n (fun _ => 0) S u v k = gridProduct n S u v k := by
  have : ∀ p, phaseShift L n (fun _ => 0) p = 1 := by intro p; simp [phaseShift]
  simp [shiftedProduct, this]

theorem halfShift_is_pair (L : D → ℝ) (n : D → ℕ) (S : Finset (D → ℤ))
    (u v : (D → ℤ) → ℂ) (k : D → ℤ) :
    halfShiftAverage L n S u v k = pairAverage L n (fun _ => 0) (fun _ => 1 / 2) S u v k := by
  rw [halfShiftAverage, pairAverage, shiftedProduct_zero]

/-- an even number of aliases of kept modes is zero with the spherical truncation -/
theorem no_even_alias (δ : D → ℝ) (n : D → ℕ) (x : D) (coef : ℝ) (hδ : ∀ d, 0 < δ d)
    (hn : ∀ d, 0 < n d)
    (hc : coef ^ 2 ≤ 8 / 9) (hiso : ∀ d, δ x * n x ≤ δ d * n d) (p q k : D → ℤ)
    (hp : keptSpherical δ n x coef p) (hq : keptSpherical δ n x coef q)
    (hk : keptSpherical δ n x coef k) (hs : Seen n p q k)
    (he : Even (∑ d, aliasVec n p q k d)) : p + q = k := by
  rw [keptSpherical, not_le] at hp hq hk
  set m := aliasVec n p q k with hm
  have hmul : ∀ d, (n d : ℤ) * m d = p d + q d - k d := fun d => Int.mul_ediv_cancel' (hs d)
  set K := δ x * n x with hK
  have hKpos : 0 < K := mul_pos (hδ x) (by exact_mod_cast hn x)
  have hKx : ∀ d, K ^ 2 * (m d : ℝ) ^ 2 ≤ (δ d * (p d + q d - k d : ℝ)) ^ 2 := by
    intro d
    have : (δ d * (p d + q d - k d : ℝ)) = (δ d * n d) * m d := by
      have : (n d : ℝ) * m d = p d + q d - k d := by exact_mod_cast hmul d
      rw [mul_assoc, this]
    rw [this, mul_pow (δ d * (n d : ℝ))]
    apply mul_le_mul_of_nonneg_right _ (sq_nonneg _)
    exact pow_le_pow_left₀ hKpos.le (hiso d) 2
  have hsum : K ^ 2 * ∑ d, (m d : ℝ) ^ 2 < 2 * K ^ 2 := by
    have h1 : K ^ 2 * ∑ d, (m d : ℝ) ^ 2 ≤ ∑ d, (δ d * (p d + q d - k d : ℝ)) ^ 2 := by
      rw [mul_sum]; exact sum_le_sum (fun d _ => hKx d)
    have h2 : ∑ d, (δ d * (p d + q d - k d : ℝ)) ^ 2
        ≤ ∑ d, 3 * ((δ d * p d) ^ 2 + (δ d * q d) ^ 2 + (δ d * k d) ^ 2) := by
      apply sum_le_sum; intro d _
      nlinarith [sq_nonneg (δ d * p d - δ d * q d), sq_nonneg (δ d * p d + δ d * k d),
        sq_nonneg (δ d * q d + δ d * k d)]
    have h3 : ∑ d, 3 * ((δ d * (p d : ℝ)) ^ 2 + (δ d * q d) ^ 2 + (δ d * k d) ^ 2)
        = 3 * (∑ d, (δ d * (p d : ℝ)) ^ 2 + ∑ d, (δ d * (q d : ℝ)) ^ 2
          + ∑ d, (δ d * (k d : ℝ)) ^ 2) := by
      rw [← mul_sum, sum_add_distrib, sum_add_distrib]
    have h4 : (coef * δ x * n x / 2) ^ 2 = coef ^ 2 * K ^ 2 / 4 := by rw [hK]; ring
    rw [h4] at hp hq hk
    have h5 : coef ^ 2 * K ^ 2 ≤ 8 / 9 * K ^ 2 := mul_le_mul_of_nonneg_right hc (sq_nonneg _)
    linarith
  have hsum2 : ∑ d, (m d) ^ 2 < 2 := by
    have h1 : ∑ d, (m d : ℝ) ^ 2 < 2 := by
      have : 0 < K ^ 2 := by positivity
      by_contra hcon
      push Not at hcon
      nlinarith
    exact_mod_cast h1
  have heven2 : Even (∑ d, (m d) ^ 2) := by
    have : ∑ d, (m d) ^ 2 = ∑ d, m d + ∑ d, (m d * (m d - 1)) := by
      rw [← sum_add_distrib]; apply sum_congr rfl; intro d _; ring
    rw [this]
    refine he.add ?_
    apply Finset.even_sum
    intro d _
    exact Int.even_mul_pred_self (m d)
  have hnn : 0 ≤ ∑ d, (m d) ^ 2 := sum_nonneg (fun d _ => sq_nonneg _)
  have hz : ∑ d, (m d) ^ 2 = 0 := by
    obtain ⟨c, hc⟩ := heven2
    omega
  rw [sum_eq_zero_iff_of_nonneg (fun d _ => sq_nonneg _)] at hz
  funext d
  have h0 : m d = 0 := by simpa using hz d (mem_univ d)
  have := hmul d
  rw [h0] at this
  simp only [Pi.add_apply]; omega

end

end Verif.Fourier
