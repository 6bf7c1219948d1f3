import Mathlib.RingTheory.MvPolynomial.Basic
import Verif.Sphere.OperLemmas

/-!
# A mean value over the sphere and a family of spherical harmonics

The mean value of `x^a y^b z^c` over the unit sphere is `g a * g b * g c / h (a + b + c)` with
the moments `g` of the normal law.
-/

namespace Verif.Sphere

noncomputable section

open MvPolynomial

/-- Moments of the normal law: 1, 0, 1, 0, 3, 0, 15... -/
def g : ℕ → ℕ
  | 0 => 1
  | 1 => 0
  | n + 2 => (n + 1) * g n

/-- 1, 1, 3, ..., 15: the double factorials. -/
def h : ℕ → ℕ
  | 0 => 1
  | 1 => 1
  | n + 2 => (n + 3) * h n

theorem g_mul (n : ℕ) : n * g (n - 1) = g (n + 1) := by
  cases n with
  | zero => simp [g]
  | succ n => simp [g]

theorem h_ne : ∀ n, h n ≠ 0
  | 0 => by simp [h]
  | 1 => by simp [h]
  | n + 2 => by
    rw [h]
    exact Nat.mul_ne_zero (by omega) (h_ne n)

/-- Mean value of a monomial. -/
def moment (s : Fin 3 →₀ ℕ) : ℂ := (g (s 0) * g (s 1) * g (s 2) : ℕ) / (h (s 0 + s 1 + s 2) : ℕ)

/-- The mean value over the sphere. -/
def exMean : Fn →ₗ[ℂ] ℂ := (basisMonomials (Fin 3) ℂ).constr ℂ moment

theorem exMean_monomial (s : Fin 3 →₀ ℕ) (a : ℂ) : exMean (monomial s a) = a * moment s := by
  have h1 : exMean (monomial s 1) = moment s := by
    have := (basisMonomials (Fin 3) ℂ).constr_basis ℂ moment s
    rwa [coe_basisMonomials] at this
  rw [show monomial s a = a • monomial s (1 : ℂ) by rw [smul_monomial, smul_eq_mul, mul_one],
    map_smul, h1, smul_eq_mul]

theorem exMean_X_pderiv (i j : Fin 3) (hij : i ≠ j) (s : Fin 3 →₀ ℕ) (a : ℂ) :
    exMean (X i * pderiv j (monomial s a))
      = a * (s j * moment (Finsupp.single i 1 + (s - Finsupp.single j 1))) := by
  rw [pderiv_monomial, X, monomial_mul, one_mul, exMean_monomial, mul_assoc]

theorem exMean_isMean : IsMean exMean where
  rot k f := by
    induction f using MvPolynomial.induction_on' with
    | monomial s a =>
      rw [L_apply, map_sub, exMean_X_pderiv _ _ (by fin_cases k <;> decide),
        exMean_X_pderiv _ _ (by fin_cases k <;> decide), ← mul_sub]
      convert mul_zero a
      rw [sub_eq_zero]
      have key : ∀ p q r : ℕ,
          (q : ℂ) * (((g r * g (1 + p) * g (q - 1) : ℕ) : ℂ) / (h (r + (1 + p) + (q - 1)) : ℕ))
          = (p : ℂ) * (((g r * g (p - 1) * g (1 + q) : ℕ) : ℂ) / (h (r + (p - 1) + (1 + q)) : ℕ)) := by
        intro p q r
        have hp : (p : ℂ) * g (p - 1) = g (1 + p) := by
          rw [add_comm 1]; exact_mod_cast g_mul p
        have hq : (q : ℂ) * g (q - 1) = g (1 + q) := by
          rw [add_comm 1]; exact_mod_cast g_mul q
        rcases Nat.eq_zero_or_pos p with h0 | h0
        · subst h0; simp [g]
        rcases Nat.eq_zero_or_pos q with h1 | h1
        · subst h1; simp [g]
        rw [show r + (1 + p) + (q - 1) = r + (p - 1) + (1 + q) by omega]
        push_cast
        rw [← hp, ← hq]
        ring
      fin_cases k
      · have := key (s 1) (s 2) (s 0)
        simpa [moment, f01, f02] using this
      · have := key (s 2) (s 0) (s 1)
        simp only [moment, Fin.mk_one, f11, f12, Finsupp.coe_add, Finsupp.coe_tsub, Pi.add_apply,
          Pi.sub_apply, Finsupp.single_apply]
        convert this using 3 <;> simp <;> ring_nf
      · have := key (s 0) (s 1) (s 2)
        simp only [moment, Fin.reduceFinMk, f21, f22, Finsupp.coe_add, Finsupp.coe_tsub,
          Pi.add_apply, Pi.sub_apply, Finsupp.single_apply]
        convert this using 3 <;> simp <;> ring_nf
    | add p q hp hq => rw [map_add, map_add, hp, hq, add_zero]
  unit f := by
    induction f using MvPolynomial.induction_on' with
    | monomial s a =>
      have hX : ∀ i : Fin 3, exMean (X i ^ 2 * monomial s a)
          = a * moment (Finsupp.single i 2 + s) := by
        intro i
        rw [X, monomial_pow, monomial_mul, exMean_monomial]
        simp
      rw [Finset.sum_mul, map_sum, Fin.sum_univ_three, hX, hX, hX, exMean_monomial, ← mul_add,
        ← mul_add]
      congr 1
      have hn : ((h (s 0 + s 1 + s 2) : ℕ) : ℂ) ≠ 0 := by exact_mod_cast h_ne _
      have hn3 : ((s 0 + s 1 + s 2 + 3 : ℕ) : ℂ) ≠ 0 := by
        exact Nat.cast_ne_zero.mpr (by omega)
      simp only [moment, Finsupp.coe_add, Pi.add_apply, Finsupp.single_apply]
      simp only [Fin.isValue, Fin.reduceEq, if_true, if_false, zero_add]
      rw [show 2 + s 0 + s 1 + s 2 = s 0 + s 1 + s 2 + 2 by ring,
        show s 0 + (2 + s 1) + s 2 = s 0 + s 1 + s 2 + 2 by ring,
        show s 0 + s 1 + (2 + s 2) = s 0 + s 1 + s 2 + 2 by ring,
        add_comm 2 (s 0), add_comm 2 (s 1), add_comm 2 (s 2)]
      simp only [g, h]
      generalize h (s 0 + s 1 + s 2) = H at *
      push_cast at hn3 ⊢
      field_simp
      ring
    | add p q hp hq => rw [mul_add, map_add, map_add, hp, hq]
  one := by
    have := exMean_monomial 0 1
    rw [show (monomial 0 1 : Fn) = 1 from rfl] at this
    rw [this]; simp [moment, g, h]

/-! ### A family of five harmonics -/

theorem exMean_mono (a b c : ℕ) :
    exMean (X 0 ^ a * X 1 ^ b * X 2 ^ c)
      = (g a * g b * g c : ℕ) / (h (a + b + c) : ℕ) := by
  have e : (X 0 ^ a * X 1 ^ b * X 2 ^ c : Fn)
      = monomial (Finsupp.single 0 a + Finsupp.single 1 b + Finsupp.single 2 c) 1 := by
    simp only [X_pow_eq_monomial, monomial_mul, one_mul]
  rw [e, exMean_monomial, moment]
  simp

/-- `1`, `x`, `y`, `y z`, `y² - z²`. -/
def exP : Fin 5 → Fn := ![1, X 0, X 1, X 1 * X 2, X 1 ^ 2 - X 2 ^ 2]

/-- Squares of the norms. -/
def exN : Fin 5 → ℝ := ![1, 3, 3, 15, 15 / 4]

/-- The operators of the example: unit radius and rotation, `1`, `x`, `y`, `y z`, `y² - z²`
normalised. -/
def exOper : Oper (Fin 5) where
  radius := 1
  omega := 1
  mean := exMean
  l := ![0, 1, 1, 2, 2]
  Y i := C (Real.sqrt (exN i) : ℂ) * exP i

theorem exOrtho (i j : Fin 5) :
    exMean (exP i * exP j) = if i = j then 1 / (exN i : ℂ) else 0 := by
  wlog hij : i ≤ j generalizing i j
  · rw [mul_comm, this j i (le_of_not_ge hij)]
    by_cases e : i = j
    · subst e; rfl
    · rw [if_neg e, if_neg (Ne.symm e)]
  have m := exMean_mono
  fin_cases i <;> fin_cases j <;>
    first
      | (exfalso; revert hij; decide)
      | skip
  · have e : exP 0 * exP 0 = X 0 ^ 0 * X 1 ^ 0 * X 2 ^ 0 := by simp [exP]
    simpa [exN, g, h] using (congrArg exMean e).trans (m _ _ _)
  · have e : exP 0 * exP 1 = X 0 ^ 1 * X 1 ^ 0 * X 2 ^ 0 := by simp [exP]
    simpa [exN, g, h] using (congrArg exMean e).trans (m _ _ _)
  · have e : exP 0 * exP 2 = X 0 ^ 0 * X 1 ^ 1 * X 2 ^ 0 := by simp [exP]
    simpa [exN, g, h] using (congrArg exMean e).trans (m _ _ _)
  · have e : exP 0 * exP 3 = X 0 ^ 0 * X 1 ^ 1 * X 2 ^ 1 := by simp [exP]
    simpa [exN, g, h] using (congrArg exMean e).trans (m _ _ _)
  · have e : exP 0 * exP 4 = X 0 ^ 0 * X 1 ^ 2 * X 2 ^ 0 - X 0 ^ 0 * X 1 ^ 0 * X 2 ^ 2 := by
      simp [exP]
    have := congrArg exMean e
    rw [map_sub, m, m] at this
    simpa [exN, g, h] using this
  · have e : exP 1 * exP 1 = X 0 ^ 2 * X 1 ^ 0 * X 2 ^ 0 := by simp [exP]; ring
    simpa [exN, g, h] using (congrArg exMean e).trans (m _ _ _)
  · have e : exP 1 * exP 2 = X 0 ^ 1 * X 1 ^ 1 * X 2 ^ 0 := by simp [exP]
    simpa [exN, g, h] using (congrArg exMean e).trans (m _ _ _)
  · have e : exP 1 * exP 3 = X 0 ^ 1 * X 1 ^ 1 * X 2 ^ 1 := by simp [exP]; ring
    simpa [exN, g, h] using (congrArg exMean e).trans (m _ _ _)
  · have e : exP 1 * exP 4 = X 0 ^ 1 * X 1 ^ 2 * X 2 ^ 0 - X 0 ^ 1 * X 1 ^ 0 * X 2 ^ 2 := by
      simp [exP]; ring
    have := congrArg exMean e
    rw [map_sub, m, m] at this
    simpa [exN, g, h] using this
  · have e : exP 2 * exP 2 = X 0 ^ 0 * X 1 ^ 2 * X 2 ^ 0 := by simp [exP]; ring
    simpa [exN, g, h] using (congrArg exMean e).trans (m _ _ _)
  · have e : exP 2 * exP 3 = X 0 ^ 0 * X 1 ^ 2 * X 2 ^ 1 := by simp [exP]; ring
    simpa [exN, g, h] using (congrArg exMean e).trans (m _ _ _)
  · have e : exP 2 * exP 4 = X 0 ^ 0 * X 1 ^ 3 * X 2 ^ 0 - X 0 ^ 0 * X 1 ^ 1 * X 2 ^ 2 := by
      simp [exP]; ring
    have := congrArg exMean e
    rw [map_sub, m, m] at this
    simpa [exN, g, h] using this
  · have e : exP 3 * exP 3 = X 0 ^ 0 * X 1 ^ 2 * X 2 ^ 2 := by simp [exP]; ring
    have := (congrArg exMean e).trans (m _ _ _)
    simpa [exN, g, h] using this
  · have e : exP 3 * exP 4 = X 0 ^ 0 * X 1 ^ 3 * X 2 ^ 1 - X 0 ^ 0 * X 1 ^ 1 * X 2 ^ 3 := by
      simp [exP]; ring
    have := congrArg exMean e
    rw [map_sub, m, m] at this
    simpa [exN, g, h] using this
  · have e : exP 4 * exP 4 = X 0 ^ 0 * X 1 ^ 4 * X 2 ^ 0 - C 2 * (X 0 ^ 0 * X 1 ^ 2 * X 2 ^ 2)
        + X 0 ^ 0 * X 1 ^ 0 * X 2 ^ 4 := by
      rw [show (C 2 : Fn) = 2 from map_ofNat C 2]
      simp [exP]; ring
    have := congrArg exMean e
    rw [map_add, map_sub, mean_C_mul, m, m, m] at this
    rw [show ((⟨4, by decide⟩ : Fin 5)) = 4 from rfl, this, if_pos rfl]
    simp [exN, g, h]
    norm_num

theorem exN_pos (i : Fin 5) : 0 < exN i := by
  fin_cases i <;> simp [exN]

theorem exOrtho' (i j : Fin 5) :
    exOper.mean (exOper.Y i * exOper.Y j) = if i = j then 1 else 0 := by
  have e : exOper.Y i * exOper.Y j
      = C ((Real.sqrt (exN i) : ℂ) * (Real.sqrt (exN j) : ℂ)) * (exP i * exP j) := by
    simp only [exOper, C_mul]; ring
  rw [e, mean_C_mul]
  change _ * exMean _ = _
  rw [exOrtho]
  by_cases hij : i = j
  · subst hij
    rw [if_pos rfl, if_pos rfl, ← Complex.ofReal_mul, Real.mul_self_sqrt (exN_pos i).le]
    have : ((exN i : ℝ) : ℂ) ≠ 0 := by exact_mod_cast (exN_pos i).ne'
    field_simp
  · rw [if_neg hij, if_neg hij, mul_zero]

theorem exHarmP (i : Fin 5) : IsHarmonic (exOper.l i) (exP i) := by
  constructor
  · fin_cases i
    · exact isHomogeneous_one _ _
    · exact isHomogeneous_X _ _
    · exact isHomogeneous_X _ _
    · exact (isHomogeneous_X ℂ (1 : Fin 3)).mul (isHomogeneous_X ℂ (2 : Fin 3))
    · exact (isHomogeneous_X_pow (1 : Fin 3) 2).sub (isHomogeneous_X_pow (2 : Fin 3) 2)
  · fin_cases i <;>
      simp [exP, Fin.sum_univ_three, pderiv_mul, pderiv_X, Pi.single_apply, pow_two]

theorem exSphere : IsSphere exOper where
  radius := one_ne_zero
  mean := exMean_isMean
  harm i := by
    refine ⟨?_, ?_⟩
    · have := (isHomogeneous_C (Fin 3) (Real.sqrt (exN i) : ℂ)).mul (exHarmP i).hom
      rwa [zero_add] at this
    · have := (exHarmP i).lap
      simp only [exOper, pderiv_C_mul, ← Finset.mul_sum, this, mul_zero]
  ortho i := by rw [exOrtho', if_pos rfl]
  ortho' i j hij := by rw [exOrtho', if_neg hij]

end

end Verif.Sphere
