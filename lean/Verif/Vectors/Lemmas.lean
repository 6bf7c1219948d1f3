import Verif.Vectors.Spec
import Mathlib.Tactic.LinearCombination
import Mathlib.Tactic.FieldSimp
import Mathlib.Tactic.Positivity
import Mathlib.Tactic.Linarith

/-! # Helper lemmas for `Vectors` -/

namespace Verif.Vectors

theorem kh2_nonneg (k : K3) : 0 ≤ kh2 k := by unfold kh2; positivity

theorem k2_nonneg (k : K3) : 0 ≤ k2 k := by unfold k2 kh2; positivity

theorem kh2_eq_zero {k : K3} : kh2 k = 0 ↔ Shear k := by
  unfold kh2 Shear
  constructor
  · intro h
    constructor <;> nlinarith [sq_nonneg k.x, sq_nonneg k.y]
  · rintro ⟨h1, h2⟩; simp [h1, h2]

theorem k2_eq_zero {k : K3} : k2 k = 0 ↔ k.x = 0 ∧ k.y = 0 ∧ k.z = 0 := by
  unfold k2 kh2
  constructor
  · intro h
    refine ⟨?_, ?_, ?_⟩ <;> nlinarith [sq_nonneg k.x, sq_nonneg k.y, sq_nonneg k.z]
  · rintro ⟨h1, h2, h3⟩; simp [h1, h2, h3]

theorem kh2_pos {k : K3} (h : ¬ Shear k) : 0 < kh2 k :=
  lt_of_le_of_ne (kh2_nonneg k) (fun e => h (kh2_eq_zero.1 e.symm))

theorem k2_pos_of_not_shear {k : K3} (h : ¬ Shear k) : 0 < k2 k := by
  have := kh2_pos h
  unfold k2; positivity

theorem nozero_of_ne {a : ℝ} (h : a ≠ 0) : nozero a = a := if_neg h

/-- Off the shear modes: with `K = |k|`, `kh = |k_h|`. -/
theorem angles {k : K3} (h : ¬ Shear k) :
    ∃ κ h' : ℝ, 0 < κ ∧ 0 < h' ∧ k.z = κ * cosTheta k ∧ h' = κ * sinTheta k ∧
      k.x = h' * cosPhi k ∧ k.y = h' * sinPhi k ∧ cosTheta k ^ 2 + sinTheta k ^ 2 = 1 ∧
      cosPhi k ^ 2 + sinPhi k ^ 2 = 1 := by
  have hh := kh2_pos h
  have hk := k2_pos_of_not_shear h
  have e1 : cosTheta k = k.z / √(k2 k) := by
    rw [cosTheta, nozero_of_ne hk.ne', Real.sqrt_div zero_le_one, Real.sqrt_one]; ring
  have e2 : sinTheta k = √(kh2 k) / √(k2 k) := by
    rw [sinTheta, nozero_of_ne hk.ne', Real.sqrt_mul hh.le, Real.sqrt_div zero_le_one,
      Real.sqrt_one]; ring
  have e3 : cosPhi k = k.x / √(kh2 k) := by
    rw [cosPhi, nozero_of_ne hh.ne', Real.sqrt_div zero_le_one, Real.sqrt_one]; ring
  have e4 : sinPhi k = k.y / √(kh2 k) := by
    rw [sinPhi, nozero_of_ne hh.ne', Real.sqrt_div zero_le_one, Real.sqrt_one]; ring
  have s1 := Real.sqrt_pos.2 hk
  have s2 := Real.sqrt_pos.2 hh
  have q1 := Real.sq_sqrt hk.le
  have q2 := Real.sq_sqrt hh.le
  refine ⟨√(k2 k), √(kh2 k), s1, s2, ?_, ?_, ?_, ?_, ?_, ?_⟩
  · rw [e1]; field_simp
  · rw [e2]; field_simp
  · rw [e3]; field_simp
  · rw [e4]; field_simp
  · rw [e1, e2, div_pow, div_pow, q1, q2, ← add_div, div_eq_one_iff_eq hk.ne']
    unfold k2; ring
  · rw [e3, e4, div_pow, div_pow, q2, ← add_div, div_eq_one_iff_eq hh.ne']
    unfold kh2; ring

/-- At the shear modes the angles vanish. -/
theorem angles_shear {k : K3} (h : Shear k) :
    sinTheta k = 0 ∧ cosPhi k = 0 ∧ sinPhi k = 0 := by
  have hh : kh2 k = 0 := kh2_eq_zero.2 h
  refine ⟨?_, ?_, ?_⟩
  · simp [sinTheta, hh]
  · simp [cosPhi, h.1]
  · simp [sinPhi, h.2]

theorem poloidal_shear {k : K3} (h : Shear k) (v : V3) : poloidal k v = zero := by
  obtain ⟨h1, h2, h3⟩ := angles_shear h
  simp [poloidal, zero, h1, h2, h3]

theorem toroidal_shear {k : K3} (h : Shear k) (v : V3) : toroidal k v = zero := by
  obtain ⟨h1, h2, h3⟩ := angles_shear h
  simp [toroidal, zero, h2, h3]

/-- The equations over the complex numbers. -/
theorem anglesC {k : K3} (h : ¬ Shear k) :
    ∃ κ h' : ℂ, κ ≠ 0 ∧ h' ≠ 0 ∧ (k.z : ℂ) = κ * cosTheta k ∧ h' = κ * sinTheta k ∧
      (k.x : ℂ) = h' * cosPhi k ∧ (k.y : ℂ) = h' * sinPhi k ∧
      (cosTheta k : ℂ) ^ 2 + (sinTheta k : ℂ) ^ 2 = 1 ∧
      (cosPhi k : ℂ) ^ 2 + (sinPhi k : ℂ) ^ 2 = 1 := by
  obtain ⟨κ, h', h1, h2, h3, h4, h5, h6, h7, h8⟩ := angles h
  refine ⟨κ, h', by exact_mod_cast h1.ne', by exact_mod_cast h2.ne', by exact_mod_cast h3,
    by exact_mod_cast h4, by exact_mod_cast h5, by exact_mod_cast h6, by exact_mod_cast h7,
    by exact_mod_cast h8⟩

theorem radial_real (k : K3) : (k2 k = 0 ∧ k.x = 0 ∧ k.y = 0 ∧ k.z = 0) ∨
    (k2 k ≠ 0 ∧ ((1 / nozero (k2 k) : ℝ) : ℂ) * ((k.x : ℂ) ^ 2 + (k.y : ℂ) ^ 2 + (k.z : ℂ) ^ 2)
      = 1) := by
  by_cases h : k2 k = 0
  · exact Or.inl ⟨h, k2_eq_zero.1 h⟩
  · right
    refine ⟨h, ?_⟩
    rw [nozero_of_ne h]
    have : ((1 / k2 k) * (k.x ^ 2 + k.y ^ 2 + k.z ^ 2) : ℝ) = 1 := by
      have e : k.x ^ 2 + k.y ^ 2 + k.z ^ 2 = k2 k := by unfold k2 kh2; ring
      rw [e]; field_simp
    exact_mod_cast this

theorem powI_even (m : ℤ) : powI (2 * m) = 1 ∨ powI (2 * m) = -1 := by
  unfold powI
  rw [zpow_mul, show (Complex.I ^ (2 : ℤ)) = -1 by
    rw [show ((2 : ℤ)) = ((2 : ℕ) : ℤ) by rfl, zpow_natCast, Complex.I_sq]]
  rcases Int.even_or_odd m with h | h
  · left; exact h.neg_one_zpow
  · right; exact h.neg_one_zpow

theorem powI_odd (m : ℤ) : powI (2 * m + 1) = Complex.I ∨ powI (2 * m + 1) = -Complex.I := by
  have e : powI (2 * m + 1) = powI (2 * m) * Complex.I := by
    unfold powI; rw [zpow_add₀ Complex.I_ne_zero, zpow_one]
  rcases powI_even m with h | h <;> simp [e, h]

end Verif.Vectors
