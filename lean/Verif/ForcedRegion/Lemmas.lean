import Verif.ForcedRegion.Spec
import Mathlib.Tactic.Ring
import Mathlib.Tactic.NormNum
import Mathlib.Tactic.Linarith
import Mathlib.Tactic.FieldSimp
import Mathlib.Tactic.Positivity

/-!
# Helper lemmas for the forced modes
-/

namespace Verif.ForcedRegion

theorem axis_adim {m i : ℕ} {a : ℤ} (h : AxisIndex m i a) : adim (2 * m) i = a ∧ i ≠ m := by
  obtain ⟨h1, h2, h3, h4⟩ := h
  have hm : 2 * m / 2 = m := by omega
  simp only [adim, hm]
  constructor
  · split <;> omega
  · omega

theorem axis_exists {m : ℕ} {a : ℤ} (h1 : -(m : ℤ) < a) (h2 : a < m) : ∃ i, AxisIndex m i a := by
  by_cases h : 0 ≤ a
  · exact ⟨a.toNat, by simp only [AxisIndex]; omega⟩
  · exact ⟨(a + 2 * m).toNat, by simp only [AxisIndex]; omega⟩

theorem axis_of_index {m i : ℕ} (hi : i < 2 * m) (hm : i ≠ m) : AxisIndex m i (adim (2 * m) i) := by
  have hm' : 2 * m / 2 = m := by omega
  simp only [adim, hm', AxisIndex]
  split <;> omega

theorem boxNoF_iff (b : Box) (neg : Bool) (kh kv : ℝ) :
    ¬ boxNoF b neg kh kv ↔ InBox b.khmin b.khmax b.kvmin b.kvmax neg kh kv := by
  cases neg
  · simp only [boxNoF, InBox, Bool.false_eq_true, if_false, false_and, or_false, not_or, not_lt,
      gt_iff_lt]
    tauto
  · simp only [boxNoF, InBox, if_true, not_or, not_and_or, not_lt, gt_iff_lt, true_and]
    constructor
    · rintro ⟨⟨h1, h2⟩, h3⟩
      refine ⟨⟨h2, h1⟩, ?_⟩
      rcases h3 with ⟨h, h'⟩ | ⟨h, h'⟩
      · exact Or.inl ⟨h', h⟩
      · exact Or.inr ⟨by linarith, by linarith⟩
    · rintro ⟨⟨h1, h2⟩, h3⟩
      refine ⟨⟨h2, h1⟩, ?_⟩
      rcases h3 with ⟨h, h'⟩ | ⟨h, h'⟩
      · exact Or.inl ⟨h', h⟩
      · exact Or.inr ⟨by linarith, by linarith⟩

theorem sectorNoF_iff (angle delta kmin kmax : ℝ) (neg : Bool) (k kv : ℝ) :
    ¬ sectorNoF angle delta kmin kmax neg k kv ↔
      InSector kmin kmax angle delta neg k (Real.arccos (kv / noz k)) := by
  set theta := Real.arccos (kv / noz k) with ht
  have e : sectorNoF angle delta kmin kmax neg k kv ↔ ((k > kmax ∨ k < kmin) ∨
    (if neg then
      (theta > angle + 0.5 * delta ∨ theta < angle - 0.5 * delta) ∧
        (theta < Real.pi - angle - 0.5 * delta ∨ theta > Real.pi - angle + 0.5 * delta)
      else theta > angle + 0.5 * delta ∨ theta < angle - 0.5 * delta)) := Iff.rfl
  rw [e]
  simp only [InSector, abs_le]
  cases neg
  · simp only [Bool.false_eq_true, if_false, false_and, or_false, not_or, not_lt, gt_iff_lt]
    constructor
    · rintro ⟨⟨h1, h2⟩, h3, h4⟩
      exact ⟨⟨h2, h1⟩, by linarith, by linarith⟩
    · rintro ⟨⟨h1, h2⟩, h3, h4⟩
      exact ⟨⟨h2, h1⟩, by linarith, by linarith⟩
  · simp only [if_true, not_or, not_and_or, not_lt, gt_iff_lt, true_and]
    constructor
    · rintro ⟨⟨h1, h2⟩, h3⟩
      refine ⟨⟨h2, h1⟩, ?_⟩
      rcases h3 with ⟨h, h'⟩ | ⟨h, h'⟩
      · exact Or.inl ⟨by linarith, by linarith⟩
      · exact Or.inr ⟨by linarith, by linarith⟩
    · rintro ⟨⟨h1, h2⟩, h3⟩
      refine ⟨⟨h2, h1⟩, ?_⟩
      rcases h3 with ⟨h, h'⟩ | ⟨h, h'⟩
      · exact Or.inl ⟨by linarith, by linarith⟩
      · exact Or.inr ⟨by linarith, by linarith⟩

/-- For a non-zero wavevector, the components are those given by the angle. -/
theorem polar {kh kv : ℝ} (hkh : 0 ≤ kh) (h0 : √(kh ^ 2 + kv ^ 2) ≠ 0) :
    kv = √(kh ^ 2 + kv ^ 2) * Real.cos (Real.arccos (kv / noz √(kh ^ 2 + kv ^ 2))) ∧
      kh = √(kh ^ 2 + kv ^ 2) * Real.sin (Real.arccos (kv / noz √(kh ^ 2 + kv ^ 2))) := by
  have hs : √(kh ^ 2 + kv ^ 2) ^ 2 = kh ^ 2 + kv ^ 2 := Real.sq_sqrt (by positivity)
  have hpos : 0 < √(kh ^ 2 + kv ^ 2) := lt_of_le_of_ne (Real.sqrt_nonneg _) (Ne.symm h0)
  set k := √(kh ^ 2 + kv ^ 2) with hk
  rw [noz, if_neg h0]
  have habs : |kv| ≤ k := abs_le_of_sq_le_sq (by nlinarith [sq_nonneg kh]) hpos.le
  have h1 : -1 ≤ kv / k := by rw [le_div_iff₀ hpos]; linarith [(abs_le.1 habs).1]
  have h2 : kv / k ≤ 1 := by rw [div_le_one hpos]; exact (abs_le.1 habs).2
  rw [Real.cos_arccos h1 h2, Real.sin_arccos]
  constructor
  · field_simp
  · have : 1 - (kv / k) ^ 2 = (kh / k) ^ 2 := by
      field_simp; linarith
    rw [this, Real.sqrt_sq (by positivity)]
    field_simp

end Verif.ForcedRegion
