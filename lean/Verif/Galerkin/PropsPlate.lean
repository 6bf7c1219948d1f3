import Verif.Galerkin.Lemmas
import Verif.Energy.PropsPlate

/-! # C57: the tendencies of plate2d -/

namespace Verif.Galerkin

open Verif.Fourier Verif.Energy Verif.Vectors Finset

noncomputable section

theorem bracket_cr (S H : Finset (Fin 2 → ℤ)) (δ : Fin 2 → ℝ) (a b : Fld (Fin 2)) (k : Fin 2 → ℤ) :
    bracket S H δ a b k
      = ∑ p ∈ S, ∑ q ∈ H, if p + q = k then a p * b q * (cr δ p q : ℂ) ^ 2 else 0 := by
  refine sum_congr rfl fun p _ => sum_congr rfl fun q _ => ?_
  split
  · simp only [pd, cr]
    push_cast
    have h4 : Complex.I ^ 4 = 1 := Complex.I_pow_four
    linear_combination (a p * b q * (δ 0 * p 0 * (δ 1 * q 1) - δ 1 * p 1 * (δ 0 * q 0)) ^ 2) * h4
  · rfl

theorem bilap_k4 (δ : Fin 2 → ℝ) (a : Fld (Fin 2)) (k : Fin 2 → ℤ) :
    bilap δ a k = (k4 δ k : ℂ) * a k := by
  simp only [bilap, pd, k4]
  push_cast
  have h4 : Complex.I ^ 4 = 1 := Complex.I_pow_four
  linear_combination (a k * ((δ 0 * k 0) ^ 2 + (δ 1 * k 1) ^ 2) ^ 2) * h4

/-- C57 (plate2d): `∂t z = w`, `∂t w = -∇⁴ z + {z, χ}` with `∇⁴ χ = -{z, z}`, if the truncation keeps
less than a half of the modes in each direction (`coef_dealiasing <= 1/2`: the term is cubic). `G` is
the set of the modes of the arrays. -/
theorem C57_plate2d_partial {n : Fin 2 → ℕ} (hn : ∀ d, 0 < n d) {S G : Finset (Fin 2 → ℤ)}
    (hS : ∀ k ∈ S, ∀ d, 4 * |k d| < n d) (hG : ∀ k ∈ G, ∀ d, 2 * |k d| ≤ n d)
    (hSG : ∀ p ∈ S, ∀ q ∈ S, p + q ∈ G) {δ : Fin 2 → ℝ} (hδ : ∀ d, δ d ≠ 0)
    {w z chi : Fld (Fin 2)} (hchi : Airy S δ z chi) {k : Fin 2 → ℤ} (hk : k ∈ S) :
    (plate2d n δ S G w z).1 k = -bilap δ z k + bracket S (sums S) δ z chi k ∧
      (plate2d n δ S G w z).2 k = w k := by
  have hk4 : ∀ q : Fin 2 → ℤ, q ≠ 0 → k4 δ q ≠ 0 := by
    intro q hq h
    rw [k4] at h
    have h' : (δ 0 * q 0) ^ 2 + (δ 1 * q 1) ^ 2 = 0 := pow_eq_zero_iff two_ne_zero |>.1 h
    apply hq
    have e0 : δ 0 * q 0 = 0 := by nlinarith [sq_nonneg (δ 0 * (q 0 : ℝ)), sq_nonneg (δ 1 * (q 1 : ℝ))]
    have e1 : δ 1 * q 1 = 0 := by nlinarith [sq_nonneg (δ 0 * (q 0 : ℝ)), sq_nonneg (δ 1 * (q 1 : ℝ))]
    have e0' : q 0 = 0 := by exact_mod_cast (mul_eq_zero.1 e0).resolve_left (hδ 0)
    have e1' : q 1 = 0 := by exact_mod_cast (mul_eq_zero.1 e1).resolve_left (hδ 1)
    funext d
    fin_cases d
    · exact e0'
    · exact e1'
  -- the stress function of the code
  have hmem : ∀ p ∈ S, ∀ q ∈ S, p + q ∈ sums S := fun p hp q hq =>
    mem_image.2 ⟨(p, q), mem_product.2 ⟨hp, hq⟩, rfl⟩
  have hfft : ∀ q ∈ G, fftCoef n (mongeAmpere n δ S S z z) q = bracket S S δ z z q := by
    intro q hq
    rw [fft_ma n hn, bracket_cr]
    refine sum_congr rfl fun p hp => sum_congr rfl fun p' hp' => ?_
    have : (∀ d, (n d : ℤ) ∣ p d + p' d + -q d) ↔ p + p' = q := by
      constructor
      · intro h
        funext d
        have := dvd_small (h d) (by
          have h1 := hS p hp d; have h2 := hS p' hp' d; have h3 := hG q hq d
          have a1 := abs_le.1 (le_refl |p d|); have a2 := abs_le.1 (le_refl |p' d|)
          have a3 := abs_le.1 (le_refl |q d|)
          rw [abs_lt]; constructor <;> omega)
        simp only [Pi.add_apply]; omega
      · rintro rfl d
        simp
    simp only [this]
  have hchiG : ∀ q ∈ G, chiFft n δ S z q = if q ∈ sums S then chi q else 0 := by
    intro q hq
    simp only [chiFft]
    by_cases h0 : q = 0
    · rw [if_pos h0]
      split
      · rw [h0, hchi.mean]
      · rfl
    · rw [if_neg h0, hfft q hq]
      have hne : ((k4 δ q : ℝ) : ℂ) ≠ 0 := by exact_mod_cast hk4 q h0
      split
      · rename_i hm
        have := hchi.eq q hm
        rw [bilap_k4] at this
        have e : bracket S S δ z z q = -((k4 δ q : ℂ) * chi q) := by rw [this, neg_neg]
        rw [e, neg_div, neg_neg]
        show (k4 δ q : ℂ) * chi q / (k4 δ q : ℝ) = chi q
        field_simp
      · rename_i hm
        rw [bracket_cr, sum_eq_zero, zero_div, neg_zero]
        intro p hp
        refine sum_eq_zero fun p' hp' => if_neg fun e => hm (by rw [← e]; exact hmem p hp p' hp')
  have hsub : sums S ⊆ G := by
    intro q hq
    obtain ⟨⟨p, p'⟩, hp, rfl⟩ := mem_image.1 hq
    exact hSG p (mem_product.1 hp).1 p' (mem_product.1 hp).2
  constructor
  · simp only [plate2d, if_pos hk]
    rw [bilap_k4, fft_ma n hn, bracket_cr]
    have e1 : -((((δ 0 * k 0) ^ 2 + (δ 1 * k 1) ^ 2) ^ 2 : ℝ) : ℂ) * z k = -((k4 δ k : ℂ) * z k) := by
      rw [neg_mul]; rfl
    rw [e1]
    congr 1
    refine sum_congr rfl fun p hp => ?_
    rw [← sum_subset hsub]
    · refine sum_congr rfl fun q hq => ?_
      rw [hchiG q (hsub hq), if_pos hq]
      have : (∀ d, (n d : ℤ) ∣ p d + q d + -k d) ↔ p + q = k := by
        constructor
        · intro h
          funext d
          have := dvd_small (h d) (by
            have h1 := hS p hp d; have h2 := hG q (hsub hq) d; have h3 := hS k hk d
            have a1 := abs_le.1 (le_refl |p d|); have a2 := abs_le.1 (le_refl |q d|)
            have a3 := abs_le.1 (le_refl |k d|)
            rw [abs_lt]; constructor <;> omega)
          simp only [Pi.add_apply]; omega
        · rintro rfl d
          simp
      simp only [this]
    · intro q hq hqs
      rw [hchiG q hq, if_neg hqs]; simp
  · simp only [plate2d, if_pos hk]

/-! ### the default truncation is not enough -/

/-- Six modes kept by the 2/3 truncation of a 16 x 16 grid. -/
def S6 : Finset (Fin 2 → ℤ) := {![5, 1], ![-5, -1], ![5, -1], ![-5, 1], ![1, 1], ![-1, -1]}

/-- All the modes of the 16 x 16 grid. -/
def G16 : Finset (Fin 2 → ℤ) :=
  (Finset.Icc (-8 : ℤ) 7 ×ˢ Finset.Icc (-8 : ℤ) 7).map
    ⟨fun p : ℤ × ℤ => (![p.1, p.2] : Fin 2 → ℤ), fun p q h => by
      have h0 := congrFun h 0
      have h1 := congrFun h 1
      exact Prod.ext h0 h1⟩

def crZ (p q : Fin 2 → ℤ) : ℤ := p 0 * q 1 - p 1 * q 0

def chiGridQ (q : Fin 2 → ℤ) : ℚ :=
  if q = 0 then 0
  else -((∑ p ∈ S6, ∑ p' ∈ S6, if ∀ d, (16 : ℤ) ∣ p d + p' d + -q d then ((crZ p p' ^ 2 : ℤ) : ℚ) else 0)
    / (((q 0 ^ 2 + q 1 ^ 2) ^ 2 : ℤ) : ℚ))

def chiQ (q : Fin 2 → ℤ) : ℚ :=
  if q = 0 then 0
  else -((∑ p ∈ S6, ∑ p' ∈ S6, if p + p' = q then ((crZ p p' ^ 2 : ℤ) : ℚ) else 0)
    / (((q 0 ^ 2 + q 1 ^ 2) ^ 2 : ℤ) : ℚ))

def gridQ : ℚ := ∑ p ∈ S6, ∑ q ∈ G16,
  if ∀ d, (16 : ℤ) ∣ p d + q d + -(![-5, 1] : Fin 2 → ℤ) d then chiGridQ q * ((crZ p q ^ 2 : ℤ) : ℚ) else 0

def exactQ : ℚ := ∑ p ∈ S6, ∑ q ∈ sums S6,
  if p + q = ![-5, 1] then chiQ q * ((crZ p q ^ 2 : ℤ) : ℚ) else 0

theorem gridQ_ne : gridQ ≠ exactQ := by decide +kernel

theorem cr_cast (p q : Fin 2 → ℤ) : ((cr (fun _ => 1) p q : ℝ) : ℂ) ^ 2 = (((crZ p q ^ 2 : ℤ) : ℚ) : ℂ) := by
  simp only [cr, crZ]; push_cast; ring

theorem chiGrid_cast (q : Fin 2 → ℤ) :
    chiFft (fun _ => 16) (fun _ => 1) S6 (fun _ => 1) q = (chiGridQ q : ℂ) := by
  rw [chiFft, chiGridQ]
  split
  · simp
  · rw [fft_ma _ (by norm_num)]
    simp only [cr_cast, one_mul]
    push_cast
    simp only [apply_ite (Rat.cast : ℚ → ℂ)]
    push_cast
    ring_nf

/-- C57 (finding): with the default truncation (2/3) of plate2d the cubic term of the equation is not
free of aliasing: the tendency of a kept mode differs from the right-hand side of the equation. -/
theorem C57_plate2d_violated :
    ¬ ∀ (n : Fin 2 → ℕ) (S G : Finset (Fin 2 → ℤ)) (δ : Fin 2 → ℝ) (w z chi : Fld (Fin 2))
      (k : Fin 2 → ℤ), (∀ d, 0 < n d) → (∀ d, 0 < δ d) → (∀ p ∈ S, keptSpherical δ n 0 (2 / 3) p) →
      (∀ p, p ∈ G ↔ ∀ d, -(n d : ℤ) ≤ 2 * p d ∧ 2 * p d < n d) → RealOn S w → RealOn S z →
      Airy S δ z chi → k ∈ S →
      (plate2d n δ S G w z).1 k = -bilap δ z k + bracket S (sums S) δ z chi k := by
  intro H
  have h := H (fun _ => 16) S6 G16 (fun _ => 1) (fun _ => 0) (fun _ => 1) (fun q => (chiQ q : ℂ))
    ![-5, 1] (by norm_num) (by norm_num) ?_ ?_ ?_ ?_ ?_ (by decide)
  · apply gridQ_ne
    have hk : (![-5, 1] : Fin 2 → ℤ) ∈ S6 := by decide
    simp only [plate2d, if_pos hk] at h
    rw [bilap_k4, fft_ma _ (by norm_num), bracket_cr] at h
    have e1 : ∀ x : ℝ, -((x : ℝ) : ℂ) * 1 = -((x : ℂ) * 1) := fun x => by ring
    rw [e1] at h
    have h' := add_left_cancel h
    have hl : (gridQ : ℂ) = (exactQ : ℂ) := by
      rw [gridQ, exactQ]
      simp only [Rat.cast_sum, apply_ite (Rat.cast : ℚ → ℂ), Rat.cast_mul, ← cr_cast, Rat.cast_zero]
      simp only [chiGrid_cast, one_mul] at h'
      exact h'
    exact_mod_cast hl
  · intro p hp
    simp only [keptSpherical, Fin.sum_univ_two, ge_iff_le, not_le]
    have : p 0 ^ 2 + p 1 ^ 2 ≤ 26 := by revert p; decide
    have : (p 0 : ℝ) ^ 2 + (p 1 : ℝ) ^ 2 ≤ 26 := by exact_mod_cast this
    norm_num; linarith
  · intro p
    simp only [G16, mem_map, mem_product, mem_Icc, Prod.exists]
    constructor
    · rintro ⟨a, b, ⟨ha, hb⟩, rfl⟩ d
      fin_cases d
      · show -((16 : ℕ) : ℤ) ≤ 2 * a ∧ 2 * a < ((16 : ℕ) : ℤ)
        omega
      · show -((16 : ℕ) : ℤ) ≤ 2 * b ∧ 2 * b < ((16 : ℕ) : ℤ)
        omega
    · intro hp
      have h0 := hp 0
      have h1 := hp 1
      push_cast at h0 h1
      refine ⟨p 0, p 1, ⟨by omega, by omega⟩, ?_⟩
      funext d; fin_cases d <;> rfl
  · intro p hp
    exact ⟨by revert p; decide, by simp⟩
  · intro p hp
    exact ⟨by revert p; decide, by simp⟩
  · refine ⟨by simp [chiQ], fun q _ => ?_⟩
    rw [bilap_k4, bracket_cr]
    by_cases h0 : q = 0
    · subst h0
      have : (∑ p ∈ S6, ∑ p' ∈ S6, if p + p' = 0 then ((crZ p p' ^ 2 : ℤ) : ℚ) else 0) = 0 := by
        decide +kernel
      have h2 := congrArg (Rat.cast : ℚ → ℂ) this
      simp only [Rat.cast_sum, apply_ite (Rat.cast : ℚ → ℂ), ← cr_cast, Rat.cast_zero] at h2
      simp only [one_mul]
      rw [h2]
      simp [k4]
    · have hne : ((k4 (fun _ => 1) q : ℝ) : ℂ) = (((q 0 ^ 2 + q 1 ^ 2) ^ 2 : ℤ) : ℚ) := by
        simp [k4]
      have hnz : ((((q 0 ^ 2 + q 1 ^ 2) ^ 2 : ℤ) : ℚ) : ℂ) ≠ 0 := by
        have : (q 0 ^ 2 + q 1 ^ 2) ^ 2 ≠ 0 := by
          intro e
          have e' : q 0 ^ 2 + q 1 ^ 2 = 0 := pow_eq_zero_iff two_ne_zero |>.1 e
          apply h0
          funext d
          fin_cases d
          · show q 0 = 0; nlinarith [sq_nonneg (q 0), sq_nonneg (q 1)]
          · show q 1 = 0; nlinarith [sq_nonneg (q 0), sq_nonneg (q 1)]
        exact_mod_cast this
      rw [hne, chiQ, if_neg h0]
      simp only [Rat.cast_neg, Rat.cast_div, Rat.cast_sum, apply_ite (Rat.cast : ℚ → ℂ), ← cr_cast,
        Rat.cast_zero, one_mul]
      rw [mul_neg, mul_div_cancel₀ _ hnz]

/-- The hypotheses of `C57_plate2d_partial` are met by the same kind of field on a 24 x 24 grid. -/
example : (∀ k ∈ S6, ∀ d : Fin 2, 4 * |k d| < ((24 : ℕ) : ℤ)) ∧
    Airy S6 (fun _ => 1) (fun _ => 1) (fun q => -(bracket S6 S6 (fun _ => 1) (fun _ => 1) (fun _ => 1) q
      / (k4 (fun _ => 1) q : ℂ))) := by
  refine ⟨by decide, ⟨by simp [k4], fun q _ => ?_⟩⟩
  rw [bilap_k4]
  by_cases h : (k4 (fun _ => 1) q : ℂ) = 0
  · have h0 : q = 0 := by
      have : k4 (fun _ => 1) q = 0 := by exact_mod_cast h
      simp only [k4, one_mul] at this
      have e' : (q 0 : ℝ) ^ 2 + (q 1 : ℝ) ^ 2 = 0 := pow_eq_zero_iff two_ne_zero |>.1 this
      have e2 : q 0 ^ 2 + q 1 ^ 2 = 0 := by exact_mod_cast e'
      funext d
      fin_cases d
      · show q 0 = 0; nlinarith [sq_nonneg (q 0), sq_nonneg (q 1)]
      · show q 1 = 0; nlinarith [sq_nonneg (q 0), sq_nonneg (q 1)]
    subst h0
    rw [bracket_cr]
    have : (∑ p ∈ S6, ∑ p' ∈ S6, if p + p' = 0 then ((crZ p p' ^ 2 : ℤ) : ℚ) else 0) = 0 := by
      decide +kernel
    have h2 := congrArg (Rat.cast : ℚ → ℂ) this
    simp only [Rat.cast_sum, apply_ite (Rat.cast : ℚ → ℂ), ← cr_cast, Rat.cast_zero] at h2
    simp only [one_mul]
    rw [h2]; simp
  · field_simp

end

end Verif.Galerkin
