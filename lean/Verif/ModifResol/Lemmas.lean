import Verif.ModifResol.Model
import Verif.ModifResol.Spec
import Verif.Fourier.Lemmas
import Verif.Modes.Props

set_option linter.unusedSectionVars false

namespace Verif.ModifResol

open Verif.Fourier Verif.Modes Finset

noncomputable section

variable {D : Type*} [Fintype D] [DecidableEq D]

/-- modes equal modulo the numbers of points have the same values on the grid -/
theorem chi_periodic (n : D → ℕ) (hn : ∀ d, 0 < n d) (p k : D → ℤ) (h : ∀ d, (n d : ℤ) ∣ p d - k d) (j : Pt n) :
    chi n p j = chi n k j := by
  have e : p = k + (p - k) := by simp
  rw [e, ← chi_mul]
  have : chi n (p - k) j = 1 := by
    rw [chi_prod]
    refine prod_eq_one fun d _ => ?_
    obtain ⟨c, hc⟩ := h d
    rw [Complex.exp_eq_one_iff]
    refine ⟨c * (j d : ℕ), ?_⟩
    have h0 : (n d : ℂ) ≠ 0 := by exact_mod_cast (hn d).ne'
    have : (((p - k) d : ℤ) : ℂ) = n d * c := by rw [Pi.sub_apply, hc]; push_cast; ring
    rw [this]
    push_cast
    field_simp
  rw [this, mul_one]

theorem fft_gridVal (n : D → ℕ) (hn : ∀ d, 0 < n d) (S : Finset (D → ℤ)) (a : (D → ℤ) → ℂ) (k : D → ℤ) :
    fftCoef n (gridVal n S a) k = ∑ p ∈ S, if ∀ d, (n d : ℤ) ∣ p d - k d then a p else 0 := by
  have hN : (∏ d, (n d : ℂ)) ≠ 0 := by
    rw [prod_ne_zero_iff]; intro d _; exact_mod_cast (hn d).ne'
  rw [fftCoef, div_eq_iff hN]
  have h1 : ∀ j : Pt n, gridVal n S a j * chi n (-k) j = ∑ p ∈ S, a p * chi n (p + -k) j := by
    intro j
    rw [gridVal, sum_mul]
    refine sum_congr rfl fun p _ => ?_
    rw [← chi_mul]; ring
  simp only [h1]
  rw [sum_comm, sum_mul]
  refine sum_congr rfl fun p _ => ?_
  rw [← mul_sum, sum_chi n hn]
  simp only [Pi.add_apply, Pi.neg_apply, ← sub_eq_add_neg]
  split <;> simp

/-- the backward real transform of the half spectrum of a resolved real function -/
theorem backward {ι : Type*} (n : D → ℕ) (x : D) (S : Finset (D → ℤ)) (a : (D → ℤ) → ℂ) (hr : IsReal S a)
    (hs : Resolved n S) (Idx : Finset ι) (m : ι → ℕ) (H : ι → (D → ℤ) → Prop) [∀ i k, Decidable (H i k)]
    (phase : ι → ℂ) (o : ι → ℂ) (j : Pt n)
    (hm : ∀ i ∈ Idx, ∀ k ∈ S, H i k → (m i : ℤ) = k x ∧ phase i = chi n k j)
    (hex : ∀ k ∈ S, 0 ≤ k x → ∃ i ∈ Idx, H i k ∧ ∀ i' ∈ Idx, H i' k → i' = i)
    (ho : ∀ i ∈ Idx, o i = ∑ k ∈ S, if H i k then a k else 0) :
    ((∑ i ∈ Idx, weight (n x) (m i) * (o i * phase i).re : ℝ) : ℂ) = gridVal n S a j := by
  set g : ℤ → ℝ := fun z => if z < 0 then 0 else if z = 0 then 1 else 2 with hg
  have hw : ∀ i ∈ Idx, ∀ k ∈ S, H i k → weight (n x) (m i) = g (k x) := by
    intro i hi k hk h
    have h1 := (hm i hi k hk h).1
    have h2 := hs k hk x
    simp only [hg, weight, ← h1]
    rw [← h1, abs_of_nonneg (by positivity)] at h2
    have : ¬ 2 * m i = n x := by intro e; rw [← e] at h2; push_cast at h2; omega
    by_cases h0 : m i = 0
    · simp [h0]
    · rw [if_neg (by tauto), if_neg (by omega), if_neg (by exact_mod_cast h0)]
  have e1 : ∑ i ∈ Idx, weight (n x) (m i) * (o i * phase i).re = ∑ k ∈ S, g (k x) * (a k * chi n k j).re := by
    have : ∀ i ∈ Idx, weight (n x) (m i) * (o i * phase i).re
        = ∑ k ∈ S, if H i k then g (k x) * (a k * chi n k j).re else 0 := by
      intro i hi
      rw [ho i hi, sum_mul, Complex.re_sum, mul_sum]
      refine sum_congr rfl fun k hk => ?_
      split_ifs with h
      · rw [hw i hi k hk h, (hm i hi k hk h).2]
      · simp
    rw [sum_congr rfl this, sum_comm]
    refine sum_congr rfl fun k hk => ?_
    by_cases h0 : 0 ≤ k x
    · obtain ⟨i, hi, hH, hu⟩ := hex k hk h0
      rw [sum_eq_single i, if_pos hH]
      · intro i' hi' hne
        rw [if_neg fun h => hne (hu i' hi' h)]
      · intro h; exact absurd hi h
    · rw [sum_eq_zero]
      · simp only [hg]; rw [if_pos (by omega)]; simp
      · intro i hi
        rw [if_neg fun h => h0 (by rw [← (hm i hi k hk h).1]; positivity)]
  have hconj : ∀ k ∈ S, a (-k) * chi n (-k) j = (starRingEnd ℂ) (a k * chi n k j) := by
    intro k hk
    rw [hr.2 k hk, map_mul]
    congr 1
    rw [chi, chi, ← Complex.exp_conj]
    congr 1
    simp only [map_mul, map_sum, map_div₀, Complex.conj_ofReal, Complex.conj_I, Complex.conj_natCast,
      map_intCast, Complex.conj_ofNat, Pi.neg_apply]
    push_cast
    simp only [neg_mul, mul_neg, neg_div, sum_neg_distrib]
  have flip : ∀ f : (D → ℤ) → ℂ, ∑ k ∈ S, f (-k) = ∑ k ∈ S, f k := by
    intro f
    refine sum_bij' (fun k _ => -k) (fun k _ => -k) hr.1 hr.1 ?_ ?_ ?_ <;> simp
  have e2 : (∑ k ∈ S, ((g (k x) : ℝ) : ℂ) * ((a k * chi n k j).re : ℝ)) = gridVal n S a j := by
    have h1 : ∑ k ∈ S, ((g (k x) : ℝ) : ℂ) * ((a k * chi n k j).re : ℝ)
        = ∑ k ∈ S, ((g (-(k x)) : ℝ) : ℂ) * ((a k * chi n k j).re : ℝ) := by
      rw [← flip fun k => ((g (k x) : ℝ) : ℂ) * ((a k * chi n k j).re : ℝ)]
      refine sum_congr rfl fun k hk => ?_
      rw [hconj k hk, Complex.conj_re]; rfl
    have h2 : ∀ z : ℤ, ((g z : ℝ) : ℂ) + ((g (-z) : ℝ) : ℂ) = 2 := by
      intro z
      rcases lt_trichotomy z 0 with h | h | h
      · simp only [hg]; rw [if_pos h, if_neg (by omega), if_neg (by omega)]; norm_num
      · subst h; simp only [hg]; norm_num
      · simp only [hg]; rw [if_neg (by omega), if_neg (by omega), if_pos (by omega)]; norm_num
    have h3 : 2 * ∑ k ∈ S, ((g (k x) : ℝ) : ℂ) * ((a k * chi n k j).re : ℝ)
        = ∑ k ∈ S, 2 * (((a k * chi n k j).re : ℝ) : ℂ) := by
      rw [two_mul]; nth_rw 2 [h1]
      rw [← sum_add_distrib]
      refine sum_congr rfl fun k _ => ?_
      rw [← add_mul, h2]
    have h4 : 2 * gridVal n S a j = ∑ k ∈ S, 2 * (((a k * chi n k j).re : ℝ) : ℂ) := by
      rw [two_mul, gridVal]
      nth_rw 2 [← flip fun k => a k * chi n k j]
      rw [← sum_add_distrib]
      refine sum_congr rfl fun k hk => ?_
      rw [hconj k hk, Complex.add_conj]; push_cast; ring
    exact mul_left_cancel₀ two_ne_zero (h3.trans h4.symm)
  rw [e1, ← e2]
  push_cast
  rfl

/-- existence and uniqueness of the wavenumber of an index -/
theorem holds_exists {n i : ℕ} (hi : i < n) : ∃ k, Holds n i k := by
  refine ⟨if 2 * i ≤ n then i else (i : ℤ) - n, hi, ?_, ?_⟩
  · split_ifs
    · rfl
    · exact (Int.modEq_iff_dvd.2 ⟨-1, by ring⟩)
  · split_ifs <;> constructor <;> omega

theorem holds_k_unique {n i : ℕ} {k k' : ℤ} (h : Holds n i k) (h' : Holds n i k') : k = k' := by
  obtain ⟨h1, h2, h3, h4⟩ := h
  obtain ⟨g1, g2, g3, g4⟩ := h'
  have := (Int.modEq_iff_dvd.1 (h2.symm.trans g2))
  have := dvd_small this (by rw [abs_lt]; omega)
  omega

theorem holds_of_small {n : ℕ} {k : ℤ} (h : 2 * |k| < n) : ∃ i, Holds n i k := by
  have h1 := abs_le.1 (le_refl |k|)
  refine ⟨(if 0 ≤ k then k else n + k).toNat, ?_, ?_, ?_, ?_⟩
  · split_ifs <;> omega
  · split_ifs with h0
    · rw [Int.toNat_of_nonneg h0]
    · rw [Int.toNat_of_nonneg (by omega)]; exact Int.modEq_iff_dvd.2 ⟨-1, by ring⟩
  · omega
  · omega

theorem holds_dvd {n i : ℕ} (hi : i < n) {k : ℤ} (hk : 2 * |k| < n) : Holds n i k ↔ (n : ℤ) ∣ k - i := by
  have h1 := abs_le.1 (le_refl |k|)
  constructor
  · rintro ⟨-, h, -, -⟩; exact Int.modEq_iff_dvd.1 h
  · intro h; exact ⟨hi, Int.modEq_iff_dvd.2 h, by omega, by omega⟩

theorem half_dvd {n m : ℕ} (hm : m < n / 2 + 1) {k : ℤ} (hk : 2 * |k| < n) : (m : ℤ) = k ↔ (n : ℤ) ∣ k - m := by
  have h1 := abs_le.1 (le_refl |k|)
  constructor
  · rintro rfl; simp
  · intro h
    have := dvd_small h (by rw [abs_lt]; omega)
    omega

open Classical in
/-- the half spectrum of a resolved function, 2D -/
theorem r2c2_eq (n : Fin 2 → ℕ) (hn : ∀ d, 0 < n d) (S : Finset (Fin 2 → ℤ)) (a : (Fin 2 → ℤ) → ℂ)
    (hs : Resolved n S) (X : Pt n → ℝ) (hX : Contains n S a X) (i : ℕ × ℕ) (h0 : i.1 < n 0) (h1 : i.2 < n 1 / 2 + 1) :
    r2c2 n X i = ∑ k ∈ S, if Holds (n 0) i.1 (k 0) ∧ (i.2 : ℤ) = k 1 then a k else 0 := by
  have : (fun j => (X j : ℂ)) = gridVal n S a := funext hX
  rw [r2c2, this, fft_gridVal n hn]
  refine sum_congr rfl fun k hk => ?_
  have e : (∀ d, (n d : ℤ) ∣ k d - (![(i.1 : ℤ), i.2] : Fin 2 → ℤ) d) ↔ Holds (n 0) i.1 (k 0) ∧ (i.2 : ℤ) = k 1 := by
    rw [Fin.forall_fin_two, holds_dvd h0 (hs k hk 0), half_dvd h1 (hs k hk 1)]
    simp
  simp only [e]

open Classical in
theorem r2c3_eq (n : Fin 3 → ℕ) (hn : ∀ d, 0 < n d) (S : Finset (Fin 3 → ℤ)) (a : (Fin 3 → ℤ) → ℂ)
    (hs : Resolved n S) (X : Pt n → ℝ) (hX : Contains n S a X) (i : ℕ × ℕ × ℕ) (h0 : i.1 < n 0) (h1 : i.2.1 < n 1)
    (h2 : i.2.2 < n 2 / 2 + 1) :
    r2c3 n X i = ∑ k ∈ S, if Holds (n 0) i.1 (k 0) ∧ Holds (n 1) i.2.1 (k 1) ∧ (i.2.2 : ℤ) = k 2 then a k else 0 := by
  have : (fun j => (X j : ℂ)) = gridVal n S a := funext hX
  rw [r2c3, this, fft_gridVal n hn]
  refine sum_congr rfl fun k hk => ?_
  have e : (∀ d, (n d : ℤ) ∣ k d - (![(i.1 : ℤ), i.2.1, i.2.2] : Fin 3 → ℤ) d) ↔
      Holds (n 0) i.1 (k 0) ∧ Holds (n 1) i.2.1 (k 1) ∧ (i.2.2 : ℤ) = k 2 := by
    rw [Fin.forall_fin_succ, Fin.forall_fin_two, holds_dvd h0 (hs k hk 0), holds_dvd h1 (hs k hk 1),
      half_dvd h2 (hs k hk 2)]
    simp
  simp only [e]

open Classical in
/-- the output array, 2D -/
theorem out2_eq (nI nO : Fin 2 → ℕ) (hI : ∀ d, 0 < nI d) (S : Finset (Fin 2 → ℤ)) (a : (Fin 2 → ℤ) → ℂ)
    (hsI : Resolved nI S) (X : Pt nI → ℝ) (hX : Contains nI S a X) (o : ℕ × ℕ → ℂ)
    (ho : SameModes2 (shapeK2 (nI 1) (nI 0)) (shapeK2 (nO 1) (nO 0)) (r2c2 nI X) o)
    (i : ℕ × ℕ) (h0 : i.1 < nO 0) (h1 : i.2 < nO 1 / 2 + 1) :
    o i = ∑ k ∈ S, if Holds (nO 0) i.1 (k 0) ∧ (i.2 : ℤ) = k 1 then a k else 0 := by
  obtain ⟨ky, hky⟩ := holds_exists h0
  obtain ⟨hA, hB⟩ := ho ky i.2 i.1 i.2 hky ⟨h1, rfl⟩
  by_cases hh : ∃ i0 i1, Holds (nI 0) i0 ky ∧ HoldsHalf (nI 1 / 2 + 1) i1 i.2
  · obtain ⟨i0, i1, g0, g1, g2⟩ := hh
    rw [hA i0 i1 g0 ⟨g1, g2⟩, r2c2_eq nI hI S a hsI X hX _ g0.1 g1]
    refine sum_congr rfl fun k _ => ?_
    have e : (Holds (nI 0) i0 (k 0) ∧ (i1 : ℤ) = k 1) ↔ (Holds (nO 0) i.1 (k 0) ∧ (i.2 : ℤ) = k 1) := by
      rw [g2]
      refine and_congr_left fun _ => ⟨fun h => ?_, fun h => ?_⟩
      · rw [holds_k_unique h g0]; exact hky
      · rw [holds_k_unique h hky]; exact g0
    simp only [e]
  · rw [hB hh]
    symm
    refine sum_eq_zero fun k hk => if_neg ?_
    rintro ⟨h, h'⟩
    obtain ⟨i0, hi0⟩ := holds_of_small (hsI k hk 0)
    rw [holds_k_unique h hky] at hi0
    have h3 := hsI k hk 1
    rw [← h', abs_of_nonneg (by positivity)] at h3
    exact hh ⟨i0, i.2, hi0, by omega, rfl⟩

open Classical in
theorem out3_eq (nI nO : Fin 3 → ℕ) (hI : ∀ d, 0 < nI d) (S : Finset (Fin 3 → ℤ)) (a : (Fin 3 → ℤ) → ℂ)
    (hsI : Resolved nI S) (X : Pt nI → ℝ) (hX : Contains nI S a X) (o : ℕ × ℕ × ℕ → ℂ)
    (ho : SameModes3 (shapeK3 (nI 2, nI 1, nI 0)) (shapeK3 (nO 2, nO 1, nO 0)) (r2c3 nI X) o)
    (i : ℕ × ℕ × ℕ) (h0 : i.1 < nO 0) (h1 : i.2.1 < nO 1) (h2 : i.2.2 < nO 2 / 2 + 1) :
    o i = ∑ k ∈ S, if Holds (nO 0) i.1 (k 0) ∧ Holds (nO 1) i.2.1 (k 1) ∧ (i.2.2 : ℤ) = k 2 then a k else 0 := by
  obtain ⟨kz, hkz⟩ := holds_exists h0
  obtain ⟨ky, hky⟩ := holds_exists h1
  obtain ⟨hA, hB⟩ := ho kz ky i.2.2 i.1 i.2.1 i.2.2 hkz hky ⟨h2, rfl⟩
  by_cases hh : ∃ i0 i1 i2, Holds (nI 0) i0 kz ∧ Holds (nI 1) i1 ky ∧ HoldsHalf (nI 2 / 2 + 1) i2 i.2.2
  · obtain ⟨i0, i1, i2, g0, g1, g2, g3⟩ := hh
    rw [hA i0 i1 i2 g0 g1 ⟨g2, g3⟩, r2c3_eq nI hI S a hsI X hX _ g0.1 g1.1 g2]
    refine sum_congr rfl fun k _ => ?_
    have e : (Holds (nI 0) i0 (k 0) ∧ Holds (nI 1) i1 (k 1) ∧ (i2 : ℤ) = k 2) ↔
        (Holds (nO 0) i.1 (k 0) ∧ Holds (nO 1) i.2.1 (k 1) ∧ (i.2.2 : ℤ) = k 2) := by
      rw [g3]
      refine and_congr ⟨fun h => ?_, fun h => ?_⟩ (and_congr_left fun _ => ⟨fun h => ?_, fun h => ?_⟩)
      · rw [holds_k_unique h g0]; exact hkz
      · rw [holds_k_unique h hkz]; exact g0
      · rw [holds_k_unique h g1]; exact hky
      · rw [holds_k_unique h hky]; exact g1
    simp only [e]
  · rw [hB hh]
    symm
    refine sum_eq_zero fun k hk => if_neg ?_
    rintro ⟨h, h', h''⟩
    obtain ⟨i0, hi0⟩ := holds_of_small (hsI k hk 0)
    obtain ⟨i1, hi1⟩ := holds_of_small (hsI k hk 1)
    rw [holds_k_unique h hkz] at hi0
    rw [holds_k_unique h' hky] at hi1
    have h3 := hsI k hk 2
    rw [← h'', abs_of_nonneg (by positivity)] at h3
    exact hh ⟨i0, i1, i.2.2, hi0, hi1, by omega, rfl⟩

open Classical in
theorem c2r2_eq (n : Fin 2 → ℕ) (hn : ∀ d, 0 < n d) (S : Finset (Fin 2 → ℤ)) (a : (Fin 2 → ℤ) → ℂ) (hr : IsReal S a)
    (hs : Resolved n S) (o : ℕ × ℕ → ℂ)
    (ho : ∀ i : ℕ × ℕ, i.1 < n 0 → i.2 < n 1 / 2 + 1 →
      o i = ∑ k ∈ S, if Holds (n 0) i.1 (k 0) ∧ (i.2 : ℤ) = k 1 then a k else 0) :
    Contains n S a (c2r2 n o) := by
  intro j
  refine backward n 1 S a hr hs _ (fun i => i.2) (fun i k => Holds (n 0) i.1 (k 0) ∧ (i.2 : ℤ) = k 1) _ o j ?_ ?_ ?_
  · rintro i hi k hk ⟨h, h'⟩
    simp only [mem_product, mem_range] at hi
    refine ⟨h', chi_periodic n hn _ _ ?_ j⟩
    rw [Fin.forall_fin_two]
    constructor
    · have := (holds_dvd hi.1 (hs k hk 0)).1 h
      simpa using (dvd_neg.2 this)
    · simp [h']
  · intro k hk h0
    obtain ⟨i0, hi0⟩ := holds_of_small (hs k hk 0)
    have h3 := hs k hk 1
    rw [abs_of_nonneg h0] at h3
    refine ⟨(i0, (k 1).toNat), ?_, ⟨hi0, Int.toNat_of_nonneg h0⟩, ?_⟩
    · simp only [mem_product, mem_range]; exact ⟨hi0.1, by omega⟩
    · rintro ⟨i', m'⟩ - ⟨h, h'⟩
      ext
      · exact holds_unique h hi0
      · simp only at h' ⊢; omega
  · intro i hi
    simp only [mem_product, mem_range] at hi
    exact ho i hi.1 hi.2

open Classical in
theorem c2r3_eq (n : Fin 3 → ℕ) (hn : ∀ d, 0 < n d) (S : Finset (Fin 3 → ℤ)) (a : (Fin 3 → ℤ) → ℂ) (hr : IsReal S a)
    (hs : Resolved n S) (o : ℕ × ℕ × ℕ → ℂ)
    (ho : ∀ i : ℕ × ℕ × ℕ, i.1 < n 0 → i.2.1 < n 1 → i.2.2 < n 2 / 2 + 1 →
      o i = ∑ k ∈ S, if Holds (n 0) i.1 (k 0) ∧ Holds (n 1) i.2.1 (k 1) ∧ (i.2.2 : ℤ) = k 2 then a k else 0) :
    Contains n S a (c2r3 n o) := by
  intro j
  refine backward n 2 S a hr hs _ (fun i => i.2.2)
    (fun i k => Holds (n 0) i.1 (k 0) ∧ Holds (n 1) i.2.1 (k 1) ∧ (i.2.2 : ℤ) = k 2) _ o j ?_ ?_ ?_
  · rintro i hi k hk ⟨h, h', h''⟩
    simp only [mem_product, mem_range] at hi
    refine ⟨h'', chi_periodic n hn _ _ ?_ j⟩
    rw [Fin.forall_fin_succ, Fin.forall_fin_two]
    refine ⟨?_, ?_, ?_⟩
    · have := (holds_dvd hi.1 (hs k hk 0)).1 h
      simpa using (dvd_neg.2 this)
    · have := (holds_dvd hi.2.1 (hs k hk 1)).1 h'
      simpa using (dvd_neg.2 this)
    · simp [h'']
  · intro k hk h0
    obtain ⟨i0, hi0⟩ := holds_of_small (hs k hk 0)
    obtain ⟨i1, hi1⟩ := holds_of_small (hs k hk 1)
    have h3 := hs k hk 2
    rw [abs_of_nonneg h0] at h3
    refine ⟨(i0, i1, (k 2).toNat), ?_, ⟨hi0, hi1, Int.toNat_of_nonneg h0⟩, ?_⟩
    · simp only [mem_product, mem_range]; exact ⟨hi0.1, hi1.1, by omega⟩
    · rintro ⟨i', i'', m'⟩ - ⟨h, h', h''⟩
      ext
      · exact holds_unique h hi0
      · exact holds_unique h' hi1
      · simp only at h'' ⊢; omega
  · intro i hi
    simp only [mem_product, mem_range] at hi
    exact ho i hi.1 hi.2.1 hi.2.2

/-- the assignments do not depend on the previous values at the assigned positions -/
theorem assign_congr {I J I' J' A : Type*} [DecidableEq J] (nd : I → Option J) (ns : I' → Option J') (inp : J' → A)
    (ws : List (I × I')) (out out' : J → A) (h : ∀ j, (∀ w ∈ ws, nd w.1 ≠ some j) → out j = out' j) :
    assign nd ns inp ws out = assign nd ns inp ws out' := by
  induction ws generalizing out out' with
  | nil => rw [assign, assign]; congr 1; exact funext fun j => h j (by simp)
  | cons w ws ih =>
    obtain ⟨d, s⟩ := w
    simp only [assign]
    split
    · next d' s' hd hs =>
      refine ih _ _ fun j hj => ?_
      by_cases e : j = d'
      · subst e; simp
      · rw [Function.update_of_ne e, Function.update_of_ne e]
        refine h j fun w hw => ?_
        rcases List.mem_cons.1 hw with rfl | hw
        · rw [hd]; simpa using fun he => e he.symm
        · exact hj w hw
    · rfl

/-- the assignments do not modify the other positions -/
theorem assign_other {I J I' J' A : Type*} [DecidableEq J] (nd : I → Option J) (ns : I' → Option J') (inp : J' → A)
    (ws : List (I × I')) (out o : J → A) (h : assign nd ns inp ws out = .ok o) (j : J)
    (hj : ∀ w ∈ ws, nd w.1 ≠ some j) : o j = out j := by
  induction ws generalizing out with
  | nil => rw [assign] at h; cases h; rfl
  | cons w ws ih =>
    obtain ⟨d, s⟩ := w
    simp only [assign] at h
    split at h
    · next d' s' hd hs =>
      rw [ih _ h fun w hw => hj w (List.mem_cons_of_mem _ hw), Function.update_of_ne]
      rintro rfl
      exact hj (d, s) (by simp) hd
    · cases h

end

end Verif.ModifResol
