import Verif.InitFields.Model
import Verif.Energy.Lemmas
import Mathlib.Analysis.SpecialFunctions.Trigonometric.Basic

/-! # Lemmas for the initial fields (C64) -/

namespace Verif.InitFields

open Verif.Fourier Verif.Energy Verif.Vectors Verif.Forcing Finset

set_option linter.unusedSectionVars false

noncomputable section

/-! ### Filter -/

theorem tanh_half (u : ℝ) : (1 + Real.tanh u) / 2 = 1 / (1 + Real.exp (-(2 * u))) := by
  have h1 := Real.exp_pos u
  have h2 := Real.exp_pos (-u)
  have e : Real.exp (-(2 * u)) = Real.exp (-u) / Real.exp u := by
    rw [← Real.exp_sub]; congr 1; ring
  rw [Real.tanh_eq_sinh_div_cosh, Real.sinh_eq, Real.cosh_eq, e]
  have h3 : Real.exp u + Real.exp (-u) ≠ 0 := by positivity
  field_simp
  ring

theorem filter_eq {lambda0 : ℝ} (h : 0 < lambda0) (K : ℝ) :
    filter lambda0 K = 1 / (1 + Real.exp (4 * Real.pi * (K * lambda0 / (2 * Real.pi) - 1))) := by
  have hp := Real.pi_pos
  rw [filter, hSmooth, tanh_half]
  congr 3
  field_simp
  ring

theorem filter_pos {lambda0 : ℝ} (h : 0 < lambda0) (K : ℝ) : 0 < filter lambda0 K := by
  rw [filter_eq h]
  have := Real.exp_pos (4 * Real.pi * (K * lambda0 / (2 * Real.pi) - 1))
  positivity

/-! ### The complex to real transform -/

/-- The coefficients of the real field given by the half spectrum `f`. -/
def herm (f : Fld (Fin 2)) : Fld (Fin 2) := fun k =>
  if 0 < k 0 then f k else if k 0 < 0 then (starRingEnd ℂ) (f (-k)) else (f k + (starRingEnd ℂ) (f (-k))) / 2

theorem sum_neg {S : Finset (Fin 2 → ℤ)} (hS : ∀ k ∈ S, -k ∈ S) (g : (Fin 2 → ℤ) → ℂ) :
    ∑ k ∈ S, g k = ∑ k ∈ S, g (-k) := by
  refine Finset.sum_bij' (fun k _ => -k) (fun k _ => -k) hS hS ?_ ?_ ?_
  · intro k _; exact neg_neg k
  · intro k _; exact neg_neg k
  · intro k _; rw [neg_neg]

theorem ifftHalf_eq {n : Fin 2 → ℕ} {S : Finset (Fin 2 → ℤ)} (hS : ∀ k ∈ S, -k ∈ S) (f : Fld (Fin 2)) (j : Pt n) :
    ((ifftHalf n S f j : ℝ) : ℂ) = gridVal n S (herm f) j := by
  rw [ifftHalf, Complex.re_eq_add_conj, sum_filter, map_sum]
  rw [sum_neg hS (fun k => (starRingEnd ℂ) _), ← sum_add_distrib, sum_div, gridVal]
  refine sum_congr rfl fun k _ => ?_
  have hn : (-k) 0 = -(k 0) := rfl
  rw [hn]
  have hc : (starRingEnd ℂ) (chi n (-k) j) = chi n k j := by rw [conj_chi, neg_neg]
  rcases lt_trichotomy (k 0) 0 with h | h | h
  · rw [if_neg (by omega), if_pos (by omega), if_neg (by omega), map_mul, map_mul, hc, herm,
      if_neg (by omega), if_pos h]
    have : (starRingEnd ℂ) (2 : ℂ) = 2 := map_ofNat _ 2
    rw [this]; ring
  · rw [if_pos (by omega), if_pos h, if_pos (by omega), if_pos (by omega), map_mul, map_mul, hc, herm,
      if_neg (by omega), if_neg (by omega), map_one]
    ring
  · rw [if_pos (by omega), if_neg (by omega), if_neg (by omega), herm, if_pos h, map_zero]
    ring

theorem herm_lin {f g : Fld (Fin 2)} {δ : Fin 2 → ℝ}
    (h : ∀ k : Fin 2 → ℤ, ((δ 0 * k 0 : ℝ) : ℂ) * f k + ((δ 1 * k 1 : ℝ) : ℂ) * g k = 0) (k : Fin 2 → ℤ) :
    ((δ 0 * k 0 : ℝ) : ℂ) * herm f k + ((δ 1 * k 1 : ℝ) : ℂ) * herm g k = 0 := by
  have h1 := h k
  have h2 := congrArg (starRingEnd ℂ) (h (-k))
  simp only [map_add, map_mul, Complex.conj_ofReal, map_zero] at h2
  have e0 : (-k) 0 = -(k 0) := rfl
  have e1 : (-k) 1 = -(k 1) := rfl
  rw [e0, e1] at h2
  simp only [herm]
  split
  · exact h1
  · split
    · push_cast at h2 ⊢
      linear_combination -h2
    · push_cast at h1 h2 ⊢
      linear_combination h1 / 2 - h2 / 2

theorem herm_zero {f : Fld (Fin 2)} (h : f 0 = 0) : herm f 0 = 0 := by simp [herm, h]

/-! ### The projection -/

theorem projPerp_div {kx ky : ℝ} (h : kx ^ 2 + ky ^ 2 ≠ 0) (u : ℂ × ℂ) :
    (kx : ℂ) * (projPerp kx ky u).1 + (ky : ℂ) * (projPerp kx ky u).2 = 0 := by
  simp only [projPerp, k2not0, if_neg h]
  have hc : ((kx ^ 2 + ky ^ 2 : ℝ) : ℂ) ≠ 0 := by exact_mod_cast h
  push_cast at hc ⊢
  field_simp
  ring

theorem vec_of_rot {kx ky : ℝ} {a b : ℂ} (hdiv : (kx : ℂ) * a + (ky : ℂ) * b = 0)
    (h0 : kx ^ 2 + ky ^ 2 = 0 → a = 0 ∧ b = 0) :
    vecFromRot kx ky (rotFromVec kx ky a b) = (a, b) := by
  by_cases h : kx ^ 2 + ky ^ 2 = 0
  · obtain ⟨rfl, rfl⟩ := h0 h
    simp [vecFromRot, rotFromVec]
  · have hc : ((kx ^ 2 + ky ^ 2 : ℝ) : ℂ) ≠ 0 := by exact_mod_cast h
    simp only [vecFromRot, rotFromVec, k2not0, if_neg h]
    push_cast at hc ⊢
    have hI := Complex.I_sq
    refine Prod.ext ?_ ?_
    · field_simp
      linear_combination (ky * (kx * b - ky * a) : ℂ) * hI - (kx : ℂ) * hdiv
    · field_simp
      linear_combination (-kx * (kx * b - ky * a) : ℂ) * hI - (ky : ℂ) * hdiv

theorem projPerp_norm (kx ky : ℝ) (h : kx ^ 2 + ky ^ 2 ≠ 0) (u : ℂ × ℂ) :
    ‖(projPerp kx ky u).1‖ ^ 2 + ‖(projPerp kx ky u).2‖ ^ 2 ≤ ‖u.1‖ ^ 2 + ‖u.2‖ ^ 2 := by
  obtain ⟨⟨a, b⟩, ⟨c, d⟩⟩ := u
  have hK : 0 < kx ^ 2 + ky ^ 2 := lt_of_le_of_ne (by positivity) (Ne.symm h)
  simp only [projPerp, k2not0, if_neg h, Complex.sq_norm, Complex.normSq_apply]
  have e1 : ((kx : ℂ) * ⟨a, b⟩ + (ky : ℂ) * ⟨c, d⟩) / ((kx ^ 2 + ky ^ 2 : ℝ) : ℂ)
      = (⟨(kx * a + ky * c) / (kx ^ 2 + ky ^ 2), (kx * b + ky * d) / (kx ^ 2 + ky ^ 2)⟩ : ℂ) := by
    rw [div_eq_iff (by exact_mod_cast h)]
    apply Complex.ext
    · simp only [Complex.add_re, Complex.mul_re, Complex.ofReal_re, Complex.ofReal_im]
      field_simp
      ring
    · simp only [Complex.add_im, Complex.ofReal_re, Complex.ofReal_im, Complex.mul_im]
      field_simp
      ring
  rw [e1]
  simp only [Complex.sub_re, Complex.sub_im, Complex.mul_re, Complex.mul_im, Complex.ofReal_re, Complex.ofReal_im]
  set A := (kx * a + ky * c) / (kx ^ 2 + ky ^ 2) with hA
  set B := (kx * b + ky * d) / (kx ^ 2 + ky ^ 2) with hB
  have hA' : kx * a + ky * c = A * (kx ^ 2 + ky ^ 2) := by rw [hA]; field_simp
  have hB' : kx * b + ky * d = B * (kx ^ 2 + ky ^ 2) := by rw [hB]; field_simp
  have : 0 ≤ (kx ^ 2 + ky ^ 2) * (A ^ 2 + B ^ 2) := by positivity
  have e2 : (a - (kx * A - 0 * B)) * (a - (kx * A - 0 * B)) + (b - (kx * B + 0 * A)) * (b - (kx * B + 0 * A)) +
      ((c - (ky * A - 0 * B)) * (c - (ky * A - 0 * B)) + (d - (ky * B + 0 * A)) * (d - (ky * B + 0 * A)))
      = a * a + b * b + (c * c + d * d) - (kx ^ 2 + ky ^ 2) * (A ^ 2 + B ^ 2) := by
    linear_combination (-2 * A) * hA' + (-2 * B) * hB'
  rw [e2]
  linarith

theorem k2_zero {δ : Fin 2 → ℝ} (hδ : ∀ d, δ d ≠ 0) (k : Fin 2 → ℤ) :
    (δ 0 * k 0) ^ 2 + (δ 1 * k 1) ^ 2 = 0 ↔ k = 0 := by
  constructor
  · intro h
    have h0 : δ 0 * (k 0 : ℝ) = 0 := by nlinarith [sq_nonneg (δ 0 * (k 0 : ℝ)), sq_nonneg (δ 1 * (k 1 : ℝ))]
    have h1 : δ 1 * (k 1 : ℝ) = 0 := by nlinarith [sq_nonneg (δ 0 * (k 0 : ℝ)), sq_nonneg (δ 1 * (k 1 : ℝ))]
    funext d
    fin_cases d
    · simpa [hδ 0] using h0
    · simpa [hδ 1] using h1
  · rintro rfl; simp

theorem filtered2_div {δ : Fin 2 → ℝ} (hδ : ∀ d, δ d ≠ 0) (lambda0 : ℝ) (rx ry : Fld (Fin 2)) (k : Fin 2 → ℤ) :
    ((δ 0 * k 0 : ℝ) : ℂ) * (filtered2 δ lambda0 rx ry k).1 + ((δ 1 * k 1 : ℝ) : ℂ) * (filtered2 δ lambda0 rx ry k).2
      = 0 := by
  by_cases hk : k = 0
  · subst hk; simp
  · have hne : (δ 0 * (k 0 : ℝ)) ^ 2 + (δ 1 * (k 1 : ℝ)) ^ 2 ≠ 0 := fun h => hk ((k2_zero hδ k).mp h)
    have h := projPerp_div hne (if k = 0 then (0, 0) else (rx k, ry k))
    simp only [filtered2]
    linear_combination (filter lambda0 (knorm2 δ k) : ℂ) * h

theorem filtered2_zero (δ : Fin 2 → ℝ) (lambda0 : ℝ) (rx ry : Fld (Fin 2)) :
    filtered2 δ lambda0 rx ry 0 = (0, 0) := by
  simp [filtered2, projPerp]

/-! ### Maxima -/

theorem maxNorm2_smul {n : Fin 2 → ℕ} (c : ℝ) (hc : 0 ≤ c) (u : Pt n → ℝ × ℝ) :
    maxNorm2 (fun j => (c * (u j).1, c * (u j).2)) = c * maxNorm2 u := by
  rw [maxNorm2, maxNorm2, Real.mul_iSup_of_nonneg hc]
  congr 1
  funext j
  have : (c * (u j).1) ^ 2 + (c * (u j).2) ^ 2 = c ^ 2 * ((u j).1 ^ 2 + (u j).2 ^ 2) := by ring
  rw [this, Real.sqrt_mul (sq_nonneg c), Real.sqrt_sq hc]

theorem le_maxNorm2 {n : Fin 2 → ℕ} (u : Pt n → ℝ × ℝ) (j : Pt n) :
    √((u j).1 ^ 2 + (u j).2 ^ 2) ≤ maxNorm2 u :=
  le_ciSup (f := fun j => √((u j).1 ^ 2 + (u j).2 ^ 2)) (Set.finite_range _).bddAbove j

theorem maxNorm2_pos {n : Fin 2 → ℕ} {u : Pt n → ℝ × ℝ} {j : Pt n} (h : u j ≠ (0, 0)) : 0 < maxNorm2 u := by
  refine lt_of_lt_of_le (Real.sqrt_pos.mpr ?_) (le_maxNorm2 u j)
  by_contra hle
  refine h (Prod.ext ?_ ?_)
  · have : (u j).1 ^ 2 ≤ 0 := by nlinarith [sq_nonneg (u j).2]
    simpa using le_antisymm this (sq_nonneg _)
  · have : (u j).2 ^ 2 ≤ 0 := by nlinarith [sq_nonneg (u j).1]
    simpa using le_antisymm this (sq_nonneg _)

theorem exists_maxNorm2 {n : Fin 2 → ℕ} [Nonempty (Pt n)] (u : Pt n → ℝ × ℝ) :
    ∃ j, √((u j).1 ^ 2 + (u j).2 ^ 2) = maxNorm2 u :=
  exists_eq_ciSup_of_finite (f := fun j => √((u j).1 ^ 2 + (u j).2 ^ 2))

theorem maxNorm3_smul {n : Fin 3 → ℕ} (c : ℝ) (hc : 0 ≤ c) (u : Pt n → ℝ × ℝ × ℝ) :
    maxNorm3 (fun j => (c * (u j).1, c * (u j).2.1, c * (u j).2.2)) = c * maxNorm3 u := by
  rw [maxNorm3, maxNorm3, Real.mul_iSup_of_nonneg hc]
  congr 1
  funext j
  have : (c * (u j).1) ^ 2 + (c * (u j).2.1) ^ 2 + (c * (u j).2.2) ^ 2
      = c ^ 2 * ((u j).1 ^ 2 + (u j).2.1 ^ 2 + (u j).2.2 ^ 2) := by ring
  rw [this, Real.sqrt_mul (sq_nonneg c), Real.sqrt_sq hc]

theorem maxNorm3_pos {n : Fin 3 → ℕ} {u : Pt n → ℝ × ℝ × ℝ} {j : Pt n}
    (h : (u j).1 ^ 2 + (u j).2.1 ^ 2 + (u j).2.2 ^ 2 ≠ 0) : 0 < maxNorm3 u := by
  have h0 : 0 < (u j).1 ^ 2 + (u j).2.1 ^ 2 + (u j).2.2 ^ 2 := lt_of_le_of_ne (by positivity) (Ne.symm h)
  exact lt_of_lt_of_le (Real.sqrt_pos.mpr h0)
    (le_ciSup (f := fun j => √((u j).1 ^ 2 + (u j).2.1 ^ 2 + (u j).2.2 ^ 2)) (Set.finite_range _).bddAbove j)

/-! ### Noise of ns2d -/

section
variable {n : Fin 2 → ℕ} {S : Finset (Fin 2 → ℤ)} {δ : Fin 2 → ℝ}

/-- The transform of the normalised velocity on the grid. -/
theorem fft_scaled (hn : ∀ d, 0 < n d) (hD : Distinct n S) (hS : ∀ k ∈ S, -k ∈ S) (f : Fld (Fin 2)) (a b : ℝ)
    {k : Fin 2 → ℤ} (hk : k ∈ S) :
    fftCoef n (fun j => ((a * ifftHalf n S f j / b : ℝ) : ℂ)) k = ((a / b : ℝ) : ℂ) * herm f k := by
  have e : (fun j => ((a * ifftHalf n S f j / b : ℝ) : ℂ))
      = gridVal n S (fun k => ((a / b : ℝ) : ℂ) * herm f k) := by
    funext j
    have : (a * ifftHalf n S f j / b : ℝ) = (a / b) * ifftHalf n S f j := by ring
    rw [this, Complex.ofReal_mul, ifftHalf_eq hS]
    simp only [gridVal, mul_sum, mul_assoc]
  rw [e, fft_grid hn hD _ hk]

theorem noise_vel (hn : ∀ d, 0 < n d) (hδ : ∀ d, δ d ≠ 0) (hD : Distinct n S) (hS : ∀ k ∈ S, -k ∈ S)
    (lambda0 veloMax : ℝ) (rx ry : Fld (Fin 2)) {k : Fin 2 → ℤ} (hk : k ∈ S) :
    let c := veloMax / maxNorm2 (drawn2 n S δ lambda0 rx ry)
    ux2 δ (noiseRot n S δ lambda0 veloMax rx ry) k
      = (c : ℂ) * herm (fun k => (filtered2 δ lambda0 rx ry k).1) k ∧
    uy2 δ (noiseRot n S δ lambda0 veloMax rx ry) k
      = (c : ℂ) * herm (fun k => (filtered2 δ lambda0 rx ry k).2) k := by
  intro c
  have hd := herm_lin (filtered2_div hδ lambda0 rx ry) k
  have hz : (δ 0 * (k 0 : ℝ)) ^ 2 + (δ 1 * (k 1 : ℝ)) ^ 2 = 0 →
      (c : ℂ) * herm (fun k => (filtered2 δ lambda0 rx ry k).1) k = 0 ∧
      (c : ℂ) * herm (fun k => (filtered2 δ lambda0 rx ry k).2) k = 0 := by
    intro h
    obtain rfl := (k2_zero hδ k).mp h
    rw [herm_zero (by rw [filtered2_zero]), herm_zero (by rw [filtered2_zero])]
    simp
  have hrot : noiseRot n S δ lambda0 veloMax rx ry k = rotFromVec (δ 0 * k 0) (δ 1 * k 1)
      ((c : ℂ) * herm (fun k => (filtered2 δ lambda0 rx ry k).1) k)
      ((c : ℂ) * herm (fun k => (filtered2 δ lambda0 rx ry k).2) k) := by
    rw [← fft_scaled hn hD hS _ _ _ hk, ← fft_scaled hn hD hS _ _ _ hk]
    rfl
  have hv := vec_of_rot (kx := δ 0 * k 0) (ky := δ 1 * k 1)
    (a := (c : ℂ) * herm (fun k => (filtered2 δ lambda0 rx ry k).1) k)
    (b := (c : ℂ) * herm (fun k => (filtered2 δ lambda0 rx ry k).2) k)
    (by linear_combination (c : ℂ) * hd) hz
  rw [← hrot] at hv
  exact ⟨congrArg Prod.fst hv, congrArg Prod.snd hv⟩

theorem noise_grid (hn : ∀ d, 0 < n d) (hδ : ∀ d, δ d ≠ 0) (hD : Distinct n S) (hS : ∀ k ∈ S, -k ∈ S)
    (lambda0 veloMax : ℝ) (rx ry : Fld (Fin 2)) :
    stateVel2 n S δ (noiseRot n S δ lambda0 veloMax rx ry) = fun j =>
      (veloMax / maxNorm2 (drawn2 n S δ lambda0 rx ry) * (drawn2 n S δ lambda0 rx ry j).1,
       veloMax / maxNorm2 (drawn2 n S δ lambda0 rx ry) * (drawn2 n S δ lambda0 rx ry j).2) := by
  set c := veloMax / maxNorm2 (drawn2 n S δ lambda0 rx ry) with hc
  have key : ∀ (g f : Fld (Fin 2)), (∀ k ∈ S, g k = (c : ℂ) * herm f k) → ∀ j,
      (gridVal n S g j).re = c * ifftHalf n S f j := by
    intro g f h j
    have e : gridVal n S g j = ((c * ifftHalf n S f j : ℝ) : ℂ) := by
      rw [Complex.ofReal_mul, ifftHalf_eq hS]
      simp only [gridVal, mul_sum]
      refine sum_congr rfl fun k hk => ?_
      rw [h k hk, mul_assoc]
    rw [e, Complex.ofReal_re]
  funext j
  refine Prod.ext ?_ ?_
  · exact key _ _ (fun k hk => (noise_vel hn hδ hD hS lambda0 veloMax rx ry hk).1) j
  · exact key _ _ (fun k hk => (noise_vel hn hδ hD hS lambda0 veloMax rx ry hk).2) j

end

/-! ### ns3d -/

section
variable {D : Type} [Fintype D] [DecidableEq D]

theorem fft_sub {n : D → ℕ} (hn : ∀ d, 0 < n d) {S G : Finset (D → ℤ)} (hG : Distinct n G) (hSG : S ⊆ G)
    (u : Fld D) {k : D → ℤ} (hk : k ∈ G) :
    fftCoef n (gridVal n S u) k = if k ∈ S then u k else 0 := by
  have e : gridVal n S u = gridVal n G (fun k => if k ∈ S then u k else 0) := by
    funext j
    simp only [gridVal, ite_mul, zero_mul]
    rw [← sum_filter, Finset.filter_mem_eq_inter, Finset.inter_eq_right.mpr hSG]
  rw [e, fft_grid hn hG _ hk]

theorem gridVal_sub {n : D → ℕ} {S G : Finset (D → ℤ)} (hSG : S ⊆ G) (u g : Fld D)
    (h : ∀ k ∈ G, g k = if k ∈ S then u k else 0) (j : Pt n) : gridVal n G g j = gridVal n S u j := by
  simp only [gridVal]
  rw [← Finset.sum_subset hSG]
  · exact sum_congr rfl fun k hk => by rw [h k (hSG hk), if_pos hk]
  · intro k hk hkS
    rw [h k hk, if_neg hkS, zero_mul]

theorem fft_real_conj (n : D → ℕ) (x : Pt n → ℝ) (k : D → ℤ) :
    fftCoef n (fun j => (x j : ℂ)) (-k) = (starRingEnd ℂ) (fftCoef n (fun j => (x j : ℂ)) k) := by
  simp only [fftCoef, map_div₀, map_sum, map_mul, map_prod, Complex.conj_ofReal, map_natCast, conj_chi]

end

end

end Verif.InitFields
