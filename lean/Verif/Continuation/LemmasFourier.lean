import Verif.Continuation.Lemmas
import Verif.Fourier.Lemmas

/-! Helper lemmas for C82: real fields on a periodic grid. -/

namespace Verif.Continuation

open Verif Schemes Finset

set_option linter.unusedSectionVars false

/-- A set of arrays closed under the operations of the schemes. -/
theorem timeStepRK_closed {ι : Type*} (G : Arr ι → Prop) (hadd : ∀ a b, G a → G b → G (a + b))
    (hsmul : ∀ (c : ℂ) a, c.im = 0 → G a → G (c • a)) (hmul : ∀ a b, G a → G b → G (a * b))
    (hdiv : ∀ a b, G a → G b → G (a / b)) {sc : Scheme} (hsc : ¬ Random sc) (N : Bool → Arr ι → Arr ι)
    (hN : ∀ b u, G u → G (N b u)) (dt : ℝ) {d d2 ps : Arr ι} (hd : G d) (hd2 : G d2) (hps : G ps) (u : Arr ι)
    (hu : G u) : G (timeStepRK sc N dt d d2 ps 0 0 (fun _ => u) .state) := by
  have i2 : ((dt : ℂ) / 2).im = 0 := by simp
  have i3 : ((dt : ℂ) / 3).im = 0 := by simp
  have i6 : ((dt : ℂ) / 6).im = 0 := by simp
  have ih : ((1 / 2 : ℂ)).im = 0 := by simp
  have i1 : (dt : ℂ).im = 0 := by simp
  cases sc <;>
    simp only [timeStepRK, euler, eulerPhaseshift, eulerPhaseshiftRandom, rk2, rk2Trapezoid,
      rk2Phaseshift, rk2PhaseshiftRandom, rk2PhaseshiftExact, rk4, tendencies, stepEuler,
      stepLikeRK2, meanWithPhaseshift, mulShift, divInplace, set_same, set_other, ne_eq, reduceCtorEq,
      not_false_eq_true]
  case Euler_phaseshift_random => exact absurd trivial hsc
  case RK2_phaseshift_random => exact absurd trivial hsc
  all_goals
    repeat' first
      | assumption
      | with_reducible apply hsmul
      | with_reducible apply hadd
      | with_reducible apply hmul
      | with_reducible apply hdiv
      | with_reducible apply hN

variable {D V : Type*} [Fintype D] [DecidableEq D]

theorem herm_add (a b : Arr (V × (D → ℤ))) (ha : Hermitian a) (hb : Hermitian b) : Hermitian (a + b) := by
  intro v k; simp [ha v k, hb v k]

theorem herm_smul (c : ℂ) (a : Arr (V × (D → ℤ))) (hc : c.im = 0) (ha : Hermitian a) : Hermitian (c • a) := by
  intro v k
  have : star c = c := Complex.conj_eq_iff_im.2 hc
  simp only [Pi.smul_apply, smul_eq_mul, ha v k, star_mul', this]

theorem herm_mul (a b : Arr (V × (D → ℤ))) (ha : Hermitian a) (hb : Hermitian b) : Hermitian (a * b) := by
  intro v k; simp [ha v k, hb v k]

theorem herm_div (a b : Arr (V × (D → ℤ))) (ha : Hermitian a) (hb : Hermitian b) : Hermitian (a / b) := by
  intro v k; simp [ha v k, hb v k]

theorem herm_zero : Hermitian (0 : Arr (V × (D → ℤ))) := by intro v k; simp

theorem herm_exp {f : Arr (V × (D → ℤ))} (hf : Hermitian f) (t : ℝ) : Hermitian (expLin f t) := by
  intro v k
  simp only [expLin, hf v k]
  rw [← starRingEnd_apply, ← starRingEnd_apply, ← Complex.exp_conj]
  simp

theorem star_chi (n : D → ℕ) (k : D → ℤ) (j : Fourier.Pt n) : star (Fourier.chi n k j) = Fourier.chi n (-k) j := by
  unfold Fourier.chi
  rw [← starRingEnd_apply, ← Complex.exp_conj]
  congr 1
  simp only [map_mul, map_sum, map_div₀, Complex.conj_I, Complex.conj_ofReal, map_intCast, map_natCast, map_ofNat,
    Finset.mul_sum, Pi.neg_apply, Int.cast_neg]
  exact Finset.sum_congr rfl fun d _ => by ring

/-- The coefficients of a real field. -/
theorem herm_modesOf (n : D → ℕ) (M : Finset (D → ℤ)) [DecidableEq (D → ℤ)] (hM : ∀ k ∈ M, -k ∈ M)
    (x : V → Fourier.Pt n → ℝ) : Hermitian (modesOf n M x) := by
  intro v k
  have hiff : -k ∈ M ↔ k ∈ M := ⟨fun h => by simpa using hM _ h, hM k⟩
  unfold modesOf
  simp only [hiff]
  split
  · simp only [Fourier.fftCoef, star_div₀, star_sum, star_mul', star_chi, neg_neg, star_prod]
    simp
  · simp

/-- The values of a field with conjugate coefficients are real. -/
theorem gridVal_real (n : D → ℕ) (M : Finset (D → ℤ)) (hM : ∀ k ∈ M, -k ∈ M) (u : (D → ℤ) → ℂ)
    (hu : ∀ k, u (-k) = star (u k)) (j : Fourier.Pt n) :
    ((Fourier.gridVal n M u j).re : ℂ) = Fourier.gridVal n M u j := by
  apply Complex.conj_eq_iff_re.1
  unfold Fourier.gridVal
  rw [map_sum]
  refine Finset.sum_nbij' (fun k => -k) (fun k => -k) (fun k hk => hM k hk) (fun k hk => hM k hk) (by simp) (by simp) ?_
  intro k hk
  rw [map_mul, starRingEnd_apply, starRingEnd_apply, star_chi, hu]

theorem fft_ifft (n : D → ℕ) (hn : ∀ d, 0 < n d) (M : Finset (D → ℤ))
    (hdist : ∀ p ∈ M, ∀ q ∈ M, (∀ d, (n d : ℤ) ∣ p d - q d) → p = q) (u : (D → ℤ) → ℂ) {k : D → ℤ} (hk : k ∈ M) :
    Fourier.fftCoef n (Fourier.gridVal n M u) k = u k := by
  unfold Fourier.fftCoef Fourier.gridVal
  simp only [Finset.sum_mul]
  rw [Finset.sum_comm]
  have : ∀ p ∈ M, ∑ j, u p * Fourier.chi n p j * Fourier.chi n (-k) j
      = if p = k then u k * ∏ d, (n d : ℂ) else 0 := by
    intro p hp
    simp only [mul_assoc, Fourier.chi_mul]
    rw [← Finset.mul_sum, Fourier.sum_chi n hn]
    by_cases h : p = k
    · subst h; simp
    · rw [if_neg h, if_neg, mul_zero]
      intro h'
      apply h
      apply hdist p hp k hk
      intro d
      simpa [sub_eq_add_neg] using h' d
  rw [Finset.sum_congr rfl this, Finset.sum_ite_eq' M k]
  simp only [hk, if_true]
  have : (∏ d, (n d : ℂ)) ≠ 0 := Finset.prod_ne_zero_iff.2 fun d _ => by exact_mod_cast (hn d).ne'
  field_simp

/-- The modes of the fields of a real state. -/
theorem modesOf_fieldsOf (n : D → ℕ) (hn : ∀ d, 0 < n d) (M : Finset (D → ℤ)) [DecidableEq (D → ℤ)]
    (hM : ∀ k ∈ M, -k ∈ M) (hdist : ∀ p ∈ M, ∀ q ∈ M, (∀ d, (n d : ℤ) ∣ p d - q d) → p = q)
    (u : Arr (V × (D → ℤ))) (hu : Hermitian u) (h0 : ∀ v, ∀ k ∉ M, u (v, k) = 0) :
    modesOf n M (fieldsOf n M u) = u := by
  funext ⟨v, k⟩
  unfold modesOf
  by_cases hk : k ∈ M
  · simp only [hk, if_true, fieldsOf]
    simp only [gridVal_real n M hM (fun k => u (v, k)) (fun k => hu v k)]
    exact fft_ifft n hn M hdist _ hk
  · simp only [hk, if_false]
    exact (h0 v k hk).symm

end Verif.Continuation
