import Verif.SpectBudget.ModelEps
import Verif.SpectBudget.Props
import Mathlib.Analysis.Calculus.FDeriv.Linear
import Mathlib.Analysis.Calculus.Deriv.Pow
import Mathlib.Analysis.Calculus.Deriv.Comp
import Mathlib.Algebra.BigOperators.Field

/-! # C58: the dissipation rates saved with the budget of ns2d.strat -/

namespace Verif.SpectBudget

open Verif.Fourier Verif.Energy Verif.Vectors Verif.Galerkin Finset

noncomputable section

/-- The dissipation rate of the kinetic and potential energies: each mode of the velocity and of the buoyancy is damped with the frequency
`σ`. -/
def dissipation (S : Finset (Fin 2 → ℤ)) (N : ℝ) (σ : (Fin 2 → ℤ) → ℝ) (ux uy b : Fld (Fin 2)) : ℝ :=
  ∑ k ∈ S, σ k * (‖ux k‖ ^ 2 + ‖uy k‖ ^ 2 + ‖b k‖ ^ 2 / N ^ 2)

/-- `dissipation` is the rate of decrease of the energy of a flow which is only damped. -/
theorem dissipation_rate (S : Finset (Fin 2 → ℤ)) (N : ℝ) (σ : (Fin 2 → ℤ) → ℝ) (ux uy b : ℝ → Fld (Fin 2)) (t : ℝ)
    (hx : Evolves S ux 0 σ t) (hy : Evolves S uy 0 σ t) (hb : Evolves S b 0 σ t) :
    HasDerivAt (fun s => ∑ k ∈ S, (half (ux s k) + half (uy s k) + half (b s k) / N ^ 2)) (-dissipation S N σ (ux t) (uy t) (b t)) t := by
  have key : ∀ (a : ℝ → Fld (Fin 2)), Evolves S a 0 σ t → ∀ k ∈ S, HasDerivAt (fun s => half (a s k)) (-(σ k * ‖a t k‖ ^ 2)) t := by
    intro a ha k hk
    have h := ha k hk
    have hre := (Complex.reCLM.hasFDerivAt.comp_hasDerivAt t h)
    have him := (Complex.imCLM.hasFDerivAt.comp_hasDerivAt t h)
    have e : (fun s => half (a s k)) = fun s => ((a s k).re ^ 2 + (a s k).im ^ 2) / 2 := by
      funext s
      simp only [half, ← Complex.normSq_eq_norm_sq, Complex.normSq_apply]
      ring
    rw [e, ← Complex.normSq_eq_norm_sq, Complex.normSq_apply]
    have := ((hre.pow 2).add (him.pow 2)).div_const 2
    refine this.congr_deriv ?_
    simp only [Pi.zero_apply, zero_sub, Function.comp, Complex.reCLM_apply, Complex.imCLM_apply, Complex.neg_re, Complex.neg_im, Complex.mul_re,
      Complex.mul_im, Complex.ofReal_re, Complex.ofReal_im]
    ring
  rw [dissipation, ← Finset.sum_neg_distrib]
  have := HasDerivAt.fun_sum fun k hk => ((key ux hx k hk).add (key uy hy k hk)).add ((key b hb k hk).div_const (N ^ 2))
  refine this.congr_deriv (Finset.sum_congr rfl fun k _ => ?_)
  ring

theorem spectrum_sum_eq {S : Finset (Fin 2 → ℤ)} {w : (Fin 2 → ℤ) → ℕ → ℝ} {nb : ℕ} (hw : Shared S w nb) (deltak : ℝ) (q : (Fin 2 → ℤ) → ℝ) :
    (spectrum S w deltak nb q).sum = (∑ k ∈ S, q k) / deltak := by
  have e : (spectrum S w deltak nb q).sum = ∑ i ∈ range nb, (∑ k ∈ S, w k i * q k) / deltak := by
    rw [spectrum, ← List.sum_toFinset _ (List.nodup_range), List.toFinset_range]
  rw [e, ← Finset.sum_div, Finset.sum_comm]
  congr 1
  exact Finset.sum_congr rfl fun k hk => by rw [← Finset.sum_mul, hw k hk, one_mul]

/-- C58 (ns2d.strat): the values "epsilon_kx" and "epsilon_ky" saved with the budget, multiplied by the widths `deltakx` and `deltaky` of the
bins, are the dissipation rate of the flow. Partial: the width is missing in the saved values (`C58_strat_epsilon_violated`). -/
theorem C58_strat_epsilon_partial {S : Finset (Fin 2 → ℤ)} {w : (Fin 2 → ℤ) → ℕ → ℝ} {nb : ℕ} (hw : Shared S w nb) {deltak : ℝ} (hd : 0 < deltak)
    (δ : Fin 2 → ℝ) {N : ℝ} (hN : N ≠ 0) (fd fdHypo : (Fin 2 → ℤ) → ℝ) (rot b : Fld (Fin 2)) :
    epsilon1d S w deltak nb δ N fd fdHypo rot b * deltak
      = dissipation S N (fun k => fd k + fdHypo k) (ux2 δ rot) (uy2 δ rot) b := by
  simp only [epsilon1d, spectrum_sum_eq hw, dissipation]
  rw [← add_div, ← add_div, div_mul_cancel₀ _ hd.ne', ← Finset.sum_add_distrib, ← Finset.sum_add_distrib]
  refine Finset.sum_congr rfl fun k _ => ?_
  have e : ∀ (s : ℝ) (z : ℂ), ((s : ℂ) * ((starRingEnd ℂ) z * z)).re = s * ‖z‖ ^ 2 := by
    intro s z
    rw [← Complex.normSq_eq_norm_sq, Complex.normSq_apply]
    simp only [Complex.mul_re, Complex.mul_im, Complex.conj_re, Complex.conj_im, Complex.ofReal_re, Complex.ofReal_im]
    ring
  simp only [dissEKu, dissEKv, dissEA, if_neg hN, e]
  ring

/-- C58, finding (ns2d.strat): the two saved values of the dissipation rate of the same flow, "epsilon_kx" and "epsilon_ky", are in the ratio
`deltaky / deltakx = Lx / Ly`: they differ as soon as the domain is not a square, and are not the dissipation rate if the length is not
`2 pi`. -/
theorem C58_strat_epsilon_violated {S : Finset (Fin 2 → ℤ)} {wx wy : (Fin 2 → ℤ) → ℕ → ℝ} {nx ny : ℕ} (hx : Shared S wx nx) (hy : Shared S wy ny)
    {δ : Fin 2 → ℝ} (h0 : 0 < δ 0) (h1 : 0 < δ 1) {N : ℝ} (hN : N ≠ 0) (fd fdHypo : (Fin 2 → ℤ) → ℝ) (rot b : Fld (Fin 2))
    (hD : dissipation S N (fun k => fd k + fdHypo k) (ux2 δ rot) (uy2 δ rot) b ≠ 0) :
    (δ 0 ≠ δ 1 → epsilon1d S wx (δ 0) nx δ N fd fdHypo rot b ≠ epsilon1d S wy (δ 1) ny δ N fd fdHypo rot b) ∧
    (δ 0 ≠ 1 → epsilon1d S wx (δ 0) nx δ N fd fdHypo rot b ≠ dissipation S N (fun k => fd k + fdHypo k) (ux2 δ rot) (uy2 δ rot) b) := by
  have ex := C58_strat_epsilon_partial hx h0 δ hN fd fdHypo rot b
  have ey := C58_strat_epsilon_partial hy h1 δ hN fd fdHypo rot b
  refine ⟨fun hne e => ?_, fun hne e => ?_⟩
  · rw [← e] at ey
    have hz : epsilon1d S wx (δ 0) nx δ N fd fdHypo rot b ≠ 0 := fun z => hD (by rw [← ex, z, zero_mul])
    exact hne (mul_left_cancel₀ hz (ex.trans ey.symm))
  · rw [e] at ex
    exact hne (mul_left_cancel₀ hD (by rw [ex, mul_one]))

/-- One mode of buoyancy, damped, in a domain twice longer than high: the hypotheses hold. -/
example : Shared {![1, 1]} (fun k i => if (i : ℤ) = k 0 then 1 else 0) 2 ∧
    dissipation {![1, 1]} 1 (fun _ => 1 + 0) (ux2 ![1, 2] 0) (uy2 ![1, 2] 0) (fun _ => 1) ≠ 0 := by
  constructor
  · intro k hk
    rw [Finset.mem_singleton] at hk
    subst hk
    simp [Finset.sum_range_succ]
  · simp only [dissipation, Finset.sum_singleton]
    have := sq_nonneg ‖ux2 ![1, 2] 0 ![1, 1]‖
    have := sq_nonneg ‖uy2 ![1, 2] 0 ![1, 1]‖
    norm_num
    positivity

end

end Verif.SpectBudget
