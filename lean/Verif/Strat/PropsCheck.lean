import Verif.Strat.Props
import Verif.SpatialMeans.Lemmas

/-!
# C40: what `check_energy_conservation` decides, in terms of the energy
-/

set_option linter.unusedSectionVars false

namespace Verif.Strat

open Verif.Fourier Verif.Energy Verif.SpectBudget Verif.SpatialMeans Finset

noncomputable section

/-- The total (kinetic and potential) energy of a state of ns2d.strat: the mean of `|u|²/2 + (b/N)²/2`. -/
def totalEnergy (S : Finset (Fin 2 → ℤ)) (δ : Fin 2 → ℝ) (N : ℝ) (rot b : Fld (Fin 2)) : ℝ :=
  ∑ k ∈ S, ((‖ux2 δ rot k‖ ^ 2 + ‖uy2 δ rot k‖ ^ 2) / 2 + (‖b k‖ / N) ^ 2 / 2)

/-- C40: the quantity which is summed by `check_energy_conservation` is half the rate of change of the total
energy, for every history of the state whose tendencies are the ones given to the method. -/
theorem C40_check_rate {S : Finset (Fin 2 → ℤ)} {δ : Fin 2 → ℝ} (hδ : ∀ d, δ d ≠ 0) (N : ℝ)
    {rot b : ℝ → Fld (Fin 2)} {frot fb : Fld (Fin 2)} {t : ℝ}
    (hrot : ∀ k ∈ S, HasDerivAt (fun s => rot s k) (frot k) t)
    (hb : ∀ k ∈ S, HasDerivAt (fun s => b s k) (fb k) t) :
    HasDerivAt (fun s => totalEnergy S δ N (rot s) (b s))
      (2 * ∑ k ∈ S, ptEnergy δ N (rot t) (b t) frot fb k) t := by
  have hev : Evolves S rot frot (fun _ => 0) t := fun k hk => by simpa using hrot k hk
  obtain ⟨hx, hy⟩ := vel_evolves δ hev
  have hd : HasDerivAt (fun s => totalEnergy S δ N (rot s) (b s))
      (∑ k ∈ S, (((starRingEnd ℂ) (ux2 δ (rot t) k) * ux2 δ frot k).re
        + ((starRingEnd ℂ) (uy2 δ (rot t) k) * uy2 δ frot k).re
        + 1 / N ^ 2 * ((starRingEnd ℂ) (b t k) * fb k).re)) t := by
    unfold totalEnergy
    refine HasDerivAt.fun_sum fun k hk => ?_
    have h1 := half_deriv (hx k hk)
    have h2 := half_deriv (hy k hk)
    have h3 := (half_deriv (hb k hk)).const_mul (1 / N ^ 2)
    have := (h1.add h2).add h3
    simp only [Complex.ofReal_zero, zero_mul, sub_zero] at this
    refine this.congr_of_eventuallyEq (Filter.Eventually.of_forall fun s => ?_)
    simp only [half, Pi.add_apply]
    ring
  refine hd.congr_deriv ?_
  have hw := vel_work (S := S) hδ (rot t) frot
  have hsplit : ∑ k ∈ S, (((starRingEnd ℂ) (ux2 δ (rot t) k) * ux2 δ frot k).re
        + ((starRingEnd ℂ) (uy2 δ (rot t) k) * uy2 δ frot k).re
        + 1 / N ^ 2 * ((starRingEnd ℂ) (b t k) * fb k).re)
      = rateEnergy2 S δ (rot t) frot + ∑ k ∈ S, 1 / N ^ 2 * ((starRingEnd ℂ) (b t k) * fb k).re := by
    rw [sum_add_distrib, ← hw]
    rfl
  rw [hsplit, rateEnergy2, sum_filter, mul_sum, ← sum_add_distrib]
  refine sum_congr rfl fun k _ => ?_
  simp only [ptEnergy]
  by_cases h0 : k = 0
  · subst h0
    simp only [ne_eq, not_true, if_false, if_true]
    ring
  · rw [if_pos h0, if_neg h0, Forcing.k2not0, if_neg (k2_ne hδ h0), mul_comm (frot k)]
    ring

/-- C40: `check_energy_conservation` accepts every state and tendencies for which the total energy does not change
(and some energy is exchanged between the modes), and refuses those for which it increases by more than the
tolerance. Missing: see `C40_check_violated`. -/
theorem C40_check_energy_partial {S : Finset (Fin 2 → ℤ)} {δ : Fin 2 → ℝ} (hδ : ∀ d, δ d ≠ 0) {N : ℝ}
    {rot b : ℝ → Fld (Fin 2)} {frot fb : Fld (Fin 2)} {t rate : ℝ}
    (hrot : ∀ k ∈ S, HasDerivAt (fun s => rot s k) (frot k) t)
    (hb : ∀ k ∈ S, HasDerivAt (fun s => b s k) (fb k) t)
    (hrate : HasDerivAt (fun s => totalEnergy S δ N (rot s) (b s)) rate t)
    (hden : ∃ k ∈ S, ptEnergy δ N (rot t) (b t) frot fb k ≠ 0) :
    (rate = 0 → checkEnergy S δ N (rot t) (b t) frot fb = true) ∧
    ((2e-14 : ℝ) * ∑ k ∈ S, |ptEnergy δ N (rot t) (b t) frot fb k| ≤ rate →
      checkEnergy S δ N (rot t) (b t) frot fb = false) := by
  have e := hrate.unique (C40_check_rate hδ N hrot hb)
  obtain ⟨h1, h2⟩ := C40_check_partial δ (rot t) (b t) frot fb hden
  constructor
  · intro h0; apply h1; linarith
  · intro h; apply h2
    have : (2e-14 : ℝ) = 2 * 1e-14 := by norm_num
    rw [this] at h
    linarith

/-- A buoyancy mode which gives its energy to the vorticity: hypotheses of `C40_check_energy_partial` hold. -/
example : ∃ (rot b : ℝ → Fld (Fin 2)) (frot fb : Fld (Fin 2)),
    (∀ k ∈ ({![1, 0]} : Finset (Fin 2 → ℤ)), HasDerivAt (fun s => rot s k) (frot k) 0) ∧
    (∀ k ∈ ({![1, 0]} : Finset (Fin 2 → ℤ)), HasDerivAt (fun s => b s k) (fb k) 0) ∧
    (∃ k ∈ ({![1, 0]} : Finset (Fin 2 → ℤ)), ptEnergy (fun _ => 1) 1 (rot 0) (b 0) frot fb k ≠ 0) := by
  refine ⟨fun s _ => s, fun s _ => 1 + s, fun _ => 1, fun _ => 1, fun k _ => ?_, fun k _ => ?_,
    ⟨![1, 0], by simp, ?_⟩⟩
  · exact Complex.ofRealCLM.hasDerivAt
  · exact (Complex.ofRealCLM.hasDerivAt (x := (0 : ℝ))).const_add 1
  · simp [ptEnergy]

end

end Verif.Strat
