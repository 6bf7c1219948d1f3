import Verif.Convergence.PropsOrder
import Verif.Convergence.SpecPerturbed

/-! # C83: the rounding errors of the steps are not amplified -/

namespace Verif.Convergence

open Verif Schemes Set

set_option linter.unusedSectionVars false

variable {ι : Type*} [Fintype ι] {N : Arr ι → Arr ι} {f : Arr ι} {mask : ι → Bool} {T : ℝ} {s : ℝ → Arr ι}

/-- The coefficients do not depend on the states. -/
theorem perturbed_coefs (sc : Scheme) (N : Arr ι → Arr ι) (f : Arr ι) (mask : ι → Bool) (ps pa pb : ℕ → Arr ι)
    (heap : Heap ι) (g1 g2 : Arr ι) (cfl : Bool) (u0 : Arr ι) (e : ℕ → Arr ι) (dt : ℕ → ℝ) (k : ℕ) :
    (simulationPerturbed sc N f mask ps pa pb heap g1 g2 cfl u0 e dt k).coefs =
      (simulation sc N f mask ps pa pb heap g1 g2 cfl u0 dt k).coefs := by
  induction k with
  | zero => rfl
  | succ k ih =>
    rw [simulationPerturbed, simulation]
    simp only [oneStep, ih]

theorem perturbed_succ (sc : Scheme) (N : Arr ι → Arr ι) (f : Arr ι) (mask : ι → Bool) (ps pa pb : ℕ → Arr ι)
    (heap : Heap ι) (g1 g2 : Arr ι) (cfl : Bool) (u0 : Arr ι) (e : ℕ → Arr ι) (dt : ℕ → ℝ) (hdt : ∀ k, 0 < dt k)
    (hcst : cfl = false → ∀ k, dt k = dt 0) (k : ℕ) :
    statesPerturbed sc N f mask ps pa pb heap g1 g2 cfl u0 e dt (k + 1) =
      (fun i => if mask i then 0 else
        timeStepRK sc (fun _ => N) (dt k : ℂ) (expLin f (dt k : ℂ)) (expLin f ((dt k / 2 : ℝ) : ℂ)) (ps k) (pa k) (pb k)
          (simulationPerturbed sc N f mask ps pa pb heap g1 g2 cfl u0 e dt k).heap .state i) + e (k + 1) := by
  have hc := simulation_coefs sc N f mask ps pa pb heap g1 g2 cfl u0 dt hdt hcst k
  rw [← perturbed_coefs sc N f mask ps pa pb heap g1 g2 cfl u0 e dt k] at hc
  rw [statesPerturbed, simulationPerturbed]
  simp only [oneStep, hc, dealias, set_same]

/-- The error after one step of a scheme from any state near the solution. -/
def StepBound (sc : Scheme) (p : ℕ) (N : Arr ι → Arr ι) (f : Arr ι) (T : ℝ) (s : ℝ → Arr ι) : Prop :=
  ∃ c K B : ℝ, 0 ≤ c ∧ 0 ≤ K ∧ 0 ≤ B ∧ ∀ (H : Heap ι) (t h : ℝ) (ps pa pb : Arr ι), 0 ≤ t → 0 < h → h ≤ 1 → h * B ≤ 1 → t + h ≤ T →
    ‖H .state - s t‖ ≤ 1 →
    ‖timeStepRK sc (fun _ => N) (h : ℂ) (expLin f (h : ℂ)) (expLin f ((h / 2 : ℝ) : ℂ)) ps pa pb H .state - s (t + h)‖ ≤
      (1 + c * h) * ‖H .state - s t‖ + K * h ^ (p + 1)

theorem stepBound_euler (hN : ContDiff ℝ 1 N) (hf : ∀ i, 0 ≤ (f i).re) (hs : Solution N f mask T s) : StepBound .Euler 1 N f T s := by
  obtain ⟨n1, n2, M0, M1, M2, L, R, B, D, -⟩ := data_of hs hf hN
  refine ⟨L, M1 / 2, B, D.Lpos, by linarith [D.M1pos], D.Bpos, fun H t h ps pa pb ht hh hh1 hB hk he => ?_⟩
  rw [form_euler]
  refine (step_euler D ht hh.le hk he).trans (le_of_eq ?_)
  ring

theorem stepBound_rk2 (hN : ContDiff ℝ 2 N) (hf : ∀ i, 0 ≤ (f i).re) (hs : Solution N f mask T s) : StepBound .RK2 2 N f T s := by
  obtain ⟨n1, n2, M0, M1, M2, L, R, B, D, D2⟩ := data_of hs hf (hN.of_le (by norm_num))
  have D2 := D2 hN
  have hL := D.Lpos
  have hM1 := D.M1pos
  have hM2 := D2.M2pos
  refine ⟨L + L ^ 2 / 2, L * M1 / 8 + M2 / 24, B, by positivity, by positivity, D.Bpos, fun H t h ps pa pb ht hh hh1 hB hk he => ?_⟩
  rw [form_rk2]
  exact step_midpoint D D2 ht hh.le hh1 hB hk he

theorem stepBound_trapezoid (hN : ContDiff ℝ 2 N) (hf : ∀ i, 0 ≤ (f i).re) (hs : Solution N f mask T s) :
    StepBound .RK2_trapezoid 2 N f T s := by
  obtain ⟨n1, n2, M0, M1, M2, L, R, B, D, D2⟩ := data_of hs hf (hN.of_le (by norm_num))
  have D2 := D2 hN
  have hL := D.Lpos
  have hM1 := D.M1pos
  have hM2 := D2.M2pos
  refine ⟨L + L ^ 2 / 2, L * M1 / 4 + M2 / 12, B, by positivity, by positivity, D.Bpos, fun H t h ps pa pb ht hh hh1 hB hk he => ?_⟩
  rw [form_trapezoid]
  exact step_trapezoid D D2 ht hh.le hh1 hB hk he

theorem stepBound_rk4 (hN : ContDiff ℝ 4 N) (hf : ∀ i, 0 ≤ (f i).re) (hs : Solution N f mask T s) : StepBound .RK4 4 N f T s := by
  obtain ⟨M, K, L, R, B, J⟩ := jet_of hs hf hN
  obtain ⟨C, hC, hloc⟩ := local_rk4 J
  have hL := J.Lpos
  refine ⟨L * (1 + L) ^ 3, C, B, by positivity, hC, J.Bpos, fun H t h ps pa pb ht hh hh1 hB hk he => ?_⟩
  rw [form_rk4]
  set a := H .state with ha
  have hsR := J.sR t ⟨ht, by linarith⟩
  have haR : ‖a‖ ≤ R - 1 := by
    have := norm_add_le (a - s t) (s t)
    rw [sub_add_cancel] at this
    linarith
  have h1 := stable_rk4 J haR (b := s t) (by linarith) hh.le hh1 hB
  have h2 := hloc t h ht hh hh1 hB hk
  change ‖out4 N f h a - s (t + h)‖ ≤ _
  have e : out4 N f h a - s (t + h) =
      (out4 N f h a - out4 N f h (s t)) + (out4 N f h (s t) - s (t + h)) := by abel
  rw [e]
  exact (norm_add_le _ _).trans (add_le_add h1 h2)

/-- From one step to the simulation. -/
theorem converge_perturbed {sc : Scheme} {p : ℕ} (hp : 1 ≤ p) (hb : StepBound sc p N f T s) (hs : Solution N f mask T s)
    (ps pa pb : ℕ → Arr ι) (heap : Heap ι) (g1 g2 : Arr ι) (cfl : Bool) :
    ConvergesPerturbed p T s cfl (statesPerturbed sc N f mask ps pa pb heap g1 g2 cfl (s 0)) := by
  obtain ⟨c, K, B, hc, hK, hB, hstep⟩ := hb
  -- the constants
  set X := Real.exp (c * |T|) with hX
  have hX1 : 1 ≤ X := Real.one_le_exp (by positivity)
  have hX0 : 0 < X := by linarith
  set Q := X * (1 + |T| * (K + 1)) with hQ
  have hQ1 : 1 ≤ Q := by
    have : 1 ≤ 1 + |T| * (K + 1) := by have : 0 ≤ |T| * (K + 1) := by positivity
                                       linarith
    nlinarith
  refine ⟨Q, 1 / (2 * Q + B), 1 / (2 * Q), by positivity, by positivity, ?_⟩
  intro h hmin ε0 ε e dt hh0 hmin0 hdt hcst he0 he hη k hk
  have hd0 : ∀ k, 0 < dt k := fun k => hmin0.trans_le (hdt k).1
  have hh : 0 < h := (hd0 0).trans_le (hdt 0).2
  have hel : ∀ k, 0 ≤ elapsed dt k := fun k => Finset.sum_nonneg fun j _ => (hd0 j).le
  have hT : 0 ≤ T := le_trans (hel k) hk
  have hε0 : 0 ≤ ε0 := (norm_nonneg _).trans he0
  have hε : 0 ≤ ε := (norm_nonneg _).trans (he 0)
  have hm : h * (2 * Q + B) ≤ 1 := by rwa [le_div_iff₀ (by positivity)] at hh0
  have hh1 : h ≤ 1 := by nlinarith
  have hhB : h * B ≤ 1 := by nlinarith
  have hhQ : h * (2 * Q) ≤ 1 := by nlinarith
  have hhp : h ^ p ≤ h := by
    calc h ^ p ≤ h ^ 1 := pow_le_pow_of_le_one hh.le hh1 hp
      _ = h := pow_one h
  set δ := ε / hmin with hδ
  have hδ0 : 0 ≤ δ := by positivity
  set W := ε0 + h ^ p + δ with hW
  have hW0 : 0 ≤ W := by positivity
  have hQW : Q * W ≤ 1 := by
    have h1 : (ε0 + δ) * (2 * Q) ≤ 1 := by rwa [le_div_iff₀ (by positivity)] at hη
    have h2 : h ^ p * (2 * Q) ≤ 1 := le_trans (mul_le_mul_of_nonneg_right hhp (by positivity)) hhQ
    nlinarith
  -- the bound with the elapsed time
  have bound : ∀ t, 0 ≤ t → t ≤ T → Real.exp (c * t) * (ε0 + t * (K * h ^ p + δ)) ≤ Q * W := by
    intro t h0 ht
    rw [abs_of_nonneg hT] at hX hQ
    have h1 : Real.exp (c * t) ≤ X := by rw [hX]; exact Real.exp_le_exp.2 (by nlinarith)
    have h2 : ε0 + t * (K * h ^ p + δ) ≤ (1 + T * (K + 1)) * W := by
      have a1 : t * (K * h ^ p + δ) ≤ T * (K * h ^ p + δ) := mul_le_mul_of_nonneg_right ht (by positivity)
      have a2 : K * h ^ p + δ ≤ (K + 1) * W := by
        have : 0 ≤ h ^ p := by positivity
        rw [hW]
        nlinarith [mul_nonneg hK hε0, mul_nonneg hK hδ0]
      have a3 : T * (K * h ^ p + δ) ≤ T * ((K + 1) * W) := mul_le_mul_of_nonneg_left a2 hT
      have a4 : ε0 ≤ W := by
        have : 0 ≤ h ^ p := by positivity
        rw [hW]; linarith
      nlinarith
    rw [hQ, mul_assoc]
    exact mul_le_mul h1 h2 (by positivity) hX0.le
  have main : ∀ k, elapsed dt k ≤ T → ‖statesPerturbed sc N f mask ps pa pb heap g1 g2 cfl (s 0) e dt k - s (elapsed dt k)‖ ≤
      Real.exp (c * elapsed dt k) * (ε0 + elapsed dt k * (K * h ^ p + δ)) := by
    intro k
    induction k with
    | zero =>
      intro _
      simp only [statesPerturbed, simulationPerturbed, set_same, elapsed, Finset.range_zero, Finset.sum_empty, add_sub_cancel_left, mul_zero,
        Real.exp_zero, zero_mul, add_zero, one_mul]
      exact he0
    | succ k ih =>
      intro hk
      have hsucc : elapsed dt (k + 1) = elapsed dt k + dt k := Finset.sum_range_succ _ _
      rw [hsucc] at hk ⊢
      have hdk := hd0 k
      have hk' : elapsed dt k ≤ T := by linarith
      have ih := ih hk'
      have h0 := hel k
      have hsmall := ih.trans ((bound _ h0 hk').trans hQW)
      have hone := hstep (simulationPerturbed sc N f mask ps pa pb heap g1 g2 cfl (s 0) e dt k).heap (elapsed dt k) (dt k) (ps k) (pa k) (pb k) h0 hdk
        ((hdt k).2.trans hh1) (le_trans (mul_le_mul_of_nonneg_right (hdt k).2 hB) hhB) hk hsmall
      rw [perturbed_succ _ _ _ _ _ _ _ _ _ _ _ _ _ _ hd0 hcst]
      have hdeal := dealias_le (mask := mask) (x := timeStepRK sc (fun _ => N) (dt k : ℂ) (expLin f (dt k : ℂ)) (expLin f ((dt k / 2 : ℝ) : ℂ))
        (ps k) (pa k) (pb k) (simulationPerturbed sc N f mask ps pa pb heap g1 g2 cfl (s 0) e dt k).heap .state)
        (fun i hi => hs.truncated (elapsed dt k + dt k) ⟨by linarith, hk⟩ i hi)
      rw [add_sub_right_comm]
      refine (norm_add_le _ _).trans ((add_le_add (hdeal.trans hone) (he k)).trans ?_)
      have e1 : 1 + c * dt k ≤ Real.exp (c * dt k) := by linarith [Real.add_one_le_exp (c * dt k)]
      have e2 : Real.exp (c * (elapsed dt k + dt k)) = Real.exp (c * dt k) * Real.exp (c * elapsed dt k) := by
        rw [← Real.exp_add]; congr 1; ring
      have e3 : 1 ≤ Real.exp (c * (elapsed dt k + dt k)) := Real.one_le_exp (by positivity)
      have e4 : K * dt k ^ (p + 1) + ε ≤ dt k * (K * h ^ p + δ) := by
        have a1 : dt k ^ p ≤ h ^ p := pow_le_pow_left₀ hdk.le (hdt k).2 p
        have a2 : ε ≤ dt k * δ := by
          rw [hδ]
          calc ε = hmin * (ε / hmin) := by field_simp
            _ ≤ dt k * (ε / hmin) := mul_le_mul_of_nonneg_right (hdt k).1 (by positivity)
        have a3 : K * dt k ^ (p + 1) ≤ dt k * (K * h ^ p) := by
          calc K * dt k ^ (p + 1) = dt k * K * dt k ^ p := by ring
            _ ≤ dt k * K * h ^ p := mul_le_mul_of_nonneg_left a1 (by positivity)
            _ = dt k * (K * h ^ p) := by ring
        linarith
      calc (1 + c * dt k) * ‖(simulationPerturbed sc N f mask ps pa pb heap g1 g2 cfl (s 0) e dt k).heap .state - s (elapsed dt k)‖
            + K * dt k ^ (p + 1) + ε
          ≤ Real.exp (c * dt k) * (Real.exp (c * elapsed dt k) * (ε0 + elapsed dt k * (K * h ^ p + δ)))
            + Real.exp (c * (elapsed dt k + dt k)) * (dt k * (K * h ^ p + δ)) := by
            rw [add_assoc]
            refine add_le_add (mul_le_mul e1 ih (norm_nonneg _) (Real.exp_pos _).le) (e4.trans ?_)
            exact le_mul_of_one_le_left (by positivity) e3
        _ = Real.exp (c * (elapsed dt k + dt k)) * (ε0 + (elapsed dt k + dt k) * (K * h ^ p + δ)) := by
            rw [e2]; ring
  exact (main k hk).trans (bound _ (hel k) hk)

/-- **C83.** The rounding errors of the steps and the error of the initial state are not amplified by the schemes: with an initial error `ε0`, errors `ε`
at each step and time steps between `hmin` and `h`, the computed states stay at a distance `C (ε0 + h ^ p + ε / hmin)` of the solution, with the order
`p` of the scheme. -/
theorem C83_rounding_errors (hf : ∀ i, 0 ≤ (f i).re) (hs : Solution N f mask T s) (ps pa pb : ℕ → Arr ι) (heap : Heap ι) (g1 g2 : Arr ι) (cfl : Bool) :
    (ContDiff ℝ 1 N → ConvergesPerturbed 1 T s cfl (statesPerturbed .Euler N f mask ps pa pb heap g1 g2 cfl (s 0))) ∧
    (ContDiff ℝ 2 N → ConvergesPerturbed 2 T s cfl (statesPerturbed .RK2 N f mask ps pa pb heap g1 g2 cfl (s 0))) ∧
    (ContDiff ℝ 2 N → ConvergesPerturbed 2 T s cfl (statesPerturbed .RK2_trapezoid N f mask ps pa pb heap g1 g2 cfl (s 0))) ∧
    (ContDiff ℝ 4 N → ConvergesPerturbed 4 T s cfl (statesPerturbed .RK4 N f mask ps pa pb heap g1 g2 cfl (s 0))) :=
  ⟨fun h => converge_perturbed (by norm_num) (stepBound_euler h hf hs) hs ..,
    fun h => converge_perturbed (by norm_num) (stepBound_rk2 h hf hs) hs ..,
    fun h => converge_perturbed (by norm_num) (stepBound_trapezoid h hf hs) hs ..,
    fun h => converge_perturbed (by norm_num) (stepBound_rk4 h hf hs) hs ..⟩

/-- A case: the logistic equation with a truncated mode. -/
example (ps pa pb : ℕ → Arr Bool) (heap : Heap Bool) (g1 g2 : Arr Bool) (cfl : Bool) :
    ConvergesPerturbed 4 2 logisticSolution cfl (statesPerturbed .RK4 logistic 1 (fun b => b) ps pa pb heap g1 g2 cfl (logisticSolution 0)) :=
  (C83_rounding_errors (by simp) logistic_solution ps pa pb heap g1 g2 cfl).2.2.2 (logistic_contDiff 4)

end Verif.Convergence
