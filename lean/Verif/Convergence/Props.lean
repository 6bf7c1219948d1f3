import Verif.Convergence.LemmasScheme

/-! # C83: the time schemes converge to the solution of the equations, with their orders -/

namespace Verif.Convergence

open Verif Schemes Set

set_option linter.unusedSectionVars false

variable {ι : Type*} [Fintype ι]

theorem states_zero (sc : Scheme) (N : Arr ι → Arr ι) (f : Arr ι) (mask : ι → Bool) (ps pa pb : ℕ → Arr ι)
    (heap : Heap ι) (g1 g2 : Arr ι) (cfl : Bool) (u0 : Arr ι) (dt : ℕ → ℝ) :
    states sc N f mask ps pa pb heap g1 g2 cfl u0 dt 0 = u0 := by
  simp [states, simulation]

variable {N : Arr ι → Arr ι} {f : Arr ι} {mask : ι → Bool} {T : ℝ} {s : ℝ → Arr ι}

/-- The error of one step of the simulation is bounded by the error of the scheme without the truncation. -/
theorem step_le {N : Arr ι → Arr ι} {Nt : Arr ι → Arr ι} (hs : Solution Nt f mask T s) {sc : Scheme}
    {ps pa pb : ℕ → Arr ι} {heap : Heap ι} {g1 g2 : Arr ι} {cfl : Bool} {dt : ℕ → ℝ} (hdt : ∀ k, 0 < dt k)
    (hcst : cfl = false → ∀ k, dt k = dt 0) {k : ℕ} {t h : ℝ} (hh : h = dt k) (ht0 : 0 ≤ t) (hh0 : 0 < h)
    (hT : t + h ≤ T) :
    ‖states sc N f mask ps pa pb heap g1 g2 cfl (s 0) dt (k + 1) - s (t + h)‖ ≤
      ‖timeStepRK sc (fun _ => N) (h : ℂ) (expLin f (h : ℂ)) (expLin f ((h / 2 : ℝ) : ℂ)) (ps k) (pa k) (pb k)
          (simulation sc N f mask ps pa pb heap g1 g2 cfl (s 0) dt k).heap .state - s (t + h)‖ := by
  rw [states, simulation_succ _ _ _ _ _ _ _ _ _ _ _ _ _ hdt hcst, hh]
  exact dealias_le (fun i hi => hs.truncated _ ⟨by linarith, by linarith⟩ i hi)

/-- **C83.** Euler: the computed states converge to the solution with the order 1. -/
theorem C83_euler (hN : ContDiff ℝ 1 N) (hf : ∀ i, 0 ≤ (f i).re) (hs : Solution N f mask T s)
    (ps pa pb : ℕ → Arr ι) (heap : Heap ι) (g1 g2 : Arr ι) (cfl : Bool) :
    ConvergesWithOrder 1 T s cfl (states .Euler N f mask ps pa pb heap g1 g2 cfl (s 0)) := by
  obtain ⟨n1, n2, M0, M1, M2, L, R, B, D, -⟩ := data_of hs hf hN
  refine converge (c := L) (K := M1 / 2) (B := B) 1 le_rfl D.Lpos (by linarith [D.M1pos]) D.Bpos
    (fun dt => states_zero ..) (fun dt hdt hcst k t h _ hh' ht hh hh1 hB hk he => (step_le hs hdt hcst hh' ht hh hk).trans ?_)
  rw [form_euler]
  refine (step_euler D ht hh.le hk he).trans (le_of_eq ?_)
  ring

/-- **C83.** RK2 (midpoint rule with an integrating factor): order 2. -/
theorem C83_rk2 (hN : ContDiff ℝ 2 N) (hf : ∀ i, 0 ≤ (f i).re) (hs : Solution N f mask T s)
    (ps pa pb : ℕ → Arr ι) (heap : Heap ι) (g1 g2 : Arr ι) (cfl : Bool) :
    ConvergesWithOrder 2 T s cfl (states .RK2 N f mask ps pa pb heap g1 g2 cfl (s 0)) := by
  obtain ⟨n1, n2, M0, M1, M2, L, R, B, D, D2⟩ := data_of hs hf (hN.of_le (by norm_num))
  have D2 := D2 hN
  have hL := D.Lpos
  have hM1 := D.M1pos
  have hM2 := D2.M2pos
  refine converge (c := L + L ^ 2 / 2) (K := L * M1 / 8 + M2 / 24) (B := B) 2 (by norm_num) (by positivity)
    (by positivity) D.Bpos
    (fun dt => states_zero ..) (fun dt hdt hcst k t h _ hh' ht hh hh1 hB hk he => (step_le hs hdt hcst hh' ht hh hk).trans ?_)
  rw [form_rk2]
  exact step_midpoint D D2 ht hh.le hh1 hB hk he

/-- **C83.** RK2_trapezoid (Heun's method with an integrating factor): order 2. -/
theorem C83_rk2_trapezoid (hN : ContDiff ℝ 2 N) (hf : ∀ i, 0 ≤ (f i).re) (hs : Solution N f mask T s)
    (ps pa pb : ℕ → Arr ι) (heap : Heap ι) (g1 g2 : Arr ι) (cfl : Bool) :
    ConvergesWithOrder 2 T s cfl (states .RK2_trapezoid N f mask ps pa pb heap g1 g2 cfl (s 0)) := by
  obtain ⟨n1, n2, M0, M1, M2, L, R, B, D, D2⟩ := data_of hs hf (hN.of_le (by norm_num))
  have D2 := D2 hN
  have hL := D.Lpos
  have hM1 := D.M1pos
  have hM2 := D2.M2pos
  refine converge (c := L + L ^ 2 / 2) (K := L * M1 / 4 + M2 / 12) (B := B) 2 (by norm_num) (by positivity)
    (by positivity) D.Bpos
    (fun dt => states_zero ..) (fun dt hdt hcst k t h _ hh' ht hh hh1 hB hk he => (step_le hs hdt hcst hh' ht hh hk).trans ?_)
  rw [form_trapezoid]
  exact step_trapezoid D D2 ht hh.le hh1 hB hk he

/-- **C83.** The schemes with phase shifts, when the aliasing is cancelled by the mean of the shifted tendencies: let
`Nt` be the mean of the tendencies computed with the two shifts of each step (without aliasing, see C08). The computed
states converge to the solution for `Nt`, with the order 1. -/
theorem C83_phaseshift_dealiased {Nt : Arr ι → Arr ι} (hN : ContDiff ℝ 1 N) (hNt : ContDiff ℝ 1 Nt)
    (hf : ∀ i, 0 ≤ (f i).re) (hs : Solution Nt f mask T s)
    (ps pa pb : ℕ → Arr ι) (heap : Heap ι) (g1 g2 : Arr ι) (cfl : Bool)
    (hps : ∀ k i, ‖ps k i‖ = 1) (hpa : ∀ k i, ‖pa k i‖ = 1) (hpb : ∀ k i, ‖pb k i‖ = 1) (sc : Scheme)
    (hsc : (sc = .Euler_phaseshift ∨ sc = .RK2_phaseshift) ∧
        (∀ k x, (1 / 2 : ℂ) • (N x + N (ps k * x) / ps k) = Nt x) ∨
      (sc = .Euler_phaseshift_random ∨ sc = .RK2_phaseshift_random) ∧
        (∀ k x, (1 / 2 : ℂ) • (N (pa k * x) / pa k + N (pb k * x) / pb k) = Nt x)) :
    ConvergesWithOrder 1 T s cfl (states sc N f mask ps pa pb heap g1 g2 cfl (s 0)) := by
  obtain ⟨n1, n2, M0, M1, M2, L, R, B, D, -⟩ := data_of hs hf hNt
  obtain ⟨L', B', hL', hB', hlip, hbd⟩ := lipschitz hN R
  have hL := D.Lpos
  have hM1 := D.M1pos
  have hBp := D.Bpos
  rcases lt_or_ge T 0 with hT | hT
  · refine ⟨0, 1, one_pos, fun h dt _ hdt _ k hk => absurd hk (not_le.2 (lt_of_lt_of_le hT
      (Finset.sum_nonneg fun j _ => (hdt j).1.le)))⟩
  have hR : 0 ≤ R := by
    have := D.sR 0 ⟨le_rfl, hT⟩
    have := norm_nonneg (s 0)
    linarith
  refine converge (c := L) (K := M1 / 2 + L' * (‖f‖ * R + B') / 2 + ‖f‖ * B / 2) (B := B') 1 le_rfl D.Lpos
    (by positivity) hB' (fun dt => states_zero ..) (fun dt hdt hcst k t h _ hh' ht hh hh1 hB hk he => (step_le hs hdt hcst hh' ht hh hk).trans ?_)
  have heuler : ∀ x : Arr ι, ‖x - s t‖ ≤ 1 → ‖expLin f (h : ℂ) * (x + h • Nt x) - s (t + h)‖ ≤
      (1 + L * h) * ‖x - s t‖ + (M1 / 2 + L' * (‖f‖ * R + B') / 2 + ‖f‖ * B / 2) * h ^ (1 + 1) := by
    intro x hx
    refine (step_euler D ht hh.le hk hx).trans ?_
    have h1 : 0 ≤ L' * (‖f‖ * R + B') / 2 + ‖f‖ * B / 2 := by positivity
    nlinarith [mul_nonneg h1 (sq_nonneg h)]
  rcases hsc with ⟨rfl | rfl, hmean⟩ | ⟨rfl | rfl, hmean⟩
  · rw [form_euler_ps, show shiftMean N (ps k) = Nt from funext (hmean k)]
    exact heuler _ he
  · rw [form_rk2_ps]
    exact step_shift_mean D hL' hB' (fun x => by rw [← chalf]; exact hmean k x) (shifted_lip (hps k) hlip) hbd
      ht hh.le hB hk he
  · rw [form_euler_psr, show ∀ x, (1 / 2 : ℂ) • (shifted N (pa k) x + shifted N (pb k) x) = Nt x from hmean k]
    exact heuler _ he
  · rw [form_rk2_psr]
    exact step_shift_mean D hL' hB' (fun x => by rw [← chalf]; exact hmean k x) (shifted_lip (hpb k) hlip)
      (shifted_bound (hpa k) hbd) ht hh.le hB hk he

/-- **C83.** RK2_phaseshift_exact removes the aliasing at each substep: order 2 for the tendencies without aliasing. -/
theorem C83_phaseshift_exact {Nt : Arr ι → Arr ι} (hNt : ContDiff ℝ 2 Nt)
    (hf : ∀ i, 0 ≤ (f i).re) (hs : Solution Nt f mask T s)
    (ps pa pb : ℕ → Arr ι) (heap : Heap ι) (g1 g2 : Arr ι) (cfl : Bool)
    (hmean : ∀ k x, (1 / 2 : ℂ) • (N x + N (ps k * x) / ps k) = Nt x) :
    ConvergesWithOrder 2 T s cfl (states .RK2_phaseshift_exact N f mask ps pa pb heap g1 g2 cfl (s 0)) := by
  obtain ⟨n1, n2, M0, M1, M2, L, R, B, D, D2⟩ := data_of hs hf (hNt.of_le (by norm_num))
  have D2 := D2 hNt
  rcases lt_or_ge T 0 with hT | hT
  · refine ⟨0, 1, one_pos, fun h dt _ hdt _ k hk => absurd hk (not_le.2 (lt_of_lt_of_le hT
      (Finset.sum_nonneg fun j _ => (hdt j).1.le)))⟩
  have hL := D.Lpos
  have hM1 := D.M1pos
  have hM2 := D2.M2pos
  have hM0 : 0 ≤ M0 := (norm_nonneg _).trans (D.bM0 0 ⟨le_rfl, hT⟩)
  refine converge (c := L + L ^ 2 / 2) (K := L * M1 / 4 + M2 / 12 + ‖f‖ * (M1 + ‖f‖ * M0 / 2) / 4) (B := B) 2
    (by norm_num) (by positivity) (by positivity) D.Bpos
    (fun dt => states_zero ..) (fun dt hdt hcst k t h _ hh' ht hh hh1 hB hk he => (step_le hs hdt hcst hh' ht hh hk).trans ?_)
  rw [form_rk2_pse, show shiftMean N (ps k) = Nt from funext (hmean k)]
  exact step_shift D D2 ht hh.le hh1 hB hk he

/-- **C83.** RK2_phaseshift and RK2_phaseshift_random have the order 2 when the tendencies contain no aliasing, so that
they are not changed by the shifts. -/
theorem C83_phaseshift_no_aliasing (hN : ContDiff ℝ 2 N)
    (hf : ∀ i, 0 ≤ (f i).re) (hs : Solution N f mask T s)
    (ps pa pb : ℕ → Arr ι) (heap : Heap ι) (g1 g2 : Arr ι) (cfl : Bool) (sc : Scheme)
    (hsc : sc = .RK2_phaseshift ∧ (∀ k x, N (ps k * x) / ps k = N x) ∨
      sc = .RK2_phaseshift_random ∧ ∀ k x, N (pa k * x) / pa k = N x ∧ N (pb k * x) / pb k = N x) :
    ConvergesWithOrder 2 T s cfl (states sc N f mask ps pa pb heap g1 g2 cfl (s 0)) := by
  obtain ⟨n1, n2, M0, M1, M2, L, R, B, D, D2⟩ := data_of hs hf (hN.of_le (by norm_num))
  have D2 := D2 hN
  rcases lt_or_ge T 0 with hT | hT
  · refine ⟨0, 1, one_pos, fun h dt _ hdt _ k hk => absurd hk (not_le.2 (lt_of_lt_of_le hT
      (Finset.sum_nonneg fun j _ => (hdt j).1.le)))⟩
  have hL := D.Lpos
  have hM1 := D.M1pos
  have hM2 := D2.M2pos
  have hM0 : 0 ≤ M0 := (norm_nonneg _).trans (D.bM0 0 ⟨le_rfl, hT⟩)
  refine converge (c := L + L ^ 2 / 2) (K := L * M1 / 4 + M2 / 12 + ‖f‖ * (M1 + ‖f‖ * M0 / 2) / 4) (B := B) 2
    (by norm_num) (by positivity) (by positivity) D.Bpos
    (fun dt => states_zero ..) (fun dt hdt hcst k t h _ hh' ht hh hh1 hB hk he => (step_le hs hdt hcst hh' ht hh hk).trans ?_)
  rcases hsc with ⟨rfl, hsh⟩ | ⟨rfl, hsh⟩
  · rw [form_rk2_ps, show shifted N (ps k) = N from funext (hsh k)]
    exact step_shift D D2 ht hh.le hh1 hB hk he
  · rw [form_rk2_psr, show shifted N (pa k) = N from funext fun x => (hsh k x).1,
      show shifted N (pb k) = N from funext fun x => (hsh k x).2]
    exact step_shift D D2 ht hh.le hh1 hB hk he

end Verif.Convergence
