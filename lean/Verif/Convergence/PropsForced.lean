import Verif.Convergence.LemmasForced
import Verif.Fourier.Model

/-! # C83: convergence with a force computed once per time step -/

namespace Verif.Convergence

open Verif Schemes Set

set_option linter.unusedSectionVars false

section

variable {ι : Type*} [Fintype ι] {N : Arr ι → Arr ι} {F : ℝ → Arr ι → Arr ι} {f : Arr ι} {mask : ι → Bool} {T : ℝ} {s : ℝ → Arr ι}

/-- **C83.** With a force which depends on the time and on the state, computed at the beginning of each time step, the simulations
converge to the solution of the forced equations with the order 1, for all the schemes without phase shifts. -/
theorem C83_forced_partial (hN : ContDiff ℝ 1 N) (hF : LocallyLipschitz T F) (hf : ∀ i, 0 ≤ (f i).re)
    (hs : SolutionForced N F f mask T s) {sc : Scheme} (hsc : sc ∈ plain)
    (ps pa pb : ℕ → Arr ι) (heap : Heap ι) (g1 g2 : Arr ι) (cfl : Bool) :
    ConvergesWithOrder 1 T s cfl (statesForced sc N F f mask ps pa pb heap g1 g2 cfl (s 0)) := by
  rcases lt_or_ge T 0 with hT | hT
  · refine ⟨0, 1, one_pos, fun h dt _ hdt _ k hk => absurd hk (not_le.2 (lt_of_lt_of_le hT
      (Finset.sum_nonneg fun j _ => (hdt j).1.le)))⟩
  have hm0 : (0 : ℝ) ∈ Icc 0 T := ⟨le_rfl, hT⟩
  have hsc' : ContinuousOn s (Icc 0 T) := fun t ht => (hs.deriv t ht).continuousAt.continuousWithinAt
  obtain ⟨R, hR0, hR⟩ := bounded hsc'
  obtain ⟨L, B, hL, hB, hlip, hbd⟩ := lipschitz hN (R + 2)
  obtain ⟨Λ0, hΛ0⟩ := hF (R + 2)
  set Λ := max Λ0 0 with hΛdef
  have hΛ : 0 ≤ Λ := le_max_right _ _
  have hFl : ∀ t ∈ Icc 0 T, ∀ t' ∈ Icc 0 T, ∀ x y : Arr ι, ‖x‖ ≤ R + 2 → ‖y‖ ≤ R + 2 →
      ‖F t x - F t' y‖ ≤ Λ * (|t - t'| + ‖x - y‖) := fun t ht t' ht' x y hx hy =>
    (hΛ0 t ht t' ht' x y hx hy).trans (mul_le_mul_of_nonneg_right (le_max_left _ _) (by positivity))
  set BF := ‖F 0 0‖ + Λ * (T + (R + 2)) with hBF
  have hFb : ∀ t ∈ Icc 0 T, ∀ x : Arr ι, ‖x‖ ≤ R + 2 → ‖F t x‖ ≤ BF := by
    intro t ht x hx
    have h1 := hFl t ht 0 hm0 x 0 hx (by rw [norm_zero]; linarith)
    rw [sub_zero, sub_zero, abs_of_nonneg ht.1] at h1
    have h2 := norm_add_le (F t x - F 0 0) (F 0 0)
    rw [sub_add_cancel] at h2
    have h3 := mul_le_mul_of_nonneg_left (add_le_add ht.2 hx) hΛ
    linarith
  have hBF0 : 0 ≤ BF := by positivity
  have hsR : ∀ t ∈ Icc 0 T, ‖s t‖ ≤ R + 2 := fun t ht => (hR t ht).trans (by linarith)
  set n : ℝ → Arr ι := fun t => N (s t) + F t (s t) with hn
  have hnb : ∀ t ∈ Icc 0 T, ‖n t‖ ≤ B + BF := fun t ht =>
    (norm_add_le _ _).trans (add_le_add (hbd _ (hsR t ht)) (hFb t ht _ (hsR t ht)))
  -- the solution and its tendencies are Lipschitz in time
  have hsl : ∀ t ∈ Icc 0 T, ∀ t' ∈ Icc 0 T, ‖s t - s t'‖ ≤ (B + BF + ‖f‖ * R) * |t - t'| := by
    intro t ht t' ht'
    have := (convex_Icc (0 : ℝ) T).norm_image_sub_le_of_norm_hasDerivWithin_le (f := s)
      (f' := fun t => n t - f * s t) (C := B + BF + ‖f‖ * R) (fun x hx => (hs.deriv x hx).hasDerivWithinAt)
      (fun x hx => (norm_sub_le _ _).trans (add_le_add (hnb x hx) ((norm_mul_le _ _).trans
        (mul_le_mul_of_nonneg_left (hR x hx) (norm_nonneg _))))) ht' ht
    simpa [Real.norm_eq_abs] using this
  set Ms := B + BF + ‖f‖ * R with hMs
  have hMs0 : 0 ≤ Ms := by positivity
  have hnl : ∀ t ∈ Icc 0 T, ∀ t' ∈ Icc 0 T, ‖n t - n t'‖ ≤ (L * Ms + Λ * (1 + Ms)) * |t - t'| := by
    intro t ht t' ht'
    have e : n t - n t' = (N (s t) - N (s t')) + (F t (s t) - F t' (s t')) := by simp only [hn]; abel
    rw [e]
    refine (norm_add_le _ _).trans ?_
    have h0 := hsl t ht t' ht'
    have h1 := (hlip _ _ (hsR t ht) (hsR t' ht')).trans (mul_le_mul_of_nonneg_left h0 hL)
    have h2 := (hFl t ht t' ht' _ _ (hsR t ht) (hsR t' ht')).trans
      (mul_le_mul_of_nonneg_left (add_le_add_right h0 |t - t'|) hΛ)
    linarith
  refine converge (c := L + Λ) (K := (L * (‖f‖ * (R + 2) + (B + BF)) + ‖f‖ * (B + BF)) +
    (L * Ms + Λ * (1 + Ms) + ‖f‖ * (B + BF)) / 2) (B := B + BF) 1 le_rfl (by positivity) (by positivity) (by positivity)
    (fun dt => statesForced_zero ..) (fun dt hdt hcst k t h ht' hh' ht hh hh1 hhB hk he => ?_)
  have htm : t ∈ Icc 0 T := ⟨ht, by linarith⟩
  rw [simulationForced_succ _ _ _ _ _ _ _ _ _ _ _ _ _ _ hdt hcst, ← ht', ← hh']
  refine (dealias_le (fun i hi => hs.truncated _ ⟨by linarith, hk⟩ i hi)).trans ?_
  set H := (simulationForced sc N F f mask ps pa pb heap g1 g2 cfl (s 0) dt k).heap with hH
  have ha : ‖H .state‖ ≤ R + 2 - 1 := by
    have := norm_add_le (H .state - s t) (s t)
    rw [sub_add_cancel] at this
    linarith [hR t htm]
  have haR : ‖H .state‖ ≤ R + 2 := by linarith
  have h1 := scheme_close hf hL (by positivity : 0 ≤ B + BF) hlip (g := F t (H .state))
    (fun x hx => (norm_add_le _ _).trans (add_le_add (hbd x hx) (hFb t htm _ haR))) hsc hh.le hhB (ps k) (pa k) (pb k) H ha
  have h2 := local_euler_lip hf hs.deriv hnl hnb ht hh.le hk
  have h3 : ‖expLin f (h : ℂ) * (H .state + h • (N (H .state) + F t (H .state))) - expLin f (h : ℂ) * (s t + h • n t)‖
      ≤ (1 + (L + Λ) * h) * ‖H .state - s t‖ := by
    rw [← mul_sub]
    refine (norm_expLin_mul_le hf hh.le _).trans ?_
    have e : H .state + h • (N (H .state) + F t (H .state)) - (s t + h • n t) =
        (H .state - s t) + h • ((N (H .state) - N (s t)) + (F t (H .state) - F t (s t))) := by
      simp only [hn]; module
    rw [e]
    refine (norm_add_le _ _).trans ?_
    rw [norm_smul_pos hh.le]
    have h4 := hlip _ _ haR (hsR t htm)
    have h5 := hFl t htm t htm _ _ haR (hsR t htm)
    rw [sub_self, abs_zero, zero_add] at h5
    have h6 := mul_le_mul_of_nonneg_left ((norm_add_le _ _).trans (add_le_add h4 h5)) hh.le
    linarith
  have e : ∀ x y z w : Arr ι, x - w = (x - y) + (y - z) + (z - w) := fun x y z w => by abel
  rw [e _ (expLin f (h : ℂ) * (H .state + h • (N (H .state) + F t (H .state)))) (expLin f (h : ℂ) * (s t + h • n t))]
  refine (norm_add₃_le).trans ?_
  have : ‖H .state - s t‖ = ‖statesForced sc N F f mask ps pa pb heap g1 g2 cfl (s 0) dt k - s t‖ := rfl
  rw [← this]
  have hp : h ^ (1 + 1) = h ^ 2 := rfl
  rw [hp]
  linarith

/-- **C83.** A force which is constant does not change the orders: the simulation is the one with the tendencies `N + F`. -/
theorem C83_constant_force (F0 : Arr ι) (sc : Scheme) (ps pa pb : ℕ → Arr ι) (heap : Heap ι) (g1 g2 : Arr ι) (cfl : Bool)
    (u0 : Arr ι) (dt : ℕ → ℝ) (k : ℕ) :
    statesForced sc N (fun _ _ => F0) f mask ps pa pb heap g1 g2 cfl u0 dt k =
      states sc (fun x => N x + F0) f mask ps pa pb heap g1 g2 cfl u0 dt k := by
  have : ∀ k, simulationForced sc N (fun _ _ => F0) f mask ps pa pb heap g1 g2 cfl u0 dt k =
      simulation sc (fun x => N x + F0) f mask ps pa pb heap g1 g2 cfl u0 dt k := by
    intro k
    induction k with
    | zero => rfl
    | succ k ih => simp only [simulationForced, simulation, ih]
  rw [statesForced, this]

end

/-! ### The orders are lost -/

/-- The force `F(t) = t`, on two components. -/
def rampForce (t : ℝ) (_ : Arr Bool) : Arr Bool := fun _ => (t : ℂ)

theorem step_const {ι : Type*} [Fintype ι] {sc : Scheme} (hsc : sc ∈ plain) (g : Arr ι) (h : ℝ) (ps pa pb : Arr ι) (H : Heap ι) :
    timeStepRK sc (fun _ _ => 0 + g) (h : ℂ) 1 1 ps pa pb H .state = H .state + h • g := by
  simp only [plain, List.mem_cons, List.not_mem_nil, or_false] at hsc
  rcases hsc with rfl | rfl | rfl | rfl
  · rw [form_euler (fun _ => 0 + g)]; simp
  · rw [form_rk2 (fun _ => 0 + g)]; simp
  · rw [form_trapezoid (fun _ => 0 + g)]
    simp only [one_mul, zero_add]
    module
  · rw [form_rk4 (fun _ => 0 + g)]
    simp only [one_mul, zero_add]
    module

theorem ramp_states {sc : Scheme} (hsc : sc ∈ plain) (ps pa pb : ℕ → Arr Bool) (heap : Heap Bool)
    (g1 g2 : Arr Bool) (cfl : Bool) (h : ℝ) (hh : 0 < h) (k : ℕ) :
    statesForced sc (fun _ => 0) rampForce 0 (fun _ => false) ps pa pb heap g1 g2 cfl 0 (fun _ => h) k =
      fun _ => ((h ^ 2 * (k * (k - 1)) / 2 : ℝ) : ℂ) := by
  induction k with
  | zero =>
    rw [statesForced_zero]
    funext b
    simp
  | succ k ih =>
    rw [simulationForced_succ _ _ _ _ _ _ _ _ _ _ _ _ _ _ (fun _ => hh) (fun _ _ => rfl)]
    simp only [Bool.false_eq_true, if_false, expLin_of_zero]
    rw [step_const hsc]
    funext b
    have e := congrFun ih b
    simp only [Pi.add_apply, Pi.smul_apply]
    rw [show (simulationForced sc (fun _ => 0) rampForce 0 (fun _ => false) ps pa pb heap g1 g2 cfl 0 (fun _ => h) k).heap .state b
      = _ from e]
    simp only [rampForce, elapsed_const, Complex.real_smul]
    push_cast
    ring

/-- **C83** (finding) The orders of RK2, RK2_trapezoid and RK4 do not hold with a force which depends on the time: as the force is
computed only at the beginning of the steps, with the equation `du/dt = t` the error at the time 1 is half of the time step,
for all the schemes. -/
theorem C83_forced_order_violated {sc : Scheme} (hsc : sc ∈ plain) (ps pa pb : ℕ → Arr Bool) (heap : Heap Bool)
    (g1 g2 : Arr Bool) (cfl : Bool) :
    SolutionForced (fun _ => 0) rampForce 0 (fun _ => false) 1 (fun t _ => ((t ^ 2 / 2 : ℝ) : ℂ)) ∧
    LocallyLipschitz 1 rampForce ∧
    ¬ ConvergesWithOrder 2 1 (fun t _ => ((t ^ 2 / 2 : ℝ) : ℂ)) cfl
      (statesForced sc (fun _ => 0) rampForce 0 (fun _ => false) ps pa pb heap g1 g2 cfl 0) := by
  refine ⟨⟨fun t _ => ?_, fun t _ i hi => absurd hi (by simp)⟩, fun R => ⟨1, fun t _ t' _ x y _ _ => ?_⟩, ?_⟩
  · refine hasDerivAt_pi.2 fun b => ?_
    have h1 := ((hasDerivAt_pow 2 t).div_const 2).ofReal_comp
    refine h1.congr_deriv ?_
    simp [rampForce]
  · have : rampForce t x - rampForce t' y = fun _ => ((t - t' : ℝ) : ℂ) := by
      funext b; simp [rampForce]
    rw [this, one_mul, pi_norm_le_iff_of_nonneg (by positivity)]
    intro b
    rw [Complex.norm_real, Real.norm_eq_abs]
    linarith [norm_nonneg (x - y)]
  · refine not_order (p := 1) (c := -2) (by norm_num) fun h k hh => ?_
    rw [ramp_states hsc ps pa pb heap g1 g2 cfl h hh k, ← Complex.ofReal_sub]
    congr 1
    ring

/-! ### Forces and phase shifts -/

section

variable {ι : Type*} [Fintype ι] {N : Arr ι → Arr ι} {f : Arr ι} {mask : ι → Bool} {T : ℝ} {s : ℝ → Arr ι}

/-- **C83.** With the phase shifts, the force is added to the tendencies of the shifted state, and divided by the shift like them
(`tendencies_1_shift / phaseshift`): the simulations converge to the solution of the equations with the force
`(F + F / p) / 2` in place of `F`. -/
theorem C83_phaseshift_force {Nt : Arr ι → Arr ι} (hN : ContDiff ℝ 1 N) (hNt : ContDiff ℝ 1 Nt) (hf : ∀ i, 0 ≤ (f i).re)
    {F0 p : Arr ι} (hp : ∀ i, ‖p i‖ = 1) (hmean : ∀ x, (1 / 2 : ℂ) • (N x + N (p * x) / p) = Nt x)
    (hs : Solution (fun x => Nt x + (1 / 2 : ℂ) • (F0 + F0 / p)) f mask T s)
    (heap : Heap ι) (g1 g2 : Arr ι) (cfl : Bool) {sc : Scheme} (hsc : sc = .Euler_phaseshift ∨ sc = .RK2_phaseshift) :
    ConvergesWithOrder 1 T s cfl
      (statesForced sc N (fun _ _ => F0) f mask (fun _ => p) (fun _ => p) (fun _ => p) heap g1 g2 cfl (s 0)) := by
  have e : statesForced sc N (fun _ _ => F0) f mask (fun _ => p) (fun _ => p) (fun _ => p) heap g1 g2 cfl (s 0) =
      states sc (fun x => N x + F0) f mask (fun _ => p) (fun _ => p) (fun _ => p) heap g1 g2 cfl (s 0) := by
    funext dt k
    exact C83_constant_force ..
  rw [e]
  refine C83_phaseshift_dealiased (hN.add contDiff_const) (hNt.add contDiff_const) hf hs _ _ _ heap g1 g2 cfl
    (fun _ => hp) (fun _ => hp) (fun _ => hp) sc (.inl ⟨hsc, fun k x => ?_⟩)
  rw [← hmean x]
  funext i
  simp only [Pi.smul_apply, Pi.add_apply, Pi.div_apply, smul_eq_mul]
  ring

theorem shift_step {sc : Scheme} (hsc : sc ∈ [Scheme.Euler_phaseshift, .RK2_phaseshift, .RK2_phaseshift_exact]) (F0 p pa pb : Arr ι)
    (h : ℝ) (H : Heap ι) :
    timeStepRK sc (fun _ _ => F0) (h : ℂ) 1 1 p pa pb H .state = H .state + h • ((1 / 2 : ℂ) • (F0 + F0 / p)) := by
  simp only [List.mem_cons, List.not_mem_nil, or_false] at hsc
  rcases hsc with rfl | rfl | rfl
  · rw [form_euler_ps (fun _ => F0)]; simp [shiftMean]
  · rw [form_rk2_ps (fun _ => F0), ← chalf]; simp [shifted]
  · rw [form_rk2_pse (fun _ => F0), ← chalf]
    have : shiftMean (fun _ => F0) p = fun _ => (1 / 2 : ℂ) • (F0 + F0 / p) := rfl
    simp only [this, one_mul]
    congr 2
    module

end

open Verif.Fourier in
/-- The shift of half of a grid step in both directions changes the modes with `kx / nx + ky / ny ≠ 0`. -/
theorem shift_ne_one {L : Fin 2 → ℝ} (hL : ∀ d, 0 < L d) {n : Fin 2 → ℕ} (hn : ∀ d, 0 < n d) {k : Fin 2 → ℤ}
    (hk : ∀ d, 2 * |k d| ≤ n d) (hne : k 0 * n 1 + k 1 * n 0 ≠ 0) : phaseShift L n (fun _ => 1 / 2) k ≠ 1 := by
  intro h
  rw [phaseShift, Complex.exp_eq_one_iff] at h
  obtain ⟨m, hm⟩ := h
  have hn0 : (0 : ℝ) < n 0 := by exact_mod_cast hn 0
  have hn1 : (0 : ℝ) < n 1 := by exact_mod_cast hn 1
  have e : ∑ d, ((fun _ => 1 / 2 : Fin 2 → ℝ) d * (L d / n d) * (2 * Real.pi / L d * k d)) = Real.pi * (k 0 / n 0 + k 1 / n 1) := by
    have h0 := (hL 0).ne'
    have h1 := (hL 1).ne'
    rw [Fin.sum_univ_two]
    field_simp
  rw [← Complex.ofReal_sum, e] at hm
  have hm' : Real.pi * ((k 0 : ℝ) / n 0 + k 1 / n 1) = m * (2 * Real.pi) := by
    have h1 : Complex.I * ((Real.pi * ((k 0 : ℝ) / n 0 + k 1 / n 1) : ℝ) : ℂ) = Complex.I * ((m * (2 * Real.pi) : ℝ) : ℂ) := by
      rw [hm]; push_cast; ring
    exact_mod_cast mul_left_cancel₀ Complex.I_ne_zero h1
  have hq : (k 0 : ℝ) / n 0 + k 1 / n 1 = 2 * m := by
    have := Real.pi_pos
    have h1 : Real.pi * ((k 0 : ℝ) / n 0 + k 1 / n 1) = Real.pi * (2 * m) := by rw [hm']; ring
    exact mul_left_cancel₀ this.ne' h1
  have hab : ∀ d, |(k d : ℝ) / n d| ≤ 1 / 2 := by
    intro d
    have hnd : (0 : ℝ) < n d := by exact_mod_cast hn d
    rw [abs_div, abs_of_pos hnd, div_le_iff₀ hnd]
    have : 2 * |(k d : ℝ)| ≤ n d := by
      rw [← Int.cast_abs]
      exact_mod_cast hk d
    linarith
  have hm0 : m = 0 := by
    have h1 : |2 * (m : ℝ)| ≤ 1 := by
      rw [← hq]
      refine (abs_add_le _ _).trans ?_
      linarith [hab 0, hab 1]
    rw [abs_mul, abs_two] at h1
    by_contra hne0
    have : (1 : ℝ) ≤ |(m : ℝ)| := by exact_mod_cast Int.one_le_abs hne0
    linarith
  rw [hm0, Int.cast_zero, mul_zero] at hq
  refine hne ?_
  field_simp at hq
  have : ((k 0 * n 1 + k 1 * n 0 : ℤ) : ℝ) = 0 := by push_cast; linarith
  exact_mod_cast this

/-- **C83** (finding) With the phase shifts of a two-dimensional grid (half of a grid step), the simulations do not converge to the
solution of the forced equations: for `du/dt = F`, with a force on a mode `k` such that `kx / nx + ky / ny ≠ 0`, the error at the
time 1 does not tend to zero with the time step. -/
theorem C83_phaseshift_force_violated {L : Fin 2 → ℝ} (hL : ∀ d, 0 < L d) {n : Fin 2 → ℕ} (hn : ∀ d, 0 < n d)
    {G : Finset (Fin 2 → ℤ)} {F0 : Arr G} {k : G} (hk : ∀ d, 2 * |k.1 d| ≤ n d) (hne : k.1 0 * n 1 + k.1 1 * n 0 ≠ 0) (hF : F0 k ≠ 0)
    {sc : Scheme} (hsc : sc ∈ [Scheme.Euler_phaseshift, .RK2_phaseshift, .RK2_phaseshift_exact]) (pa pb : ℕ → Arr G) (heap : Heap G)
    (g1 g2 : Arr G) (cfl : Bool) :
    SolutionForced (fun _ => 0) (fun _ _ => F0) 0 (fun _ => false) 1 (fun t => t • F0) ∧
    ∀ order, 0 < order → ¬ ConvergesWithOrder order 1 (fun t => t • F0) cfl
      (statesForced sc (fun _ => 0) (fun _ _ => F0) 0 (fun _ => false)
        (fun _ i => Fourier.phaseShift L n (fun _ => 1 / 2) i.1) pa pb heap g1 g2 cfl 0) := by
  set p : Arr G := fun i => Fourier.phaseShift L n (fun _ => 1 / 2) i.1 with hp
  have hpk : p k ≠ 1 := shift_ne_one hL hn hk hne
  refine ⟨⟨fun t _ => ?_, fun t _ i hi => absurd hi (by simp)⟩, ?_⟩
  · refine ((hasDerivAt_id t).smul_const F0).congr_deriv (by simp)
  · rintro order hord ⟨C, h0, hh0, hC⟩
    have hst : ∀ (h : ℝ) (_ : 0 < h) (j : ℕ), statesForced sc (fun _ => 0) (fun _ _ => F0) 0 (fun _ => false)
        (fun _ => p) pa pb heap g1 g2 cfl 0 (fun _ => h) j = (j * h : ℝ) • ((1 / 2 : ℂ) • (F0 + F0 / p)) := by
      intro h hh j
      induction j with
      | zero => rw [statesForced_zero]; simp
      | succ j ih =>
        rw [simulationForced_succ _ _ _ _ _ _ _ _ _ _ _ _ _ _ (fun _ => hh) (fun _ _ => rfl)]
        have e1 : ∀ t : ℂ, expLin (0 : Arr G) t = 1 := fun t => by funext i; simp [expLin]
        simp only [Bool.false_eq_true, if_false, e1, zero_add]
        rw [shift_step hsc]
        rw [show (simulationForced sc (fun _ => 0) (fun _ _ => F0) 0 (fun _ => false) (fun _ => p) pa pb heap g1 g2 cfl 0
          (fun _ => h) j).heap .state = _ from ih]
        push_cast
        module
    have hp0 : p k ≠ 0 := Complex.exp_ne_zero _
    set e := ‖F0 k * (1 / p k - 1) / 2‖ with he
    have hepos : 0 < e := by
      rw [he, norm_pos_iff]
      refine div_ne_zero (mul_ne_zero hF fun h => hpk ?_) two_ne_zero
      rw [sub_eq_zero, div_eq_iff hp0, one_mul] at h
      exact h.symm
    obtain ⟨j, hj⟩ := exists_nat_gt (max (max (1 / h0) (|C| / e)) 1)
    have hj1 : 1 / h0 < j := lt_of_le_of_lt ((le_max_left _ _).trans (le_max_left _ _)) hj
    have hj2 : |C| / e < j := lt_of_le_of_lt ((le_max_right _ _).trans (le_max_left _ _)) hj
    have hj0 : (0 : ℝ) < j := lt_trans (by positivity) hj1
    have hj3 : (1 : ℝ) < j := lt_of_le_of_lt (le_max_right _ _) hj
    have hh : (1 : ℝ) / j ≤ h0 := by
      rw [div_le_iff₀ hj0]
      rw [div_lt_iff₀ hh0] at hj1
      linarith
    have h1 := hC (1 / j) (fun _ => 1 / j) hh (fun _ => ⟨by positivity, le_rfl⟩) (fun _ _ => rfl) j
      (by rw [elapsed_const, mul_one_div_cancel hj0.ne'])
    rw [elapsed_const, hst _ (by positivity), mul_one_div_cancel hj0.ne'] at h1
    simp only [one_smul] at h1
    have h2 := (norm_le_pi_norm ((1 / 2 : ℂ) • (F0 + F0 / p) - F0) k).trans h1
    have e2 : ((1 / 2 : ℂ) • (F0 + F0 / p) - F0) k = F0 k * (1 / p k - 1) / 2 := by
      simp only [Pi.sub_apply, Pi.smul_apply, Pi.add_apply, Pi.div_apply, smul_eq_mul]
      ring
    rw [e2, ← he] at h2
    have h3 : ((1 : ℝ) / j) ^ order ≤ 1 / j := by
      calc ((1 : ℝ) / j) ^ order ≤ (1 / j) ^ 1 := pow_le_pow_of_le_one (by positivity)
            (by rw [div_le_one hj0]; exact hj3.le) hord
        _ = 1 / j := pow_one _
    have h4 : C * (1 / j) ^ order ≤ |C| * (1 / j) :=
      mul_le_mul (le_abs_self C) h3 (by positivity) (abs_nonneg _)
    rw [div_lt_iff₀ hepos] at hj2
    have h5 : e ≤ |C| / j := by
      have := h2.trans h4
      rwa [mul_one_div] at this
    rw [le_div_iff₀ hj0] at h5
    linarith

/-! ### The hypotheses are satisfiable -/

/-- A force proportional to the state, which grows with the time: `du/dt = -u + (1 + 2 t) u` (a damped mode), `u = exp(t ^ 2)`. -/
noncomputable example (cfl : Bool) (heap : Heap Unit) (p g : Arr Unit) :
    ConvergesWithOrder 1 2 (fun t (_ : Unit) => Complex.exp (t ^ 2)) cfl
      (statesForced .RK4 (fun _ => 0) (fun t x => ((1 + 2 * t : ℝ) : ℂ) • x) 1 (fun _ => false) (fun _ => p) (fun _ => p)
        (fun _ => p) heap g g cfl (fun _ => Complex.exp (((0 : ℝ) : ℂ) ^ 2))) := by
  refine C83_forced_partial (N := fun _ => 0) (s := fun t (_ : Unit) => Complex.exp (t ^ 2)) contDiff_const (fun R => ⟨5 + 2 * |R|, ?_⟩)
    (fun _ => by simp) ⟨fun t _ => ?_, fun t _ i hi => absurd hi (by simp)⟩ (by simp [plain]) _ _ _ heap g g cfl
  · intro t ht t' ht' x y hx hy
    have e : ((1 + 2 * t : ℝ) : ℂ) • x - ((1 + 2 * t' : ℝ) : ℂ) • y
        = ((1 + 2 * t : ℝ) : ℂ) • (x - y) + ((2 * (t - t') : ℝ) : ℂ) • y := by
      funext i
      simp only [Pi.sub_apply, Pi.add_apply, Pi.smul_apply, smul_eq_mul]
      push_cast
      ring
    rw [e]
    refine (norm_add_le _ _).trans ?_
    rw [norm_smul, norm_smul, Complex.norm_real, Complex.norm_real, Real.norm_eq_abs, Real.norm_eq_abs,
      abs_of_nonneg (by linarith [ht.1] : 0 ≤ 1 + 2 * t), abs_mul, abs_two]
    have h1 : (1 + 2 * t) * ‖x - y‖ ≤ 5 * ‖x - y‖ := mul_le_mul_of_nonneg_right (by linarith [ht.2]) (norm_nonneg _)
    have h2 : 2 * |t - t'| * ‖y‖ ≤ 2 * |t - t'| * |R| := mul_le_mul_of_nonneg_left (hy.trans (le_abs_self R)) (by positivity)
    have h3 : 0 ≤ |R| * ‖x - y‖ := by positivity
    have h4 := abs_nonneg (t - t')
    nlinarith
  · refine hasDerivAt_pi.2 fun _ => ?_
    have h1 : HasDerivAt (fun t : ℝ => ((t ^ 2 : ℝ) : ℂ)) ((2 * t : ℝ) : ℂ) t := by
      have := (hasDerivAt_pow 2 t).ofReal_comp
      refine this.congr_deriv ?_
      simp
    have h2 := h1.cexp
    have e : (fun t : ℝ => Complex.exp ((t : ℂ) ^ 2)) = fun t : ℝ => Complex.exp ((t ^ 2 : ℝ) : ℂ) := by
      funext t; push_cast; rfl
    rw [e]
    refine h2.congr_deriv ?_
    simp only [Pi.sub_apply, Pi.add_apply, Pi.smul_apply, Pi.mul_apply, smul_eq_mul, Pi.zero_apply, Pi.one_apply]
    push_cast
    ring

/-- The mode (1, 0) of a grid of 8 × 8 points. -/
example : (∀ d : Fin 2, 2 * |(![1, 0] : Fin 2 → ℤ) d| ≤ ((fun _ => 8 : Fin 2 → ℕ) d : ℤ)) ∧
    (![1, 0] : Fin 2 → ℤ) 0 * ((8 : ℕ) : ℤ) + (![1, 0] : Fin 2 → ℤ) 1 * ((8 : ℕ) : ℤ) ≠ 0 := by decide

end Verif.Convergence
