import Verif.Convergence.SpecForced
import Verif.Convergence.PropsOrder

/-! Helper lemmas for C83 with a force computed once per time step. -/

namespace Verif.Convergence

open Verif Schemes Set

set_option linter.unusedSectionVars false

variable {ι : Type*} [Fintype ι]

theorem forced_coefs_eq (sc : Scheme) (N : Arr ι → Arr ι) (F : ℝ → Arr ι → Arr ι) (f : Arr ι) (mask : ι → Bool)
    (ps pa pb : ℕ → Arr ι) (heap : Heap ι) (g1 g2 : Arr ι) (cfl : Bool) (u0 : Arr ι) (dt : ℕ → ℝ) (k : ℕ) :
    (simulationForced sc N F f mask ps pa pb heap g1 g2 cfl u0 dt k).coefs =
      (simulation sc N f mask ps pa pb heap g1 g2 cfl u0 dt k).coefs := by
  induction k with
  | zero => rfl
  | succ k ih =>
    simp only [simulationForced, simulation, oneStep, ih]

theorem simulationForced_succ (sc : Scheme) (N : Arr ι → Arr ι) (F : ℝ → Arr ι → Arr ι) (f : Arr ι) (mask : ι → Bool)
    (ps pa pb : ℕ → Arr ι) (heap : Heap ι) (g1 g2 : Arr ι) (cfl : Bool) (u0 : Arr ι) (dt : ℕ → ℝ) (hdt : ∀ k, 0 < dt k)
    (hcst : cfl = false → ∀ k, dt k = dt 0) (k : ℕ) :
    statesForced sc N F f mask ps pa pb heap g1 g2 cfl u0 dt (k + 1) =
      fun i => if mask i then 0 else
        timeStepRK sc (fun _ x => N x + F (elapsed dt k) (statesForced sc N F f mask ps pa pb heap g1 g2 cfl u0 dt k))
          (dt k : ℂ) (expLin f (dt k : ℂ)) (expLin f ((dt k / 2 : ℝ) : ℂ)) (ps k) (pa k) (pb k)
          (simulationForced sc N F f mask ps pa pb heap g1 g2 cfl u0 dt k).heap .state i := by
  have hc := simulation_coefs sc N f mask ps pa pb heap g1 g2 cfl u0 dt hdt hcst k
  rw [← forced_coefs_eq sc N F f mask ps pa pb heap g1 g2 cfl u0 dt k] at hc
  rw [statesForced, simulationForced, oneStep]
  simp only [hc, dealias, set_same]

theorem statesForced_zero (sc : Scheme) (N : Arr ι → Arr ι) (F : ℝ → Arr ι → Arr ι) (f : Arr ι) (mask : ι → Bool)
    (ps pa pb : ℕ → Arr ι) (heap : Heap ι) (g1 g2 : Arr ι) (cfl : Bool) (u0 : Arr ι) (dt : ℕ → ℝ) :
    statesForced sc N F f mask ps pa pb heap g1 g2 cfl u0 dt 0 = u0 := by
  simp [statesForced, simulationForced]

/-- Local error of Euler's method, with tendencies along the solution which are Lipschitz in time. -/
theorem local_euler_lip {f : Arr ι} (hf : ∀ i, 0 ≤ (f i).re) {T : ℝ} {s n : ℝ → Arr ι} {Λ B : ℝ}
    (hd : ∀ t ∈ Icc 0 T, HasDerivAt s (n t - f * s t) t)
    (hlip : ∀ t ∈ Icc 0 T, ∀ t' ∈ Icc 0 T, ‖n t - n t'‖ ≤ Λ * |t - t'|) (hB : ∀ t ∈ Icc 0 T, ‖n t‖ ≤ B)
    {t h : ℝ} (ht : 0 ≤ t) (hh : 0 ≤ h) (hT : t + h ≤ T) :
    ‖expLin f (h : ℂ) * (s t + h • n t) - s (t + h)‖ ≤ (Λ + ‖f‖ * B) * h ^ 2 / 2 := by
  have htm : t ∈ Icc 0 T := ⟨ht, by linarith⟩
  have hdd : ∀ τ ∈ Icc 0 h, HasDerivAt (fun τ : ℝ => expLin f ((h - τ : ℝ) : ℂ) * s (t + τ) - τ • (expLin f (h : ℂ) * n t)
      - expLin f (h : ℂ) * s t) (expLin f ((h - τ : ℝ) : ℂ) * n (t + τ) - expLin f (h : ℂ) * n t) τ := by
    intro τ hτ
    have h1 := frame (h := h) (g1 := n) (hd (t + τ) ⟨by linarith [hτ.1], by linarith [hτ.2]⟩)
    have h2 := (h1.sub ((hasDerivAt_id τ).smul_const (expLin f (h : ℂ) * n t))).sub_const (expLin f (h : ℂ) * s t)
    exact h2.congr_deriv (by simp)
  have key := norm_le_pow (C := Λ + ‖f‖ * B) 1 hdd (by simp) (fun τ hτ => ?_) (t := h) ⟨hh, le_rfl⟩
  · have e : expLin f (h : ℂ) * (s t + h • n t) - s (t + h) =
        -(expLin f ((h - h : ℝ) : ℂ) * s (t + h) - h • (expLin f (h : ℂ) * n t) - expLin f (h : ℂ) * s t) := by
      simp only [sub_self, expLin_zero', one_mul, mul_add, mul_smul_comm]
      abel
    rw [e, norm_neg]
    refine key.trans (le_of_eq ?_)
    norm_num
  · have hm : t + τ ∈ Icc 0 T := ⟨by linarith [hτ.1], by linarith [hτ.2]⟩
    have hhτ : 0 ≤ h - τ := by linarith [hτ.2]
    have esplit : expLin f (h : ℂ) = expLin f ((h - τ : ℝ) : ℂ) * expLin f (τ : ℂ) := by
      funext i
      simp only [expLin, Pi.mul_apply, ← Complex.exp_add]
      congr 1
      push_cast
      ring
    have e : expLin f ((h - τ : ℝ) : ℂ) * n (t + τ) - expLin f (h : ℂ) * n t =
        expLin f ((h - τ : ℝ) : ℂ) * ((n (t + τ) - n t) - (expLin f (τ : ℂ) - 1) * n t) := by
      rw [esplit]; ring
    rw [e]
    refine (norm_expLin_mul_le hf hhτ _).trans ((norm_sub_le _ _).trans ?_)
    have h1 := hlip _ hm _ htm
    rw [add_sub_cancel_left, abs_of_nonneg hτ.1] at h1
    have h2 := norm_expLin_sub_one hf hτ.1 (n t)
    have h3 : ‖f‖ * τ * ‖n t‖ ≤ ‖f‖ * τ * B := mul_le_mul_of_nonneg_left (hB t htm) (mul_nonneg (norm_nonneg _) hτ.1)
    rw [pow_one]
    linarith

/-! ### The difference between a scheme and Euler's method, with the same force -/

/-- One stage: its tendency is close to the tendency at the beginning of the step. -/
theorem stage_close {N : Arr ι → Arr ι} {f : Arr ι} (hf : ∀ i, 0 ≤ (f i).re) {L B R c h : ℝ} (hL : 0 ≤ L)
    (hlip : ∀ x y : Arr ι, ‖x‖ ≤ R → ‖y‖ ≤ R → ‖N x - N y‖ ≤ L * ‖x - y‖) {g a y : Arr ι} (ha : ‖a‖ ≤ R) (hy : ‖y‖ ≤ R)
    (hya : ‖y - a‖ ≤ c * h) (hB : ‖N a + g‖ ≤ B) {d : ℝ} (hd : 0 ≤ d) (hdh : d ≤ h) :
    ‖expLin f ((h - d : ℝ) : ℂ) * (N y + g) - expLin f (h : ℂ) * (N a + g)‖ ≤ (L * c + ‖f‖ * B) * h := by
  have esplit : expLin f (h : ℂ) = expLin f ((h - d : ℝ) : ℂ) * expLin f (d : ℂ) := by
    funext i
    simp only [expLin, Pi.mul_apply, ← Complex.exp_add]
    congr 1
    push_cast
    ring
  have e : expLin f ((h - d : ℝ) : ℂ) * (N y + g) - expLin f (h : ℂ) * (N a + g) =
      expLin f ((h - d : ℝ) : ℂ) * ((N y - N a) - (expLin f (d : ℂ) - 1) * (N a + g)) := by
    rw [esplit]; ring
  rw [e]
  refine (norm_expLin_mul_le hf (by linarith) _).trans ((norm_sub_le _ _).trans ?_)
  have h1 := (hlip y a hy ha).trans (mul_le_mul_of_nonneg_left hya hL)
  have h2 := norm_expLin_sub_one hf hd (N a + g)
  have hfn := norm_nonneg f
  have h3 : ‖f‖ * d * ‖N a + g‖ ≤ ‖f‖ * h * B :=
    mul_le_mul (mul_le_mul_of_nonneg_left hdh hfn) hB (norm_nonneg _) (mul_nonneg hfn (hd.trans hdh))
  linarith

/-- A stage is close to the state at the beginning of the step. -/
theorem stage_near {f : Arr ι} (hf : ∀ i, 0 ≤ (f i).re) {B R h d : ℝ} {a v : Arr ι} (ha : ‖a‖ ≤ R) (hv : ‖v‖ ≤ B) (hd : 0 ≤ d)
    (hdh : d ≤ h) : ‖expLin f (d : ℂ) * a + d • v - a‖ ≤ (‖f‖ * R + B) * h := by
  have e : expLin f (d : ℂ) * a + d • v - a = (expLin f (d : ℂ) - 1) * a + d • v := by ring
  rw [e]
  refine (norm_add_le _ _).trans ?_
  rw [norm_smul_pos hd]
  have h1 := norm_expLin_sub_one hf hd a
  have hfn := norm_nonneg f
  have h2 : ‖f‖ * d * ‖a‖ ≤ ‖f‖ * h * R :=
    mul_le_mul (mul_le_mul_of_nonneg_left hdh hfn) ha (norm_nonneg _) (mul_nonneg hfn (hd.trans hdh))
  have h3 : d * ‖v‖ ≤ h * B := mul_le_mul hdh hv (norm_nonneg _) (hd.trans hdh)
  linarith

theorem stage_in {f : Arr ι} (hf : ∀ i, 0 ≤ (f i).re) {B R h d : ℝ} {a v : Arr ι} (ha : ‖a‖ ≤ R - 1) (hv : ‖v‖ ≤ B) (hd : 0 ≤ d)
    (hdh : d ≤ h) (hB : h * B ≤ 1) : ‖expLin f (d : ℂ) * a + d • v‖ ≤ R := by
  refine (norm_add_le _ _).trans ?_
  rw [norm_smul_pos hd]
  have h1 := norm_expLin_mul_le hf hd a
  have h3 : d * ‖v‖ ≤ h * B := mul_le_mul hdh hv (norm_nonneg _) (hd.trans hdh)
  linarith

/-- With a force kept during the step, the schemes differ from Euler's method by terms of order 2. -/
theorem scheme_close {N : Arr ι → Arr ι} {f : Arr ι} (hf : ∀ i, 0 ≤ (f i).re) {L B R : ℝ} (hL : 0 ≤ L)
    (hB0 : 0 ≤ B) (hlip : ∀ x y : Arr ι, ‖x‖ ≤ R → ‖y‖ ≤ R → ‖N x - N y‖ ≤ L * ‖x - y‖) {g : Arr ι}
    (hbd : ∀ x : Arr ι, ‖x‖ ≤ R → ‖N x + g‖ ≤ B) {sc : Scheme} (hsc : sc ∈ plain) {h : ℝ} (hh : 0 ≤ h)
    (hhB : h * B ≤ 1) (ps pa pb : Arr ι) (H : Heap ι) (ha : ‖H .state‖ ≤ R - 1) :
    ‖timeStepRK sc (fun _ x => N x + g) (h : ℂ) (expLin f (h : ℂ)) (expLin f ((h / 2 : ℝ) : ℂ)) ps pa pb H .state
      - expLin f (h : ℂ) * (H .state + h • (N (H .state) + g))‖ ≤ (L * (‖f‖ * R + B) + ‖f‖ * B) * h ^ 2 := by
  have hR : 0 ≤ R := by linarith [norm_nonneg (H .state)]
  have haR : ‖H .state‖ ≤ R := by linarith
  have hfn := norm_nonneg f
  have hK : 0 ≤ L * (‖f‖ * R + B) + ‖f‖ * B := by positivity
  have h20 : 0 ≤ h / 2 := by linarith
  have h2h : h / 2 ≤ h := by linarith
  have hNa := hbd _ haR
  have hE2 : ∀ x : Arr ι, ‖expLin f ((h / 2 : ℝ) : ℂ) * x‖ ≤ ‖x‖ := norm_expLin_mul_le hf h20
  have hE : ∀ x : Arr ι, ‖expLin f (h : ℂ) * x‖ ≤ ‖x‖ := norm_expLin_mul_le hf hh
  have half : (h - h / 2 : ℝ) = h / 2 := by ring
  have zero : expLin f ((h - h : ℝ) : ℂ) = 1 := by rw [sub_self]; exact expLin_zero' f
  have zero' : expLin f ((h - 0 : ℝ) : ℂ) = expLin f (h : ℂ) := by rw [sub_zero]
  -- a general stage
  have stage : ∀ (d : ℝ) (v : Arr ι), ‖v‖ ≤ B → 0 ≤ d → d ≤ h → ∀ d', 0 ≤ d' → d' ≤ h →
      ‖N (expLin f (d : ℂ) * H .state + d • v) + g‖ ≤ B ∧
      ‖expLin f ((h - d' : ℝ) : ℂ) * (N (expLin f (d : ℂ) * H .state + d • v) + g) - expLin f (h : ℂ) * (N (H .state) + g)‖
        ≤ (L * (‖f‖ * R + B) + ‖f‖ * B) * h := by
    intro d v hv hd hdh d' hd' hdh'
    have hin := stage_in hf ha hv hd hdh hhB
    exact ⟨hbd _ hin, stage_close hf hL hlip haR hin (stage_near hf haR hv hd hdh) hNa hd' hdh'⟩
  simp only [plain, List.mem_cons, List.not_mem_nil, or_false] at hsc
  rcases hsc with rfl | rfl | rfl | rfl
  · rw [form_euler]
    simpa using mul_nonneg hK (sq_nonneg h)
  · rw [form_rk2 (fun x => N x + g)]
    obtain ⟨-, h1⟩ := stage (h / 2) (expLin f ((h / 2 : ℝ) : ℂ) * (N (H .state) + g)) ((hE2 _).trans hNa) h20 h2h (h / 2) h20 h2h
    rw [half] at h1
    have e : expLin f (h : ℂ) * H .state + h • (expLin f ((h / 2 : ℝ) : ℂ) *
          (N (expLin f ((h / 2 : ℝ) : ℂ) * (H .state + (h / 2) • (N (H .state) + g))) + g))
        - expLin f (h : ℂ) * (H .state + h • (N (H .state) + g))
        = h • (expLin f ((h / 2 : ℝ) : ℂ) * (N (expLin f ((h / 2 : ℝ) : ℂ) * H .state + (h / 2) •
            (expLin f ((h / 2 : ℝ) : ℂ) * (N (H .state) + g))) + g) - expLin f (h : ℂ) * (N (H .state) + g)) := by
      rw [mul_add (expLin f ((h / 2 : ℝ) : ℂ)) (H .state), mul_smul_comm, mul_add (expLin f (h : ℂ)) (H .state), mul_smul_comm, smul_sub]
      abel
    rw [e, norm_smul_pos hh]
    have := mul_le_mul_of_nonneg_left h1 hh
    linarith [this]
  · rw [form_trapezoid (fun x => N x + g)]
    obtain ⟨-, h1⟩ := stage h (expLin f (h : ℂ) * (N (H .state) + g)) ((hE _).trans hNa) hh le_rfl h hh le_rfl
    rw [zero, one_mul] at h1
    have e : expLin f (h : ℂ) * (H .state + (h / 2) • (N (H .state) + g)) + (h / 2) •
          (N (expLin f (h : ℂ) * (H .state + h • (N (H .state) + g))) + g)
        - expLin f (h : ℂ) * (H .state + h • (N (H .state) + g))
        = (h / 2) • (N (expLin f (h : ℂ) * H .state + h • (expLin f (h : ℂ) * (N (H .state) + g))) + g
          - expLin f (h : ℂ) * (N (H .state) + g)) := by
      rw [show expLin f (h : ℂ) * (H .state + h • (N (H .state) + g)) = expLin f (h : ℂ) * H .state + h •
        (expLin f (h : ℂ) * (N (H .state) + g)) by rw [mul_add, mul_smul_comm], mul_add, mul_smul_comm, smul_sub]
      module
    rw [e, norm_smul_pos h20]
    have := mul_le_mul_of_nonneg_left h1 h20
    nlinarith [mul_nonneg hK (sq_nonneg h)]
  · rw [form_rk4 (fun x => N x + g)]
    have q0 := (hE2 (N (H .state) + g)).trans hNa
    obtain ⟨b1, h1⟩ := stage (h / 2) _ q0 h20 h2h (h / 2) h20 h2h
    obtain ⟨b2, h2⟩ := stage (h / 2) _ b1 h20 h2h (h / 2) h20 h2h
    obtain ⟨-, h3⟩ := stage h _ ((hE2 _).trans b2) hh le_rfl h hh le_rfl
    rw [half] at h1 h2
    rw [zero, one_mul] at h3
    have e1 : expLin f ((h / 2 : ℝ) : ℂ) * (H .state + (h / 2) • (N (H .state) + g)) = expLin f ((h / 2 : ℝ) : ℂ) * H .state +
        (h / 2) • (expLin f ((h / 2 : ℝ) : ℂ) * (N (H .state) + g)) := by rw [mul_add, mul_smul_comm]
    simp only [e1]
    generalize N (expLin f ((h / 2 : ℝ) : ℂ) * H .state +
        (h / 2) • (expLin f ((h / 2 : ℝ) : ℂ) * (N (H .state) + g))) + g = k1 at h1 h2 h3 ⊢
    generalize N (expLin f ((h / 2 : ℝ) : ℂ) * H .state + (h / 2) • k1) + g = k2 at h2 h3 ⊢
    generalize N (expLin f (h : ℂ) * H .state + h • (expLin f ((h / 2 : ℝ) : ℂ) * k2)) + g = k3 at h3 ⊢
    have e : expLin f (h : ℂ) * H .state + (h / 6) • (expLin f (h : ℂ) * (N (H .state) + g) +
          (2 : ℝ) • (expLin f ((h / 2 : ℝ) : ℂ) * k1) + (2 : ℝ) • (expLin f ((h / 2 : ℝ) : ℂ) * k2) + k3)
        - expLin f (h : ℂ) * (H .state + h • (N (H .state) + g))
        = (h / 3) • (expLin f ((h / 2 : ℝ) : ℂ) * k1 - expLin f (h : ℂ) * (N (H .state) + g)) +
          (h / 3) • (expLin f ((h / 2 : ℝ) : ℂ) * k2 - expLin f (h : ℂ) * (N (H .state) + g)) +
          (h / 6) • (k3 - expLin f (h : ℂ) * (N (H .state) + g)) := by
      rw [mul_add (expLin f (h : ℂ)) (H .state), mul_smul_comm]
      module
    rw [e]
    have n3 := norm_add₃_le (a := (h / 3) • (expLin f ((h / 2 : ℝ) : ℂ) * k1 - expLin f (h : ℂ) * (N (H .state) + g)))
      (b := (h / 3) • (expLin f ((h / 2 : ℝ) : ℂ) * k2 - expLin f (h : ℂ) * (N (H .state) + g)))
      (c := (h / 6) • (k3 - expLin f (h : ℂ) * (N (H .state) + g)))
    rw [norm_smul_pos (by linarith : 0 ≤ h / 3), norm_smul_pos (by linarith : 0 ≤ h / 3),
      norm_smul_pos (by linarith : 0 ≤ h / 6)] at n3
    refine n3.trans ?_
    have m1 := mul_le_mul_of_nonneg_left h1 (by linarith : 0 ≤ h / 3)
    have m2 := mul_le_mul_of_nonneg_left h2 (by linarith : 0 ≤ h / 3)
    have m3 := mul_le_mul_of_nonneg_left h3 (by linarith : 0 ≤ h / 6)
    nlinarith [mul_nonneg hK (sq_nonneg h)]

end Verif.Convergence
