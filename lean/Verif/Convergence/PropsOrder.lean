import Verif.Convergence.Props
import Verif.Convergence.LemmasRK4
import Mathlib.Analysis.Calculus.ContDiff.Operations
import Mathlib.Analysis.Calculus.Deriv.Inv

/-! # C83: the fourth order of RK4; the orders are not larger; examples -/

namespace Verif.Convergence

open Verif Schemes Set

set_option linter.unusedSectionVars false

section

variable {ι : Type*} [Fintype ι] {N : Arr ι → Arr ι} {f : Arr ι} {mask : ι → Bool} {T : ℝ} {s : ℝ → Arr ι}

/-- **C83.** RK4 with an integrating factor: order 4. -/
theorem C83_rk4 (hN : ContDiff ℝ 4 N) (hf : ∀ i, 0 ≤ (f i).re) (hs : Solution N f mask T s)
    (ps pa pb : ℕ → Arr ι) (heap : Heap ι) (g1 g2 : Arr ι) (cfl : Bool) :
    ConvergesWithOrder 4 T s cfl (states .RK4 N f mask ps pa pb heap g1 g2 cfl (s 0)) := by
  obtain ⟨M, K, L, R, B, J⟩ := jet_of hs hf hN
  obtain ⟨C, hC, hloc⟩ := local_rk4 J
  have hL := J.Lpos
  refine converge (c := L * (1 + L) ^ 3) (K := C) (B := B) 4 (by norm_num) (by positivity) hC J.Bpos
    (fun dt => states_zero ..) (fun dt hdt hcst k t h _ hh' hk0 hh hh1 hB hk he => (step_le hs hdt hcst hh' hk0 hh hk).trans ?_)
  rw [form_rk4]
  set a := (simulation .RK4 N f mask ps pa pb heap g1 g2 cfl (s 0) dt k).heap .state with ha
  have hsR := J.sR t ⟨hk0, by linarith⟩
  have haR : ‖a‖ ≤ R - 1 := by
    have := norm_add_le (a - s t) (s t)
    rw [sub_add_cancel] at this
    linarith
  have h1 := stable_rk4 J haR (b := s t) (by linarith) hh.le hh1 hB
  have h2 := hloc t h hk0 hh hh1 hB hk
  change ‖out4 N f h a - s (t + h)‖ ≤ _
  have e : out4 N f h a - s (t + h) =
      (out4 N f h a - out4 N f h (s t)) + (out4 N f h (s t) - s (t + h)) := by abel
  rw [e]
  exact (norm_add_le _ _).trans (add_le_add h1 h2)

end

/-! ### The orders cannot be larger -/

/-- The system `x' = 1`, `y' = x ^ p` (`x` is the component `false`, `y` the component `true`). -/
def powSystem (p : ℕ) (x : Arr Bool) : Arr Bool := fun b => if b then x false ^ p else 1

/-- Its solution from zero. -/
noncomputable def powSolution (p : ℕ) (t : ℝ) : Arr Bool := fun b =>
  if b then ((t ^ (p + 1) / (p + 1) : ℝ) : ℂ) else (t : ℂ)

theorem powSystem_contDiff (p : ℕ) (n : ℕ) : ContDiff ℝ n (powSystem p) := by
  refine contDiff_pi.2 fun b => ?_
  cases b
  · exact contDiff_const
  · have : ContDiff ℝ n (fun x : Arr Bool => x false) := contDiff_apply ℝ ℂ false
    exact this.pow p

theorem powSolution_solution (p : ℕ) (T : ℝ) :
    Solution (powSystem p) 0 (fun _ => false) T (powSolution p) := by
  refine ⟨⟨1, one_pos, fun t _ => ?_⟩, fun t _ i hi => absurd hi (by simp)⟩
  rw [zero_mul, sub_zero]
  refine hasDerivAt_pi.2 fun b => ?_
  cases b
  · exact (hasDerivAt_id t).ofReal_comp
  · have h1 := ((hasDerivAt_pow (p + 1) t).div_const ((p : ℝ) + 1)).ofReal_comp
    refine h1.congr_deriv ?_
    have : (p : ℝ) + 1 ≠ 0 := by positivity
    simp only [powSystem, powSolution, if_true, Bool.false_eq_true, if_false]
    rw [← Complex.ofReal_pow]
    congr 1
    push_cast
    field_simp

theorem expLin_of_zero (t : ℂ) : expLin (0 : Arr Bool) t = 1 := by
  funext i; simp [expLin]

theorem elapsed_const (h : ℝ) (k : ℕ) : elapsed (fun _ => h) k = k * h := by
  simp [elapsed]

/-- If the error at the time 1 is `h ^ p / c`, the order is not larger than `p`. -/
theorem not_order {s : ℝ → Arr Bool} {cfl : Bool} {u : (ℕ → ℝ) → ℕ → Arr Bool} {p : ℕ} {c : ℝ} (hc : c ≠ 0)
    (herr : ∀ (h : ℝ) (k : ℕ), 0 < h → u (fun _ => h) k true - s (k * h) true = ((k * h ^ (p + 1) / c : ℝ) : ℂ)) :
    ¬ ConvergesWithOrder (p + 1) 1 s cfl u := by
  rintro ⟨C, h0, hh0, hC⟩
  obtain ⟨k, hk⟩ := exists_nat_gt (max (1 / h0) (C * |c|))
  have hk1 : 1 / h0 < k := lt_of_le_of_lt (le_max_left _ _) hk
  have hk2 : C * |c| < k := lt_of_le_of_lt (le_max_right _ _) hk
  have hk0 : (0 : ℝ) < k := lt_trans (by positivity) hk1
  have hh : (1 : ℝ) / k ≤ h0 := by
    rw [div_le_iff₀ hk0]
    rw [div_lt_iff₀ hh0] at hk1
    linarith
  have h1 := hC (1 / k) (fun _ => 1 / k) hh (fun _ => ⟨by positivity, le_rfl⟩) (fun _ _ => rfl) k
    (by rw [elapsed_const, mul_one_div_cancel hk0.ne'])
  rw [elapsed_const] at h1
  have h2 := (norm_le_pi_norm (u (fun _ => 1 / k) k - s (k * (1 / k))) true).trans h1
  rw [Pi.sub_apply, herr _ _ (by positivity), Complex.norm_real, Real.norm_eq_abs, abs_div,
    abs_of_nonneg (by positivity)] at h2
  have hcp : 0 < |c| := abs_pos.2 hc
  have h3 : (k : ℝ) * (1 / k) ^ (p + 1) / |c| ≤ C * (1 / k) ^ (p + 1) := h2
  rw [div_le_iff₀ hcp] at h3
  have h4 : 0 < ((1 : ℝ) / k) ^ (p + 1) := by positivity
  nlinarith

/-- The states computed for this system. -/
theorem pow_states (sc : Scheme) (p : ℕ) (c : ℝ) (ps pa pb : ℕ → Arr Bool) (heap : Heap Bool)
    (g1 g2 : Arr Bool) (cfl : Bool)
    (hstep : ∀ (h x y : ℝ) (ps pa pb : Arr Bool) (H : Heap Bool),
      H .state = (fun b => if b then (y : ℂ) else (x : ℂ)) →
      timeStepRK sc (fun _ => powSystem p) (h : ℂ) 1 1 ps pa pb H .state =
        fun b => if b then ((y + ((x + h) ^ (p + 1) - x ^ (p + 1)) / (p + 1) + h ^ (p + 1) / c : ℝ) : ℂ)
          else ((x + h : ℝ) : ℂ)) (h : ℝ) (hh : 0 < h) (k : ℕ) :
    states sc (powSystem p) 0 (fun _ => false) ps pa pb heap g1 g2 cfl (powSolution p 0) (fun _ => h) k =
      fun b => if b then (((k * h) ^ (p + 1) / (p + 1) + k * h ^ (p + 1) / c : ℝ) : ℂ) else ((k * h : ℝ) : ℂ) := by
  induction k with
  | zero =>
    rw [states_zero]
    funext b
    cases b <;> simp [powSolution]
  | succ k ih =>
    rw [states, simulation_succ _ _ _ _ _ _ _ _ _ _ _ _ _ (fun _ => hh) (fun _ _ => rfl)]
    simp only [Bool.false_eq_true, if_false, expLin_of_zero]
    rw [hstep h (k * h) ((k * h) ^ (p + 1) / (p + 1) + k * h ^ (p + 1) / c) _ _ _ _ ih]
    funext b
    cases b
    · simp only [Bool.false_eq_true, if_false]; push_cast; ring
    · simp only [if_true]
      congr 1
      push_cast
      rw [show (k : ℝ) * h + h = (k + 1) * h by ring]
      ring

theorem pow_not_order (sc : Scheme) (p : ℕ) (c : ℝ) (hc : c ≠ 0) (ps pa pb : ℕ → Arr Bool)
    (heap : Heap Bool) (g1 g2 : Arr Bool) (cfl : Bool)
    (hstep : ∀ (h x y : ℝ) (ps pa pb : Arr Bool) (H : Heap Bool),
      H .state = (fun b => if b then (y : ℂ) else (x : ℂ)) →
      timeStepRK sc (fun _ => powSystem p) (h : ℂ) 1 1 ps pa pb H .state =
        fun b => if b then ((y + ((x + h) ^ (p + 1) - x ^ (p + 1)) / (p + 1) + h ^ (p + 1) / c : ℝ) : ℂ)
          else ((x + h : ℝ) : ℂ)) :
    ¬ ConvergesWithOrder (p + 1) 1 (powSolution p) cfl
      (states sc (powSystem p) 0 (fun _ => false) ps pa pb heap g1 g2 cfl (powSolution p 0)) := by
  refine not_order hc fun h k hh => ?_
  rw [pow_states sc p c ps pa pb heap g1 g2 cfl hstep h hh]
  simp only [powSolution, if_true]
  rw [← Complex.ofReal_sub]
  congr 1
  ring

/-- **C83.** The orders are exact: there are smooth systems whose states, computed with Euler, RK2, RK2_trapezoid and
RK4, do not converge with the orders 2, 3, 3 and 5. -/
theorem C83_orders_sharp (ps pa pb : ℕ → Arr Bool) (heap : Heap Bool) (g1 g2 : Arr Bool) (cfl : Bool) :
    ∀ c ∈ [(Scheme.Euler, 1), (.RK2, 2), (.RK2_trapezoid, 2), (.RK4, 4)],
      ∃ (N : Arr Bool → Arr Bool) (s : ℝ → Arr Bool), (∀ n : ℕ, ContDiff ℝ n N) ∧ Solution N 0 (fun _ => false) 1 s ∧
        ¬ ConvergesWithOrder (c.2 + 1) 1 s cfl
          (states c.1 N 0 (fun _ => false) ps pa pb heap g1 g2 cfl (s 0)) := by
  intro c hc
  refine ⟨powSystem c.2, powSolution c.2, powSystem_contDiff _, powSolution_solution _ _, ?_⟩
  simp only [List.mem_cons, List.not_mem_nil, or_false] at hc
  rcases hc with rfl | rfl | rfl | rfl
  · refine pow_not_order .Euler 1 (-2) (by norm_num) ps pa pb heap g1 g2 cfl fun h x y ps pa pb H hH => ?_
    rw [form_euler, hH]
    funext b
    cases b
    · simp [powSystem]
    · simp [powSystem]; ring
  · refine pow_not_order .RK2 2 (-12) (by norm_num) ps pa pb heap g1 g2 cfl fun h x y ps pa pb H hH => ?_
    rw [form_rk2, hH]
    funext b
    cases b
    · simp [powSystem]
    · simp [powSystem]; ring
  · refine pow_not_order .RK2_trapezoid 2 6 (by norm_num) ps pa pb heap g1 g2 cfl
      fun h x y ps pa pb H hH => ?_
    rw [form_trapezoid, hH]
    funext b
    cases b
    · simp [powSystem]; ring
    · simp [powSystem]; ring
  · refine pow_not_order .RK4 4 120 (by norm_num) ps pa pb heap g1 g2 cfl
      fun h x y ps pa pb H hH => ?_
    rw [form_rk4, hH]
    funext b
    cases b
    · simp [powSystem]; ring
    · simp [powSystem]; ring

/-! ### Aliasing and the order of RK2_phaseshift -/

/-- **C83.** With aliasing, RK2_phaseshift cancels the aliasing only up to the time step: there are tendencies for which
the aliasing is removed by the mean over the two shifts, but the states computed do not converge with the order 2 to the
solution without aliasing (those of RK2_phaseshift_exact do, `C83_phaseshift_exact`). -/
theorem C83_phaseshift_aliasing_sharp (pa pb : ℕ → Arr Bool) (heap : Heap Bool) (g1 g2 : Arr Bool) (cfl : Bool) :
    ∃ (N Nt : Arr Bool → Arr Bool) (s : ℝ → Arr Bool) (ps : ℕ → Arr Bool),
      (∀ n : ℕ, ContDiff ℝ n N ∧ ContDiff ℝ n Nt) ∧ Solution Nt 0 (fun _ => false) 1 s ∧ (∀ k i, ‖ps k i‖ = 1) ∧
      (∀ k x, (1 / 2 : ℂ) • (N x + N (ps k * x) / ps k) = Nt x) ∧
      ¬ ConvergesWithOrder 2 1 s cfl (states .RK2_phaseshift N 0 (fun _ => false) ps pa pb heap g1 g2 cfl (s 0)) := by
  refine ⟨powSystem 1, fun _ b => if b then 0 else 1, fun t b => if b then 0 else (t : ℂ),
    fun _ b => if b then -1 else 1, fun n => ⟨powSystem_contDiff 1 n, contDiff_const⟩,
    ⟨⟨1, one_pos, fun t _ => ?_⟩, fun t _ i hi => absurd hi (by simp)⟩, fun k i => by cases i <;> simp, fun k x => ?_, ?_⟩
  · rw [zero_mul, sub_zero]
    refine hasDerivAt_pi.2 fun b => ?_
    cases b
    · exact (hasDerivAt_id t).ofReal_comp
    · exact hasDerivAt_const t (0 : ℂ)
  · funext b
    cases b
    · simp [powSystem]; norm_num
    · simp [powSystem, div_neg]
  · refine not_order (c := -2) (p := 1) (by norm_num) fun h k hh => ?_
    have key : states .RK2_phaseshift (powSystem 1) 0 (fun _ => false) (fun _ b => if b then -1 else 1) pa pb heap g1 g2
        cfl (fun b => if b then 0 else ((0 : ℝ) : ℂ)) (fun _ => h) k =
        fun b => if b then ((k * h ^ 2 / (-2) : ℝ) : ℂ) else ((k * h : ℝ) : ℂ) := by
      induction k with
      | zero =>
        rw [states_zero]
        funext b
        cases b <;> simp
      | succ k ih =>
        rw [states, simulation_succ _ _ _ _ _ _ _ _ _ _ _ _ _ (fun _ => hh) (fun _ _ => rfl)]
        simp only [Bool.false_eq_true, if_false, expLin_of_zero]
        rw [states] at ih
        rw [form_rk2_ps, ih]
        funext b
        cases b
        · simp [powSystem, shifted]; ring
        · simp [powSystem, shifted]; ring
    rw [key]
    simp

/-! ### A nonlinear example with a linear term and a truncated mode -/

/-- `x' = - x + x ^ 2` and a truncated mode. -/
def logistic (x : Arr Bool) : Arr Bool := fun b => if b then 0 else x false ^ 2

/-- A solution. -/
noncomputable def logisticSolution (t : ℝ) : Arr Bool := fun b => if b then 0 else ((1 / (1 + Real.exp t) : ℝ) : ℂ)

theorem logistic_solution : Solution logistic 1 (fun b => b) 2 logisticSolution := by
  refine ⟨⟨1, one_pos, fun t _ => hasDerivAt_pi.2 fun b => ?_⟩, fun t _ i hi => if_pos hi⟩
  cases b
  · have h1 : HasDerivAt (fun t : ℝ => 1 + Real.exp t) (Real.exp t) t := (Real.hasDerivAt_exp t).const_add 1
    have hne : 1 + Real.exp t ≠ 0 := by positivity
    have h2 := ((hasDerivAt_const t (1 : ℝ)).div h1 hne).ofReal_comp
    refine h2.congr_deriv ?_
    simp only [logistic, logisticSolution, Pi.sub_apply, Pi.mul_apply, Pi.one_apply, one_mul, Bool.false_eq_true, if_false]
    rw [← Complex.ofReal_pow, ← Complex.ofReal_sub]
    congr 1
    field_simp
    ring
  · refine (hasDerivAt_const t (0 : ℂ)).congr_deriv ?_
    simp [logistic, logisticSolution]

theorem logistic_contDiff (n : ℕ) : ContDiff ℝ n logistic := by
  refine contDiff_pi.2 fun b => ?_
  cases b
  · have : ContDiff ℝ n (fun x : Arr Bool => x false) := contDiff_apply ℝ ℂ false
    exact this.pow 2
  · exact contDiff_const

/-- The hypotheses of the theorems of convergence are met by this example. -/
example (ps pa pb : ℕ → Arr Bool) (heap : Heap Bool) (g1 g2 : Arr Bool) (cfl : Bool) :
    ConvergesWithOrder 1 2 logisticSolution cfl (states .Euler logistic 1 (fun b => b) ps pa pb heap g1 g2 cfl
      (logisticSolution 0)) ∧
    ConvergesWithOrder 2 2 logisticSolution cfl (states .RK2 logistic 1 (fun b => b) ps pa pb heap g1 g2 cfl
      (logisticSolution 0)) ∧
    ConvergesWithOrder 2 2 logisticSolution cfl (states .RK2_trapezoid logistic 1 (fun b => b) ps pa pb heap g1 g2 cfl
      (logisticSolution 0)) ∧
    ConvergesWithOrder 4 2 logisticSolution cfl (states .RK4 logistic 1 (fun b => b) ps pa pb heap g1 g2 cfl
      (logisticSolution 0)) :=
  ⟨C83_euler (by exact_mod_cast logistic_contDiff 1) (fun i => by simp) logistic_solution ps pa pb heap g1 g2 cfl,
    C83_rk2 (by exact_mod_cast logistic_contDiff 2) (fun i => by simp) logistic_solution ps pa pb heap g1 g2 cfl,
    C83_rk2_trapezoid (by exact_mod_cast logistic_contDiff 2) (fun i => by simp) logistic_solution ps pa pb heap g1 g2 cfl,
    C83_rk4 (by exact_mod_cast logistic_contDiff 4) (fun i => by simp) logistic_solution ps pa pb heap g1 g2 cfl⟩

/-- Shifts for which the tendencies of this example are averaged: the schemes with phase shifts. -/
example (heap : Heap Bool) (g1 g2 : Arr Bool) (cfl : Bool) :
    ConvergesWithOrder 2 2 logisticSolution cfl (states .RK2_phaseshift_exact logistic 1 (fun b => b) (fun _ => 1) (fun _ => 1) (fun _ => 1)
      heap g1 g2 cfl
      (logisticSolution 0)) ∧
    ConvergesWithOrder 2 2 logisticSolution cfl (states .RK2_phaseshift_random logistic 1 (fun b => b) (fun _ => 1) (fun _ => 1)
      (fun _ => 1) heap g1 g2 cfl
      (logisticSolution 0)) :=
  ⟨C83_phaseshift_exact (by exact_mod_cast logistic_contDiff 2) (fun i => by simp) logistic_solution _ _ _ heap g1 g2 cfl
    (fun k x => by funext b; simp; ring),
   C83_phaseshift_no_aliasing (by exact_mod_cast logistic_contDiff 2) (fun i => by simp) logistic_solution _ _ _ heap
    g1 g2 cfl .RK2_phaseshift_random (.inr ⟨rfl, fun k x => by constructor <;> funext b <;> simp⟩)⟩

end Verif.Convergence
