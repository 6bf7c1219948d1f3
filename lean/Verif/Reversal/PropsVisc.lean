import Verif.Reversal.LemmasRev

/-! # C106: the viscosity must be zero -/

namespace Verif.Reversal

open Verif.Fourier Verif.Vectors Verif.Energy Verif.Galerkin Verif.Schemes Verif.EndToEnd Verif.Convergence Finset

noncomputable section

/-- Without tendencies the schemes are exact. -/
theorem states_zero {ι : Type*} [Fintype ι] {N : Arr ι → Arr ι} (hN : ∀ a, N a = 0) (f : Arr ι) {mask : ι → Bool} (hm : ∀ i, mask i = false)
    {c : Scheme × ℕ} (hc : c ∈ orders) (ps pa pb : ℕ → Arr ι) (heap : Heap ι) (g1 g2 : Arr ι) (cfl : Bool) (u0 : Arr ι) {dt : ℕ → ℝ}
    (hdt : ∀ k, 0 < dt k) (hcst : cfl = false → ∀ k, dt k = dt 0) (k : ℕ) :
    states c.1 N f mask ps pa pb heap g1 g2 cfl u0 dt k = expLin f (elapsed dt k : ℂ) * u0 := by
  induction k with
  | zero =>
    funext i
    simp [states, simulation, elapsed, expLin]
  | succ k ih =>
    have hco := simulation_coefs c.1 N f mask ps pa pb heap g1 g2 cfl u0 dt hdt hcst k
    have hst : ∀ (E E2 : Arr ι) (H : Heap ι), timeStepRK c.1 (fun _ => N) (dt k : ℂ) E E2 (ps k) (pa k) (pb k) H .state = E * H .state := by
      intro E E2 H
      simp only [orders, List.mem_cons, List.not_mem_nil, or_false] at hc
      rcases hc with rfl | rfl | rfl | rfl
      · rw [form_euler, hN]; simp
      · rw [form_rk2]; simp [hN]
      · rw [form_trapezoid]; simp [hN]
      · rw [form_rk4]; simp [hN]
    simp only [states] at ih
    simp only [states, simulation, Schemes.oneStep, Schemes.dealias, hco, set_same, hst, ih, hm, Bool.false_eq_true, if_false]
    funext i
    simp only [Pi.mul_apply, expLin, elapsed, sum_range_succ]
    rw [← mul_assoc, ← Complex.exp_add]
    push_cast
    congr 2
    ring

/-- The modes of `cos x`. -/
def pair : Finset (Fin 2 → ℤ) := {![1, 0], ![-1, 0]}

theorem pair_noAlias : NoAlias (fun _ : Fin 2 => 4) pair := by
  have hsub : pair ⊆ EndToEnd.box := by decide
  exact ⟨fun p hp q hq k hk h => box_noAlias.sum p (hsub hp) q (hsub hq) k (hsub hk) h,
    fun p hp q hq h => box_noAlias.distinct p (hsub hp) q (hsub hq) h⟩

theorem pair_tend (u : Unit → Fld (Fin 2)) (v : Unit) (k : Fin 2 → ℤ) : tend2d (fun _ => 4) pair (fun _ => 1) 0 u v k = 0 := by
  by_cases hk : k ∈ pair
  · rw [tend2d, C57_ns2d (fun _ => by norm_num) pair_noAlias (fun _ => one_ne_zero) 0 (velocity2_ux2 (fun _ => one_ne_zero) (u ())) hk]
    have : ∀ a b : Fld (Fin 2), exactProduct pair a b k = 0 := by
      intro a b
      refine sum_eq_zero fun p hp => sum_eq_zero fun q hq => if_neg fun h => ?_
      have h0 := congrFun h 0
      simp only [pair, mem_insert, mem_singleton] at hp hq hk
      rcases hp with rfl | rfl <;> rcases hq with rfl | rfl <;> rcases hk with rfl | rfl <;> simp at h0
    simp [advect, this]
  · simp [tend2d, ns2d, hk]

/-- C106: with a viscosity the simulations do not return to the initial state. For the flow of vorticity `cos x`, whatever the scheme, the
distance to the initial state does not tend to zero with the time step (the final state is the initial state multiplied by
`exp(-2 (ν2 + ν4 + ν8) T)`). -/
theorem C106_viscosity_needed {nu : Dissip.Nu} (hnu : Nu.Ok nu) (h2 : 0 < nu.nu2) {c : Scheme × ℕ} (hc : c ∈ orders)
    (ps pa pb ps' pa' pb' : ℕ → Arr (Unit × pair)) (heap heap' : Heap (Unit × pair)) (g1 g2 g1' g2' : Arr (Unit × pair)) (cfl : Bool)
    {T : ℝ} (hT : 0 < T) :
    ¬ Returns c.2 T cfl (flipArr fun _ => -1)
      (states c.1 (onArrays pair (tend2d (fun _ => 4) pair (fun _ => 1) 0)) (freqDiss pair (fun _ => 1) nu) (truncated pair pair) ps pa pb
        heap g1 g2 cfl)
      (states c.1 (onArrays pair (tend2d (fun _ => 4) pair (fun _ => 1) 0)) (freqDiss pair (fun _ => 1) nu) (truncated pair pair) ps' pa' pb'
        heap' g1' g2' cfl)
      (array pair fun _ => fun k => if k ∈ pair then 1 else 0) := by
  rintro ⟨C, h0, hp, h⟩
  have hN : ∀ a, onArrays pair (tend2d (fun _ => 4) pair (fun _ => 1) 0) a = 0 := fun a => by
    funext i
    exact pair_tend (fields pair a) i.1 i.2.1
  have hm : ∀ i : Unit × pair, truncated pair pair i = false := fun i => by simp [truncated]
  have hk : ![1, 0] ∈ pair := by simp [pair]
  let i : Unit × pair := ((), ⟨![1, 0], hk⟩)
  let g : ℝ := Dissip.fd nu (waveSq (fun _ => 1) ![1, 0])
  have hg : 0 < g := by
    have : g = nu.nu2 + nu.nu4 + nu.nu8 := by
      simp only [g, fd_eq hnu]
      simp [waveSq]
    rw [this]
    linarith [hnu.2.1, hnu.2.2.1]
  let d : ℝ := 1 - Real.exp (-(2 * g * T))
  have hd : 0 < d := by
    have : Real.exp (-(2 * g * T)) < 1 := Real.exp_zero ▸ Real.exp_lt_exp.2 (by have := mul_pos hg hT; linarith)
    simp only [d]; linarith
  have key : ∀ m : ℕ, 0 < m → T / m ≤ h0 → d ≤ C * (T / m) ^ c.2 := by
    intro m hm0 hle
    have hm' : (0 : ℝ) < m := by exact_mod_cast hm0
    have hdt : ∀ k : ℕ, 0 < (fun _ : ℕ => T / m) k := fun _ => by positivity
    have hel : elapsed (fun _ => T / m) m = T := by
      simp [elapsed]
      field_simp
    have := h (T / m) (fun _ => T / m) (fun _ => T / m) hle (fun k => ⟨hdt k, le_rfl⟩) (fun k => ⟨hdt k, le_rfl⟩)
      (fun _ => ⟨fun _ => rfl, fun _ => rfl⟩) m m hel hel
    rw [states_zero hN _ hm hc _ _ _ _ _ _ _ _ hdt (fun _ _ => rfl), states_zero hN _ hm hc _ _ _ _ _ _ _ _ hdt (fun _ _ => rfl), hel] at this
    refine le_trans ?_ ((norm_le_pi_norm _ i).trans this)
    have e : (flipArr (fun _ : Unit => -1) (expLin (freqDiss pair (fun _ => 1) nu) (T : ℂ) * flipArr (fun _ : Unit => -1)
        (expLin (freqDiss pair (fun _ => 1) nu) (T : ℂ) * array pair fun (_ : Unit) k => if k ∈ pair then 1 else 0))
        - array pair fun (_ : Unit) k => if k ∈ pair then 1 else 0 : Arr (Unit × pair)) i = ((-d : ℝ) : ℂ) := by
      simp only [Pi.sub_apply, flipArr, Pi.mul_apply, expLin, array, freqDiss, i, hk, if_true, d]
      change ((-1 : ℝ) : ℂ) * (Complex.exp (-T * (g : ℂ)) * (((-1 : ℝ) : ℂ) * (Complex.exp (-T * (g : ℂ)) * 1))) - 1 = _
      push_cast
      have e2 : Complex.exp (-(2 * (g : ℂ) * T)) = Complex.exp (-T * g) * Complex.exp (-T * g) := by
        rw [← Complex.exp_add]
        congr 1
        ring
      rw [e2]
      ring
    rw [e, Complex.norm_real, Real.norm_eq_abs, abs_neg]
    exact le_abs_self d
  obtain ⟨m, hm1⟩ := exists_nat_gt (max (T / h0) (max T (|C| * T / d)))
  have hmT : T < m := (le_max_left _ _).trans (le_max_right _ _) |>.trans_lt hm1
  have hm' : (0 : ℝ) < m := hT.trans hmT
  have hle : T / m ≤ h0 := by
    have := (le_max_left (T / h0) _).trans_lt hm1
    rw [div_lt_iff₀ hp] at this
    rw [div_le_iff₀ hm']
    linarith
  have h1 := key m (by exact_mod_cast hm') hle
  have hx : T / m ≤ 1 := by rw [div_le_one hm']; exact hmT.le
  have hx0 : 0 ≤ T / m := by positivity
  have h3 : (T / m) ^ c.2 ≤ T / m := by
    calc (T / m) ^ c.2 ≤ (T / m) ^ 1 := pow_le_pow_of_le_one hx0 hx (order_pos hc)
      _ = T / m := pow_one _
  have h4 : C * (T / m) ^ c.2 ≤ |C| * (T / m) :=
    (mul_le_mul_of_nonneg_right (le_abs_self C) (by positivity)).trans (mul_le_mul_of_nonneg_left h3 (abs_nonneg C))
  have h5 : |C| * (T / m) < d := by
    have := (le_max_right _ _).trans (le_max_right _ _) |>.trans_lt hm1
    rw [div_lt_iff₀ hd] at this
    rw [← mul_div_assoc, div_lt_iff₀ hm']
    linarith
  linarith

end

end Verif.Reversal
