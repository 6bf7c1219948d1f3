import Verif.Sphere.Lemmas
import Verif.Schemes.Props

/-! # Lemmas for the operators and the runs on the sphere -/

namespace Verif.Sphere

noncomputable section

open MvPolynomial

theorem turn_L (f : Fn) (k : Fin 3) :
    turn (fun j => L j f) k = X k * (∑ j, X j * pderiv j f) - (∑ j, X j ^ 2) * pderiv k f := by
  fin_cases k <;>
    simp only [turn, Fin.sum_univ_three, L_apply, Fin.zero_eta, Fin.mk_one, Fin.reduceFinMk, f01,
      f02, f11, f12, f21, f22] <;>
    ring

theorem sum_L_grad (f : Fn) : ∑ k, L k (pderiv k f) = 0 := by
  simp only [Fin.sum_univ_three, L_apply, f01, f02, f11, f12, f21, f22]
  rw [pderiv_comm 1 0 f, pderiv_comm 2 0 f, pderiv_comm 2 1 f]
  ring

theorem sum_L_radial (f : Fn) : ∑ k, L k (X k * f) = 0 := by
  have h : ∀ k : Fin 3, L k (X k) = 0 := by
    intro k
    rw [L_apply]
    fin_cases k <;> simp [pderiv_X, Pi.single_apply, f11, f12, f21, f22]
  simp only [L_mul, h, mul_zero, add_zero, radial]

theorem sum_L_turn_L (f : Fn) : ∑ k, L k (turn (fun j => L j f) k) = 0 := by
  simp only [turn_L, map_sub, Finset.sum_sub_distrib, sum_L_radial, L_r2, ← Finset.mul_sum,
    sum_L_grad]
  ring

theorem turn_grad (f : Fn) (k : Fin 3) : turn (fun j => pderiv j f) k = L k f := by
  rw [L_apply]; rfl

theorem turn_radial (f : Fn) (k : Fin 3) : turn (fun j => X j * f) k = 0 := by
  simp only [turn]; ring

variable {I : Type} [Fintype I] {o : Oper I}

theorem mean_C_mul (mean : Fn →ₗ[ℂ] ℂ) (c : ℂ) (f : Fn) : mean (C c * f) = c * mean f := by
  rw [← smul_eq_C_mul, map_smul, smul_eq_mul]

theorem mean_mul_C_mul (mean : Fn →ₗ[ℂ] ℂ) (c : ℂ) (f g : Fn) :
    mean (g * (C c * f)) = c * mean (g * f) := by
  rw [← mean_C_mul]; congr 1; ring

theorem sht_isht (h : IsSphere o) (a : I → ℂ) : o.sht (o.isht a) = a := by
  classical
  funext i
  rw [Oper.sht, Oper.isht, Finset.mul_sum, map_sum, Finset.sum_eq_single i]
  · rw [mean_mul_C_mul, h.ortho, mul_one]
  · intro j _ hj; rw [mean_mul_C_mul, h.ortho' i j (Ne.symm hj), mul_zero]
  · intro hi; exact absurd (Finset.mem_univ i) hi

theorem mean_isht (o : Oper I) (a : I → ℂ) (f : Fn) :
    o.mean (o.isht a * f) = ∑ i, a i * o.sht f i := by
  rw [Oper.isht, Finset.sum_mul, map_sum]
  refine Finset.sum_congr rfl fun i _ => ?_
  rw [Oper.sht, mul_assoc, mean_C_mul]

theorem L_isht (o : Oper I) (k : Fin 3) (a : I → ℂ) :
    L k (o.isht a) = ∑ i, C (a i) * L k (o.Y i) := by
  rw [Oper.isht, map_sum]
  exact Finset.sum_congr rfl fun i _ => L_C_mul _ _ _

theorem lap_sum {J : Type} (s : Finset J) (f : J → Fn) : lap (∑ i ∈ s, f i) = ∑ i ∈ s, lap (f i) := by
  simp only [lap, map_sum]
  exact Finset.sum_comm

theorem lap_C_mul (c : ℂ) (f : Fn) : lap (C c * f) = C c * lap f := by
  simp only [lap, L_C_mul, Finset.mul_sum]

theorem lap_isht (h : IsSphere o) (a : I → ℂ) :
    lap (o.isht a) = o.isht fun i => -((o.l i * (o.l i + 1) : ℕ) : ℂ) * a i := by
  rw [Oper.isht, lap_sum]
  refine Finset.sum_congr rfl fun i _ => ?_
  rw [lap_C_mul, lap_harmonic (h.harm i), ← C_neg, ← mul_assoc, ← C_mul, mul_comm (a i)]

theorem sht_lap (h : IsSphere o) (f : Fn) (i : I) :
    o.sht (lap f) i = -((o.l i * (o.l i + 1) : ℕ) : ℂ) * o.sht f i := by
  rw [Oper.sht, mean_lap h.mean, lap_harmonic (h.harm i), ← C_neg, mul_assoc, mean_C_mul]
  rfl

theorem sht_C_mul (o : Oper I) (c : ℂ) (f : Fn) (i : I) :
    o.sht (C c * f) i = c * o.sht f i := mean_mul_C_mul _ _ _ _

theorem sht_sub (o : Oper I) (f g : Fn) (i : I) : o.sht (f - g) i = o.sht f i - o.sht g i := by
  simp only [Oper.sht, mul_sub, map_sub]

theorem sht_add (o : Oper I) (f g : Fn) (i : I) : o.sht (f + g) i = o.sht f i + o.sht g i := by
  simp only [Oper.sht, mul_add, map_add]

theorem radius_ne (h : IsSphere o) : (o.radius : ℂ) ≠ 0 := by
  exact_mod_cast h.radius

/-- `K2` times the potential. -/
theorem potential_mul (h : IsSphere o) (f : I → ℂ) (i : I) :
    1 / (o.radius : ℂ) * (1 / (o.radius : ℂ) *
      (-((o.l i * (o.l i + 1) : ℕ) : ℂ) * o.potential f i))
      = if o.l i = 0 then 0 else f i := by
  have hr := radius_ne h
  split_ifs with hl
  · simp [hl]
  · have : ((o.l i * (o.l i + 1) : ℕ) : ℂ) ≠ 0 := by
      exact_mod_cast Nat.mul_ne_zero hl (Nat.succ_ne_zero _)
    simp only [Oper.potential, Oper.K2]
    generalize ((o.l i * (o.l i + 1) : ℕ) : ℂ) = n at *
    field_simp

theorem harmonic_zero {Y : Fn} (h : IsHarmonic 0 Y) : ∃ c, Y = C c := by
  have := h.hom
  rw [← totalDegree_zero_iff_isHomogeneous, totalDegree_eq_zero_iff_eq_C] at this
  exact ⟨_, this⟩

theorem harmonic_one {Y : Fn} (h : IsHarmonic 1 Y) : ∃ c : Fin 3 → ℂ, Y = ∑ k, C (c k) * X k := by
  have hk : ∀ k, ∃ c, pderiv k Y = C c := by
    intro k
    have := h.hom.pderiv (i := k)
    rw [Nat.sub_self, ← totalDegree_zero_iff_isHomogeneous, totalDegree_eq_zero_iff_eq_C] at this
    exact ⟨_, this⟩
  choose c hc using hk
  refine ⟨c, ?_⟩
  have := h.hom.sum_X_mul_pderiv
  rw [one_smul] at this
  rw [← this]
  exact Finset.sum_congr rfl fun k _ => by rw [hc, mul_comm]

/-- The rotation of the vorticity is the rotation of the Laplacian of the stream function. -/
theorem L_vort (h : IsSphere o) (rot : I → ℂ) (k : Fin 3) :
    L k (o.isht rot)
      = C (1 / (o.radius : ℂ) * (1 / (o.radius : ℂ))) * L k (lap (o.isht (o.potential rot))) := by
  rw [lap_isht h, L_isht, L_isht, Finset.mul_sum]
  refine Finset.sum_congr rfl fun i _ => ?_
  rw [← mul_assoc, ← C_mul, mul_assoc, potential_mul h]
  split_ifs with hl
  · have := h.harm i
    rw [hl] at this
    obtain ⟨c, hc⟩ := harmonic_zero this
    rw [hc, L_C]; ring
  · rfl

/-- The tendency of ns2d is minus the Jacobian. -/
theorem ns2d_jac (h : IsSphere o) (rot : I → ℂ) (i : I) :
    o.ns2d rot i = -(1 / (o.radius : ℂ) * (1 / (o.radius : ℂ))) *
      o.mean (o.Y i * jac (o.isht (o.potential rot)) (o.isht rot)) := by
  have e : Oper.frotNs2d (o.vecFromRotsh rot) (o.gradf (o.isht rot))
      = C (-(1 / (o.radius : ℂ) * (1 / (o.radius : ℂ)))) *
        ((∑ j, X j ^ 2) * jac (o.isht (o.potential rot)) (o.isht rot)) := by
    have hr := radial (o.isht (o.potential rot))
    simp only [Oper.frotNs2d, dot, Oper.vecFromRotsh, Oper.gradf, turn_L, jac, C_neg, C_mul]
    simp only [Fin.sum_univ_three] at *
    linear_combination (C (1 / (o.radius : ℂ)) * C (1 / (o.radius : ℂ))
      * (X 0 * pderiv 0 (o.isht rot) + X 1 * pderiv 1 (o.isht rot) + X 2 * pderiv 2 (o.isht rot)))
      * hr
  rw [Oper.ns2d, e, sht_C_mul, Oper.sht, mul_left_comm, h.mean.unit]

/-- The tendency of the circulation and of the angular momentum vanish. -/
theorem ns2d_low (h : IsSphere o) (rot : I → ℂ) (i : I) (hl : o.l i ≤ 1) : o.ns2d rot i = 0 := by
  rw [ns2d_jac h]
  have hm := h.mean
  obtain hl | hl : o.l i = 0 ∨ o.l i = 1 := by omega
  · have := h.harm i
    rw [hl] at this
    obtain ⟨c, hc⟩ := harmonic_zero this
    rw [hc, mean_C_mul, mean_jac hm]; ring
  · have := h.harm i
    rw [hl] at this
    obtain ⟨c, hc⟩ := harmonic_one this
    rw [hc, Finset.sum_mul, map_sum, Finset.sum_eq_zero, mul_zero]
    intro k _
    rw [mul_assoc, mean_C_mul]
    set ψ := o.isht (o.potential rot) with hψ
    have h1 : o.mean (X k * jac ψ (o.isht rot)) = o.mean (ψ * L k (o.isht rot)) := by
      have h2 := mean_jac hm (o.isht rot) (X k * ψ)
      rw [jac_mul, map_add] at h2
      have h3 : jac (o.isht rot) (X k) = L k (o.isht rot) := by
        simp only [jac, pderiv_X, Pi.single_apply, mul_ite, mul_one, mul_zero]
        simp
      rw [h3] at h2
      rw [jac_anti, mul_neg, map_neg]
      exact (eq_neg_of_add_eq_zero_right h2).symm
    have h4 : o.mean (ψ * L k (lap ψ)) = 0 := by
      have a1 : o.mean (ψ * L k (lap ψ)) = o.mean (lap ψ * L k ψ) := by
        rw [lap_comm, mean_lap hm]
      have a2 := mean_parts hm k (lap ψ) ψ
      rw [mul_comm (L k (lap ψ))] at a2
      rw [a2] at a1
      linear_combination (1 / 2 : ℂ) * a1
    rw [h1, L_vort h, mean_mul_C_mul, h4]; ring

/-! ### Runs -/

open Verif.Schemes

/-- A mode of which the tendency always vanishes is only multiplied by the coefficients. -/
theorem timeStepRK_coord {ι : Type*} (sc : Scheme) {N : Bool → Arr ι → Arr ι} {i : ι}
    (hN : ∀ b a, N b a i = 0) (dt : ℂ) (diss diss2 ps pa pb : Arr ι) (h : Heap ι) :
    timeStepRK sc N dt diss diss2 ps pa pb h .state i = h .state i * diss i := by
  cases sc <;>
    simp [timeStepRK, euler, eulerPhaseshift, eulerPhaseshiftRandom, rk2, rk2Trapezoid,
      rk2Phaseshift, rk2PhaseshiftRandom, rk2PhaseshiftExact, rk4, tendencies, stepEuler,
      stepLikeRK2, meanWithPhaseshift, mulShift, divInplace, hN]

/-- A mode of which the tendency always vanishes and that is not truncated. -/
theorem steps_coord {ι : Type*} {N : Bool → Arr ι → Arr ι} {i : ι} (hN : ∀ b a, N b a i = 0)
    (freq g1 g2 : Arr ι) (dt0 : ℝ) (mask : ι → Bool) (hmask : mask i = false) (h : Heap ι)
    (l : List (StepIn ι)) (hdt : ∀ x ∈ l, x.dt ≠ 0) :
    (steps N mask l ⟨h, Coefs.init freq true dt0 g1 g2⟩).heap .state i
      = Complex.exp (-((l.map StepIn.dt).sum : ℝ) * freq i) * h .state i := by
  have gen : ∀ (l : List (StepIn ι)), (∀ x ∈ l, x.dt ≠ 0) → ∀ (s : TS ι),
      s.coefs.useCFL = true → s.coefs.freq = freq →
      (s.coefs.dtOld = 0 ∨ (s.coefs.exact1 = expLin freq s.coefs.dtOld ∧
        s.coefs.exact2 = expLin freq (s.coefs.dtOld / 2))) →
      (steps N mask l s).heap .state i
        = Complex.exp (-((l.map StepIn.dt).sum : ℝ) * freq i) * s.heap .state i := by
    intro l
    induction l with
    | nil => intro _ s _ _ _; simp [steps]
    | cons x l ih =>
      intro hx s h1 h2 h3
      obtain ⟨k1, k2, k3, k4, k5⟩ := coefs_get_inv (hx x (by simp)) h1 h2 h3
      have := ih (fun y hy => hx y (by simp [hy]))
        (oneStep x.sc N mask x.ps x.pa x.pb s x.dt)
        (by simpa [oneStep] using k2) (by simpa [oneStep] using k3)
        (by right; exact ⟨by simpa [oneStep] using k4, by simpa [oneStep] using k5⟩)
      have hstep : (oneStep x.sc N mask x.ps x.pa x.pb s x.dt).heap .state i
          = s.heap .state i * expLin freq x.dt i := by
        simp [oneStep, dealias, timeStepRK_coord x.sc hN, k1, hmask]
      rw [show steps N mask (x :: l) s = steps N mask l
        (oneStep x.sc N mask x.ps x.pa x.pb s x.dt) from rfl, this, hstep]
      simp only [List.map_cons, List.sum_cons]
      rw [mul_comm (s.heap .state i), ← mul_assoc]
      congr 1
      rw [expLin, ← Complex.exp_add]
      congr 1
      push_cast; ring
  exact gen l hdt ⟨h, Coefs.init freq true dt0 g1 g2⟩ (by simp [Coefs.init])
    (by simp [Coefs.init]) (by left; simp [Coefs.init])

/-- The same without CFL condition. -/
theorem steps_coord_fixed {ι : Type*} {N : Bool → Arr ι → Arr ι} {i : ι}
    (hN : ∀ b a, N b a i = 0) (freq g1 g2 : Arr ι) (dt0 : ℝ) (mask : ι → Bool)
    (hmask : mask i = false) (h : Heap ι) (l : List (StepIn ι)) (hdt : ∀ x ∈ l, x.dt = dt0) :
    (steps N mask l ⟨h, Coefs.init freq false dt0 g1 g2⟩).heap .state i
      = Complex.exp (-((l.map StepIn.dt).sum : ℝ) * freq i) * h .state i := by
  have hget : ∀ dt, ((Coefs.init freq false dt0 g1 g2).get dt).1
      = Coefs.init freq false dt0 g1 g2 := by
    intro dt; simp [Coefs.get, Coefs.init, Coefs.compute]
  have hget2 : ∀ dt, ((Coefs.init freq false dt0 g1 g2).get dt).2.1 = expLin freq dt0 := by
    intro dt
    have := C06_coefs_fixed_dt_partial freq g1 g2 dt0 [] dt
    simp only [List.foldl_nil] at this
    rw [this]
  induction l generalizing h with
  | nil => simp [steps]
  | cons x l ih =>
    have e1 : oneStep x.sc N mask x.ps x.pa x.pb ⟨h, Coefs.init freq false dt0 g1 g2⟩ x.dt
        = ⟨dealias mask .state (timeStepRK x.sc N x.dt (expLin freq dt0)
            ((Coefs.init freq false dt0 g1 g2).get x.dt).2.2 x.ps x.pa x.pb h),
            Coefs.init freq false dt0 g1 g2⟩ := by
      simp [oneStep, hget, hget2]
    rw [show steps N mask (x :: l) ⟨h, Coefs.init freq false dt0 g1 g2⟩
      = steps N mask l (oneStep x.sc N mask x.ps x.pa x.pb
        ⟨h, Coefs.init freq false dt0 g1 g2⟩ x.dt) from rfl, e1,
      ih _ (fun y hy => hdt y (by simp [hy]))]
    have hd : dealias mask .state (timeStepRK x.sc N x.dt (expLin freq dt0)
            ((Coefs.init freq false dt0 g1 g2).get x.dt).2.2 x.ps x.pa x.pb h) .state i
        = h .state i * expLin freq x.dt i := by
      simp [dealias, timeStepRK_coord x.sc hN, hmask, hdt x (by simp)]
    rw [hd]
    simp only [List.map_cons, List.sum_cons]
    rw [mul_comm (h .state i), ← mul_assoc]
    congr 1
    rw [expLin, ← Complex.exp_add]
    congr 1
    push_cast; ring

/-- Both cases: the increments are not zero with the CFL condition, and equal to `deltat0`
without. -/
theorem steps_coord_any {ι : Type*} {N : Bool → Arr ι → Arr ι} {i : ι}
    (hN : ∀ b a, N b a i = 0) (freq g1 g2 : Arr ι) (cfl : Bool) (dt0 : ℝ) (mask : ι → Bool)
    (hmask : mask i = false) (h : Heap ι) (l : List (StepIn ι))
    (hdt : ∀ x ∈ l, if cfl then x.dt ≠ 0 else x.dt = dt0) :
    (steps N mask l ⟨h, Coefs.init freq cfl dt0 g1 g2⟩).heap .state i
      = Complex.exp (-((l.map StepIn.dt).sum : ℝ) * freq i) * h .state i := by
  cases cfl
  · exact steps_coord_fixed hN freq g1 g2 dt0 mask hmask h l (by simpa using hdt)
  · exact steps_coord hN freq g1 g2 dt0 mask hmask h l (by simpa using hdt)

end

end Verif.Sphere
