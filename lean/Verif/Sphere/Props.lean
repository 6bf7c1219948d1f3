import Verif.Sphere.Example

/-!
# C94: the solvers on the sphere

The tendencies of `sphere.ns2d` and `sphere.sw1l` are those of the documented equations, with
their conservation laws, and what the runs conserve.
-/

namespace Verif.Sphere

noncomputable section

open MvPolynomial Verif.Schemes

variable {I : Type} [Fintype I] {o : Oper I}

/-! ### Velocity -/

theorem rotsh_vec (h : IsSphere o) (div rot : I → ℂ) (i : I) :
    o.rotsh (o.vecFromDivrotsh div rot) i = if o.l i = 0 then 0 else rot i := by
  have e : (∑ k, L k (o.vecFromDivrotsh div rot k))
      = C (1 / (o.radius : ℂ)) * lap (o.isht (o.potential rot)) := by
    have hz := sum_L_turn_L (o.isht (o.potential div))
    simp only [Oper.vecFromDivrotsh, Oper.gradf, map_add, Finset.sum_add_distrib, neg_mul, map_neg,
      L_C_mul, Finset.sum_neg_distrib, ← Finset.mul_sum, hz]
    rw [lap]; ring
  rw [Oper.rotsh, e, sht_C_mul, sht_C_mul, sht_lap h, sht_isht h, potential_mul h]

theorem turn_turn_L (f : Fn) (k : Fin 3) :
    turn (turn (fun j => L j f)) k = -((∑ j, X j ^ 2) * L k f) := by
  have hr := radial f
  have e : ∀ k, turn (turn (fun j => L j f)) k
      = X k * (∑ j, X j * L j f) - (∑ j, X j ^ 2) * L k f := by
    intro k
    fin_cases k <;>
      simp only [turn, Fin.sum_univ_three, Fin.zero_eta, Fin.mk_one, Fin.reduceFinMk, f01,
        f02, f11, f12, f21, f22] <;>
      ring
  rw [e, hr]; ring

theorem turn_add (F G : Vec) (k : Fin 3) :
    turn (fun j => F j + G j) k = turn F k + turn G k := by simp only [turn]; ring

theorem turn_C_mul (c : Fn) (F : Vec) (k : Fin 3) :
    turn (fun j => c * F j) k = c * turn F k := by simp only [turn]; ring

theorem divsh_vec (h : IsSphere o) (div rot : I → ℂ) (i : I) :
    o.divsh (o.vecFromDivrotsh div rot) i = if o.l i = 0 then 0 else div i := by
  have e : (∑ k, L k (turn (o.vecFromDivrotsh div rot) k))
      = C (1 / (o.radius : ℂ)) * ((∑ j, X j ^ 2) * lap (o.isht (o.potential div))) := by
    have hz := sum_L_turn_L (o.isht (o.potential rot))
    have e1 : ∀ k, turn (o.vecFromDivrotsh div rot) k
        = C (1 / (o.radius : ℂ)) * turn (fun j => L j (o.isht (o.potential rot))) k
          + C (1 / (o.radius : ℂ)) * ((∑ j, X j ^ 2) * L k (o.isht (o.potential div))) := by
      intro k
      have := turn_add (fun j => C (1 / (o.radius : ℂ)) * L j (o.isht (o.potential rot)))
        (o.gradf (o.isht (o.potential div))) k
      rw [turn_C_mul] at this
      refine this.trans ?_
      have e2 : turn (o.gradf (o.isht (o.potential div))) k
          = -C (1 / (o.radius : ℂ)) * turn (turn (fun j => L j (o.isht (o.potential div)))) k :=
        turn_C_mul _ _ _
      rw [e2, turn_turn_L]; ring
    simp only [e1, map_add, Finset.sum_add_distrib, L_C_mul, L_r2, ← Finset.mul_sum, hz]
    rw [lap]; ring
  rw [Oper.divsh, e, sht_C_mul, sht_C_mul]
  have e3 : o.sht ((∑ j, X j ^ 2) * lap (o.isht (o.potential div))) i
      = o.sht (lap (o.isht (o.potential div))) i := by
    rw [Oper.sht, mul_left_comm, h.mean.unit]; rfl
  rw [e3, sht_lap h, sht_isht h, potential_mul h]

theorem vecFromRotsh_eq (o : Oper I) (rot : I → ℂ) :
    o.vecFromRotsh rot = o.vecFromDivrotsh (fun _ => 0) rot := by
  funext k
  have : o.isht (o.potential fun _ => 0) = 0 := by simp [Oper.isht, Oper.potential]
  simp [Oper.vecFromRotsh, Oper.vecFromDivrotsh, Oper.gradf, this, turn]

theorem mean_div (h : IsSphere o) (F : Vec) (hF : ∑ k, X k * F k = 0) (i : I) :
    o.divsh F i = o.mean (o.Y i * surfaceDiv o.radius F) := by
  have hd : ∀ j, pderiv j (∑ k, X k * F k) = 0 := fun j => by rw [hF, map_zero]
  have h0 := hd 0
  have h1 := hd 1
  have h2 := hd 2
  have e : (∑ k, L k (turn F k)) = (∑ j, X j ^ 2) * (∑ k, pderiv k (F k))
      - ∑ k, X k * ∑ j, X j * pderiv j (F k) := by
    simp only [turn, Fin.sum_univ_three, L_apply, f01, f02, f11, f12, f21, f22, map_sub,
      pderiv_mul, pderiv_X, map_add, Pi.single_apply] at *
    simp only [Fin.isValue, Fin.reduceEq, if_true, if_false, mul_zero, zero_mul, one_mul,
      add_zero, zero_add] at *
    linear_combination (-2 : Fn) * hF
  rw [Oper.divsh, sht_C_mul, Oper.sht, e, mul_sub, map_sub, mul_left_comm (o.Y i), h.mean.unit,
    surfaceDiv, mean_mul_C_mul, mul_sub (o.Y i), map_sub]

theorem mean_curl (F : Vec) (i : I) :
    o.rotsh F i = o.mean (o.Y i * surfaceCurl o.radius F) := by
  have e : (∑ k, L k (F k))
      = ∑ k, X k * (pderiv (k + 1) (F (k + 2)) - pderiv (k + 2) (F (k + 1))) := by
    simp only [Fin.sum_univ_three, L_apply, f01, f02, f11, f12, f21, f22]
    ring
  rw [Oper.rotsh, e]; rfl

theorem tangent (o : Oper I) (div rot : I → ℂ) :
    ∑ k, X k * o.vecFromDivrotsh div rot k = 0 := by
  have h1 := radial (o.isht (o.potential rot))
  simp only [Oper.vecFromDivrotsh, Oper.gradf, turn]
  simp only [Fin.sum_univ_three, f01, f02, f11, f12, f21, f22] at *
  linear_combination C (1 / (o.radius : ℂ)) * h1

/-- **C94** The divergence and the curl of the velocity of a state of `sphere.sw1l`, written
with the derivatives on the sphere, have the coefficients of the state (except their mean
values). -/
theorem C94_divrot (h : IsSphere o) (s : Spect I) (i : I) (hl : o.l i ≠ 0) :
    o.mean (o.Y i * surfaceCurl o.radius (o.statephys s).u) = s (.rot_sh, i) ∧
    o.mean (o.Y i * surfaceDiv o.radius (o.statephys s).u) = s (.div_sh, i) := by
  constructor
  · rw [← mean_curl, Oper.statephys, rotsh_vec h, if_neg hl]
  · have := mean_div h _ (tangent o (fun i => s (.div_sh, i)) (fun i => s (.rot_sh, i))) i
    rw [Oper.statephys, ← this, divsh_vec h, if_neg hl]

/-- **C94** The velocity used by `sphere.ns2d` has the vorticity of the state (except its mean
value, which cannot be the curl of a velocity on a sphere) and no divergence. -/
theorem C94_velocity (h : IsSphere o) (rot : I → ℂ) (i : I) :
    o.rotsh (o.vecFromRotsh rot) i = (if o.l i = 0 then 0 else rot i) ∧
    o.divsh (o.vecFromRotsh rot) i = 0 := by
  rw [vecFromRotsh_eq]
  refine ⟨rotsh_vec h _ _ i, ?_⟩
  rw [divsh_vec h]; simp

/-- **C94** The spectral state of `sphere.sw1l` is recovered from its variables in physical
space (except the mean values of the vorticity and the divergence). -/
theorem C94_roundtrip (h : IsSphere o) (s : Spect I) (key : Key) (i : I) :
    o.statespect (o.statephys s) (key, i)
      = if o.l i = 0 ∧ key ≠ .eta_sh then 0 else s (key, i) := by
  cases key
  · simpa [Oper.statespect, Oper.statephys] using
      rotsh_vec h (fun i => s (.div_sh, i)) (fun i => s (.rot_sh, i)) i
  · simpa [Oper.statespect, Oper.statephys] using
      divsh_vec h (fun i => s (.div_sh, i)) (fun i => s (.rot_sh, i)) i
  · simpa [Oper.statespect, Oper.statephys] using
      congrFun (sht_isht h (fun i => s (.eta_sh, i))) i

/-! ### Two-dimensional Navier–Stokes -/

theorem dot_grad (o : Oper I) (rot : I → ℂ) (f : Fn) :
    (∑ k, o.vecFromRotsh rot k * surfaceGrad o.radius f k)
      = C (1 / (o.radius : ℂ) * (1 / (o.radius : ℂ))) * jac (o.isht (o.potential rot)) f := by
  have hr := radial (o.isht (o.potential rot))
  simp only [Oper.vecFromRotsh, surfaceGrad, jac, C_mul]
  simp only [Fin.sum_univ_three] at *
  linear_combination -(C (1 / (o.radius : ℂ)) * C (1 / (o.radius : ℂ))
    * (X 0 * pderiv 0 f + X 1 * pderiv 1 f + X 2 * pderiv 2 f)) * hr

/-- **C94** The tendency of `sphere.ns2d` is the transform of `-u · ∇ζ`. -/
theorem C94_ns2d_equation (h : IsSphere o) (rot : I → ℂ) (i : I) :
    o.ns2d rot i = o.mean (o.Y i *
      -(∑ k, o.vecFromRotsh rot k * surfaceGrad o.radius (o.isht rot) k)) := by
  rw [ns2d_jac h, dot_grad, mul_neg, map_neg, mean_mul_C_mul]; ring

theorem sum_rot_ns2d (h : IsSphere o) (rot : I → ℂ) : ∑ i, rot i * o.ns2d rot i = 0 := by
  simp only [ns2d_jac h, mul_left_comm (rot _), ← Finset.mul_sum]
  have := mean_isht o rot (jac (o.isht (o.potential rot)) (o.isht rot))
  simp only [Oper.sht] at this
  rw [← this]
  have h2 := mean_jac h.mean (o.isht (o.potential rot)) (o.isht rot * o.isht rot)
  rw [jac_mul, map_add] at h2
  have : o.mean (o.isht rot * jac (o.isht (o.potential rot)) (o.isht rot)) = 0 := by
    linear_combination (1 / 2 : ℂ) * h2
  rw [this, mul_zero]

theorem sum_psi_ns2d (h : IsSphere o) (rot : I → ℂ) :
    ∑ i, o.potential rot i * o.ns2d rot i = 0 := by
  simp only [ns2d_jac h, mul_left_comm (o.potential rot _), ← Finset.mul_sum]
  have := mean_isht o (o.potential rot) (jac (o.isht (o.potential rot)) (o.isht rot))
  simp only [Oper.sht] at this
  rw [← this]
  have h2 := mean_jac h.mean (o.isht rot) (o.isht (o.potential rot) * o.isht (o.potential rot))
  rw [jac_mul, map_add, jac_anti (o.isht rot), mul_neg, map_neg] at h2
  have : o.mean (o.isht (o.potential rot) * jac (o.isht (o.potential rot)) (o.isht rot)) = 0 := by
    linear_combination (-1 / 2 : ℂ) * h2
  rw [this, mul_zero]

theorem enstrophy_eq (h : IsSphere o) (a b : I → ℂ) :
    o.mean (o.isht a * o.isht b) = ∑ i, a i * b i := by
  rw [mean_isht, sht_isht h]

/-- **C94** The tendency conserves the enstrophy: an explicit step of any length changes it by
the square of the length times the enstrophy of the tendency (no term of first order). -/
theorem C94_enstrophy (h : IsSphere o) (rot : I → ℂ) (dt : ℂ) :
    o.mean (o.isht (fun i => rot i + dt * o.ns2d rot i) ^ 2)
      = o.mean (o.isht rot ^ 2) + dt ^ 2 * o.mean (o.isht (o.ns2d rot) ^ 2) := by
  simp only [pow_two (M := Fn), enstrophy_eq h]
  have := sum_rot_ns2d h rot
  have e : ∀ i, (rot i + dt * o.ns2d rot i) * (rot i + dt * o.ns2d rot i)
      = rot i * rot i + 2 * dt * (rot i * o.ns2d rot i)
        + dt ^ 2 * (o.ns2d rot i * o.ns2d rot i) := fun i => by ring
  simp only [e, Finset.sum_add_distrib, ← Finset.mul_sum, this]
  ring

theorem energy_eq (h : IsSphere o) (rot : I → ℂ) :
    energy o.mean (o.vecFromRotsh rot) = (∑ i, rot i * rot i / o.K2 i) / 2 := by
  rw [energy]
  congr 1
  set ψ := o.isht (o.potential rot) with hψ
  have e1 : (∑ k, o.vecFromRotsh rot k * o.vecFromRotsh rot k)
      = C (1 / (o.radius : ℂ) * (1 / (o.radius : ℂ))) * ∑ k, L k ψ * L k ψ := by
    rw [Finset.mul_sum]
    exact Finset.sum_congr rfl fun k _ => by
      simp only [Oper.vecFromRotsh, C_mul]; ring
  have e2 : o.mean (∑ k, L k ψ * L k ψ) = -o.mean (ψ * lap ψ) := by
    rw [lap, Finset.mul_sum, map_sum, map_sum, ← Finset.sum_neg_distrib]
    refine Finset.sum_congr rfl fun k _ => ?_
    rw [mean_parts h.mean, mul_comm]
  have hr := radius_ne h
  rw [e1, mean_C_mul, e2, hψ, mean_isht, ← Finset.sum_neg_distrib, Finset.mul_sum]
  refine Finset.sum_congr rfl fun i _ => ?_
  rw [sht_lap h, sht_isht h]
  have := potential_mul h rot i
  have e3 : 1 / (o.radius : ℂ) * (1 / (o.radius : ℂ)) *
      -(o.potential rot i * (-((o.l i * (o.l i + 1) : ℕ) : ℂ) * o.potential rot i))
      = -(o.potential rot i * if o.l i = 0 then 0 else rot i) := by
    rw [← this]; ring
  rw [e3]
  split_ifs with hl
  · simp [Oper.K2, hl]
  · rw [Oper.potential]; ring

/-- **C94** The tendency conserves the kinetic energy. -/
theorem C94_energy (h : IsSphere o) (rot : I → ℂ) (dt : ℂ) :
    energy o.mean (o.vecFromRotsh fun i => rot i + dt * o.ns2d rot i)
      = energy o.mean (o.vecFromRotsh rot)
        + dt ^ 2 * energy o.mean (o.vecFromRotsh (o.ns2d rot)) := by
  simp only [energy_eq h]
  have := sum_psi_ns2d h rot
  have e : ∀ i, (rot i + dt * o.ns2d rot i) * (rot i + dt * o.ns2d rot i) / o.K2 i
      = rot i * rot i / o.K2 i + (-2 * dt) * (o.potential rot i * o.ns2d rot i)
        + dt ^ 2 * (o.ns2d rot i * o.ns2d rot i / o.K2 i) := fun i => by
    rw [Oper.potential]; ring
  simp only [e, Finset.sum_add_distrib, ← Finset.mul_sum, this]
  ring

/-- **C94** For a real state, the sum of the transfers of enstrophy printed at each call of
the tendencies is zero. -/
theorem C94_printed_sum (h : IsSphere o) (rot : I → ℝ) : o.sumTrot (fun i => (rot i : ℂ)) = 0 := by
  have := sum_rot_ns2d h (fun i => (rot i : ℂ))
  have h2 := congrArg (starRingEnd ℂ) this
  rw [map_sum, map_zero] at h2
  have h3 := congrArg Complex.re h2
  rw [Complex.re_sum] at h3
  refine Eq.trans ?_ h3
  refine Finset.sum_congr rfl fun i _ => ?_
  rw [map_mul, Complex.conj_ofReal, mul_comm]

/-- **C94** In every run of `sphere.ns2d`, whatever the schemes and the increments, the modes of
degree 0 and 1 (the circulation and the angular momentum) only feel the dissipation. -/
theorem C94_low_modes (h : IsSphere o) (freq g1 g2 : Arr I) (cfl : Bool) (dt0 : ℝ) (mask : I → Bool)
    (hp : Heap I) (l : List (StepIn I)) (hdt : ∀ x ∈ l, if cfl then x.dt ≠ 0 else x.dt = dt0) (i : I) (hl : o.l i ≤ 1)
    (hmask : mask i = false) :
    (steps (fun _ s => o.ns2d s) mask l ⟨hp, Coefs.init freq cfl dt0 g1 g2⟩).heap .state i
      = Complex.exp (-((l.map StepIn.dt).sum : ℝ) * freq i) * hp .state i :=
  steps_coord_any (fun _ a => ns2d_low h a i hl) freq g1 g2 cfl dt0 mask hmask hp l hdt

theorem harmonic_X (k : Fin 3) : IsHarmonic 1 (X k : Fn) where
  hom := isHomogeneous_X _ _
  lap := by
    simp only [pderiv_X]
    refine Finset.sum_eq_zero fun j _ => ?_
    by_cases hjk : j = k <;> simp [hjk]

theorem angular_eq (h : IsSphere o) (rot : I → ℂ) (k : Fin 3) :
    angularMomentum o.radius o.mean (o.vecFromRotsh rot) k
      = -2 * ∑ i, (if o.l i = 1 then o.potential rot i * o.mean (o.Y i * X k) else 0) := by
  have hr := radius_ne h
  set ψ := o.isht (o.potential rot) with hψ
  have hL1 : L (k + 2) (X (k + 1)) = X k := by
    rw [L_apply]
    fin_cases k <;> simp [pderiv_X, Pi.single_apply, f11, f12, f21, f22]
  have hL2 : L (k + 1) (X (k + 2)) = -X k := by
    rw [L_apply]
    fin_cases k <;> simp [pderiv_X, Pi.single_apply, f11, f12, f21, f22]
  have e1 : o.mean (X (k + 1) * o.vecFromRotsh rot (k + 2)
      - X (k + 2) * o.vecFromRotsh rot (k + 1))
      = 1 / (o.radius : ℂ) * (-2 * o.mean (ψ * X k)) := by
    simp only [Oper.vecFromRotsh]
    rw [map_sub, mean_mul_C_mul, mean_mul_C_mul, mean_parts h.mean, mean_parts h.mean, hL1, hL2,
      neg_mul, map_neg, mul_comm (X k)]
    ring
  rw [angularMomentum, e1, hψ, mean_isht]
  have e2 : ∀ i, o.potential rot i * o.sht (X k) i
      = if o.l i = 1 then o.potential rot i * o.mean (o.Y i * X k) else 0 := by
    intro i
    split_ifs with hl
    · rfl
    · have h1 := sht_lap h (X k) i
      rw [lap_harmonic (harmonic_X k), ← C_neg, sht_C_mul] at h1
      have hne : (((o.l i * (o.l i + 1) : ℕ) : ℂ) - (1 * (1 + 1) : ℕ)) ≠ 0 := by
        rw [sub_ne_zero]
        intro e
        have e' : o.l i * (o.l i + 1) = 2 := by exact_mod_cast e
        have hle : o.l i ≤ 1 := by nlinarith
        have h0 : o.l i = 0 := by omega
        rw [h0] at e'
        omega
      have h2 : (((o.l i * (o.l i + 1) : ℕ) : ℂ) - (1 * (1 + 1) : ℕ)) * o.sht (X k) i = 0 := by
        linear_combination h1
      rcases mul_eq_zero.mp h2 with h3 | h3
      · exact absurd h3 hne
      · rw [h3, mul_zero]
  simp only [e2]
  field_simp

/-- **C94** Without dissipation of the modes of degree 1, every run of `sphere.ns2d` conserves
the angular momentum of the flow, whatever the schemes and the increments. -/
theorem C94_angular_momentum (h : IsSphere o) (freq g1 g2 : Arr I) (cfl : Bool) (dt0 : ℝ) (mask : I → Bool)
    (hp : Heap I) (l : List (StepIn I)) (hdt : ∀ x ∈ l, if cfl then x.dt ≠ 0 else x.dt = dt0)
    (hf : ∀ i, o.l i = 1 → freq i = 0) (hmask : ∀ i, o.l i = 1 → mask i = false) (k : Fin 3) :
    angularMomentum o.radius o.mean (o.vecFromRotsh
        ((steps (fun _ s => o.ns2d s) mask l ⟨hp, Coefs.init freq cfl dt0 g1 g2⟩).heap .state)) k
      = angularMomentum o.radius o.mean (o.vecFromRotsh (hp .state)) k := by
  rw [angular_eq h, angular_eq h]
  congr 1
  refine Finset.sum_congr rfl fun i _ => ?_
  split_ifs with hl
  · have := C94_low_modes h freq g1 g2 cfl dt0 mask hp l hdt i hl.le (hmask i hl)
    rw [Oper.potential, Oper.potential, this, hf i hl]
    simp
  · rfl

/-- **C94** (finding) `sphere.ns2d` ignores `params.oper.omega` (the rotation of the Earth by
default): its tendency is not that of the vorticity equation on the rotating sphere,
`-u · ∇(ζ + 2 Ω sin(latitude))`. -/
theorem C94_rotation_violated :
    ¬ ∀ (I : Type) [Fintype I] (o : Oper I) (rot : I → ℂ) (i : I), IsSphere o →
      o.ns2d rot i = o.mean (o.Y i * -(∑ k, o.vecFromRotsh rot k *
        surfaceGrad o.radius (o.isht rot + C (2 * (o.omega : ℂ)) * X 2) k)) := by
  intro hall
  have h1 := hall (Fin 5) exOper (Pi.single 1 1) 2 exSphere
  rw [ns2d_low exSphere _ 2 (by simp [exOper])] at h1
  have e0 : exOper.isht (exOper.potential (Pi.single 1 1))
      = C (-(Real.sqrt 3 : ℂ) / 2) * X 0 := by
    rw [Oper.isht, Finset.sum_eq_single 1]
    · simp only [Oper.potential, Oper.K2, exOper, exP, exN, Pi.single_eq_same, Matrix.cons_val_one,
        Matrix.cons_val_zero]
      rw [← mul_assoc, ← C_mul]
      congr 2
      norm_num
      ring
    · intro j _ hj
      simp [Oper.potential, hj]
    · intro hi; exact absurd (Finset.mem_univ _) hi
  have e1 : exOper.isht (Pi.single 1 1) = C (Real.sqrt 3 : ℂ) * X 0 := by
    rw [Oper.isht, Finset.sum_eq_single 1]
    · simp [exOper, exP, exN]
    · intro j _ hj
      simp [hj]
    · intro hi; exact absurd (Finset.mem_univ _) hi
  have e2 : jac (C (-(Real.sqrt 3 : ℂ) / 2) * X 0)
      (C (Real.sqrt 3 : ℂ) * X 0 + C (2 * (exOper.omega : ℂ)) * X 2)
      = C (-(Real.sqrt 3 : ℂ) / 2) * (C 2 * -X 1) := by
    simp only [jac, L_C_mul, map_add, pderiv_C_mul, pderiv_X,
      Fin.sum_univ_three, L_apply, f01, f02, f11, f12, f21, f22, Pi.single_apply]
    simp [exOper]
    ring
  have e3 : (C (-(Real.sqrt 3 : ℂ) / 2) * (C 2 * -X 1) : Fn) = exOper.Y 2 := by
    have : (C (-(Real.sqrt 3 : ℂ) / 2) * (C 2 * -X 1) : Fn)
        = C (-(-(Real.sqrt 3 : ℂ) / 2 * 2)) * X 1 := by
      rw [C_neg, C_mul]; ring
    rw [this]
    have e4 : -(-(Real.sqrt 3 : ℂ) / 2 * 2) = (Real.sqrt 3 : ℂ) := by ring
    rw [e4]
    simp [exOper, exP, exN]
  rw [dot_grad, e0, e1, e2, e3, mul_neg, map_neg, mean_mul_C_mul, exOrtho', if_pos rfl] at h1
  simp [exOper] at h1

/-! ### Shallow water -/

/-- **C94** The tendencies of the vorticity and of the divergence of `sphere.sw1l` are the curl
and the divergence of the vector-invariant momentum equation on the rotating sphere. -/
theorem C94_sw1l_momentum (h : IsSphere o) (c2 : ℝ) (s : Spect I) (i : I) :
    o.sw1l c2 s (.rot_sh, i) = o.rotsh (momentum o.radius o.omega c2 (o.statephys s).u
        (o.statephys s).rot (o.statephys s).eta) i ∧
    o.sw1l c2 s (.div_sh, i) = o.divsh (momentum o.radius o.omega c2 (o.statephys s).u
        (o.statephys s).rot (o.statephys s).eta) i := by
  rw [Oper.sw1l]
  generalize o.statephys s = p
  set B : Fn := C (1 / 2) * dot p.u p.u + C (c2 : ℂ) * p.eta with hB
  have hM : momentum o.radius o.omega c2 p.u p.rot p.eta
      = fun k => Oper.frotSw1l p.rot p.u o.fRadial k - surfaceGrad o.radius B k := rfl
  have hg : ∀ k, surfaceGrad o.radius B k
      = C (1 / (o.radius : ℂ)) * (pderiv k B - X k * ∑ j, X j * pderiv j B) := fun _ => rfl
  have hc : ∑ k, L k (surfaceGrad o.radius B k) = 0 := by
    simp only [hg, L_C_mul, map_sub, ← Finset.mul_sum, Finset.sum_sub_distrib, sum_L_grad]
    rw [sum_L_radial]; ring
  have hd : ∀ k, turn (surfaceGrad o.radius B) k = C (1 / (o.radius : ℂ)) * L k B := by
    intro k
    have e1 : turn (surfaceGrad o.radius B) k = C (1 / (o.radius : ℂ)) *
        (turn (fun j => pderiv j B) k - turn (fun j => X j * ∑ j, X j * pderiv j B) k) := by
      simp only [turn, surfaceGrad]; ring
    rw [e1, turn_grad, turn_radial, sub_zero]
  constructor
  · simp only [Oper.sw1lPhys, hM, Oper.rotsh, map_sub, Finset.sum_sub_distrib, hc, sub_zero]
  · have ht : ∀ k, turn (fun k => Oper.frotSw1l p.rot p.u o.fRadial k - surfaceGrad o.radius B k) k
        = turn (Oper.frotSw1l p.rot p.u o.fRadial) k - turn (surfaceGrad o.radius B) k := by
      intro k; simp only [turn]; ring
    simp only [Oper.sw1lPhys, hM, Oper.divsh, ht, hd, map_sub, Finset.sum_sub_distrib, mul_sub,
      sht_sub, L_C_mul, ← Finset.mul_sum, sht_C_mul]
    have e2 : (∑ k, L k (L k B)) = lap B := rfl
    rw [e2, sht_lap h, Oper.negLaplacian, Oper.K2]
    have hr := radius_ne h
    field_simp
    ring

/-- **C94** The tendency of the displacement is `-∇ · ((1 + η) u)`. -/
theorem C94_sw1l_continuity (h : IsSphere o) (c2 : ℝ) (s : Spect I) (i : I) :
    o.sw1l c2 s (.eta_sh, i) = o.mean (o.Y i * -surfaceDiv o.radius
      (fun k => (1 + (o.statephys s).eta) * (o.statephys s).u k)) := by
  have ht : ∑ k, X k * ((1 + (o.statephys s).eta) * (o.statephys s).u k) = 0 := by
    have := tangent o (fun i => s (.div_sh, i)) (fun i => s (.rot_sh, i))
    simp only [mul_left_comm (X _ : Fn), ← Finset.mul_sum]
    rw [show (∑ k, X k * (o.statephys s).u k) = 0 from this, mul_zero]
  rw [mul_neg, map_neg, ← mean_div h _ ht, Oper.sw1l, Oper.sw1lPhys]
  generalize o.statephys s = p
  have e : (∑ k, L k (turn (fun k => -(p.eta + 1) * p.u k) k))
      = -∑ k, L k (turn (fun k => (1 + p.eta) * p.u k) k) := by
    rw [← Finset.sum_neg_distrib]
    refine Finset.sum_congr rfl fun k _ => ?_
    rw [← map_neg]
    congr 1
    simp only [turn]; ring
  rw [Oper.divsh, Oper.divsh, e, mul_neg, Oper.sht, Oper.sht, mul_neg, map_neg]

theorem sw1l_low (h : IsSphere o) (c2 : ℝ) (s : Spect I) (key : Key) (i : I) (hl : o.l i = 0) :
    o.sw1l c2 s (key, i) = 0 := by
  have hh := h.harm i
  rw [hl] at hh
  obtain ⟨c, hc⟩ := harmonic_zero hh
  have z : ∀ F : Vec, o.sht (C (1 / (o.radius : ℂ)) * ∑ k, L k (F k)) i = 0 := by
    intro F
    rw [sht_C_mul, Oper.sht, hc, mean_C_mul, map_sum,
      Finset.sum_eq_zero fun k _ => h.mean.rot k _]
    ring
  cases key
  · exact z _
  · have := z (turn (Oper.frotSw1l (o.statephys s).rot (o.statephys s).u o.fRadial))
    simp only [Oper.sw1l, Oper.sw1lPhys, Oper.divsh, this, Oper.negLaplacian, Oper.K2, hl]
    simp
  · exact z _

/-- **C94** In every run of `sphere.sw1l`, whatever the schemes and the increments, the mean
values of the vorticity, of the divergence and of the displacement only feel the
dissipation. -/
theorem C94_sw1l_means (h : IsSphere o) (c2 : ℝ) (freq g1 g2 : Arr (Key × I)) (cfl : Bool) (dt0 : ℝ)
    (mask : Key × I → Bool) (hp : Heap (Key × I)) (l : List (StepIn (Key × I)))
    (hdt : ∀ x ∈ l, if cfl then x.dt ≠ 0 else x.dt = dt0) (key : Key) (i : I) (hl : o.l i = 0)
    (hmask : mask (key, i) = false) :
    (steps (fun _ s => o.sw1l c2 s) mask l ⟨hp, Coefs.init freq cfl dt0 g1 g2⟩).heap .state
        (key, i)
      = Complex.exp (-((l.map StepIn.dt).sum : ℝ) * freq (key, i)) * hp .state (key, i) :=
  steps_coord_any (fun _ a => sw1l_low h c2 a key i hl) freq g1 g2 cfl dt0 mask hmask hp l hdt

theorem mean_eta (h : IsSphere o) (a : I → ℂ) :
    o.mean (1 + o.isht a) = 1 + ∑ i, (if o.l i = 0 then a i * o.mean (o.Y i) else 0) := by
  have e := mean_isht o a 1
  rw [mul_one] at e
  rw [map_add, h.mean.one, e]
  congr 1
  refine Finset.sum_congr rfl fun i _ => ?_
  have hs : o.sht 1 i = o.mean (o.Y i) := by rw [Oper.sht, mul_one]
  split_ifs with hl
  · rw [hs]
  · have h1 := sht_lap h 1 i
    have h0 : lap (1 : Fn) = 0 := by simp [lap]
    rw [h0] at h1
    have hz : o.sht 0 i = 0 := by simp [Oper.sht]
    rw [hz] at h1
    have hn : -((o.l i * (o.l i + 1) : ℕ) : ℂ) ≠ 0 := by
      rw [neg_ne_zero]
      exact Nat.cast_ne_zero.mpr (Nat.mul_ne_zero hl (Nat.succ_ne_zero _))
    rcases mul_eq_zero.mp h1.symm with h2 | h2
    · exact absurd h2 hn
    · rw [h2, mul_zero]

/-- **C94** Every run of `sphere.sw1l` conserves the mass of the layer, the mean value of
`1 + η`, if the mode of degree 0 is neither damped nor truncated. -/
theorem C94_mass (h : IsSphere o) (c2 : ℝ) (freq g1 g2 : Arr (Key × I)) (cfl : Bool) (dt0 : ℝ)
    (mask : Key × I → Bool) (hp : Heap (Key × I)) (l : List (StepIn (Key × I)))
    (hdt : ∀ x ∈ l, if cfl then x.dt ≠ 0 else x.dt = dt0) (hf : ∀ i, o.l i = 0 → freq (.eta_sh, i) = 0)
    (hmask : ∀ i, o.l i = 0 → mask (.eta_sh, i) = false) :
    o.mean (1 + (o.statephys ((steps (fun _ s => o.sw1l c2 s) mask l
        ⟨hp, Coefs.init freq cfl dt0 g1 g2⟩).heap .state)).eta)
      = o.mean (1 + (o.statephys (hp .state)).eta) := by
  simp only [Oper.statephys]
  rw [mean_eta h, mean_eta h]
  congr 1
  refine Finset.sum_congr rfl fun i _ => ?_
  split_ifs with hl
  · rw [C94_sw1l_means h c2 freq g1 g2 cfl dt0 mask hp l hdt _ i hl (hmask i hl), hf i hl]
    simp
  · rfl

/-- **C94** Initialised with fields that are resolved, `sphere.sw1l` has the same variables in
physical space and in its spectral state. -/
theorem C94_init (h : IsSphere o) (s : Spect I) (h0 : ∀ i, o.l i = 0 → s (.rot_sh, i) = 0)
    (h1 : ∀ i, o.l i = 0 → s (.div_sh, i) = 0) :
    o.initFromUxuyeta (o.statephys s).u (o.statephys s).eta = (s, o.statephys s) := by
  have e : o.statespect ⟨(o.statephys s).u, (o.statephys s).eta, 0⟩ = s := by
    have e1 : o.statespect ⟨(o.statephys s).u, (o.statephys s).eta, 0⟩
        = o.statespect (o.statephys s) := by
      funext ⟨key, i⟩; cases key <;> rfl
    rw [e1]
    funext ⟨key, i⟩
    rw [C94_roundtrip h]
    split_ifs with hl
    · cases key
      · exact (h0 i hl.1).symm
      · exact (h1 i hl.1).symm
      · exact absurd rfl hl.2
    · rfl
  simp only [Oper.initFromUxuyeta, e]
  rfl

/-- **C94** (finding) Initialised with a displacement that the truncation does not resolve,
`sphere.sw1l` keeps the given field in physical space, although it is not in the spectral
state: the variables in physical space, from which the first tendencies are computed, are not
those of the state that is advanced. -/
theorem C94_init_violated :
    ¬ ∀ (I : Type) [Fintype I] (o : Oper I) (u : Vec) (eta : Fn) (p : Fin 3 → ℂ), IsSphere o →
      ∑ k, p k ^ 2 = 1 →
      eval p (o.initFromUxuyeta u eta).2.eta
        = eval p (o.statephys (o.initFromUxuyeta u eta).1).eta := by
  intro hall
  have h1 := hall (Fin 5) exOper 0 (X 2) ![0, 0, 1] exSphere (by simp [Fin.sum_univ_three])
  have hz : ∀ i, exOper.sht (X 2) i = 0 := by
    intro i
    have e : exOper.sht (X 2) i = (Real.sqrt (exN i) : ℂ) * exMean (exP i * X 2) := by
      rw [Oper.sht]
      simp only [exOper]
      rw [mul_assoc, mean_C_mul]
    rw [e]
    have m := exMean_mono
    have z : exMean (exP i * X 2) = 0 := by
      fin_cases i
      · have e : exP 0 * X 2 = X 0 ^ 0 * X 1 ^ 0 * X 2 ^ 1 := by simp [exP]
        simpa [g, h] using (congrArg exMean e).trans (m _ _ _)
      · have e : exP 1 * X 2 = X 0 ^ 1 * X 1 ^ 0 * X 2 ^ 1 := by simp [exP]
        simpa [g, h] using (congrArg exMean e).trans (m _ _ _)
      · have e : exP 2 * X 2 = X 0 ^ 0 * X 1 ^ 1 * X 2 ^ 1 := by simp [exP]
        simpa [g, h] using (congrArg exMean e).trans (m _ _ _)
      · have e : exP 3 * X 2 = X 0 ^ 0 * X 1 ^ 1 * X 2 ^ 2 := by simp [exP]; ring
        simpa [g, h] using (congrArg exMean e).trans (m _ _ _)
      · have e : exP 4 * X 2 = X 0 ^ 0 * X 1 ^ 2 * X 2 ^ 1 - X 0 ^ 0 * X 1 ^ 0 * X 2 ^ 3 := by
          simp [exP]; ring
        have := congrArg exMean e
        rw [map_sub, m, m] at this
        simpa [g, h] using this
    rw [z, mul_zero]
  have e2 : (exOper.statephys (exOper.initFromUxuyeta 0 (X 2)).1).eta = 0 := by
    simp [Oper.statephys, Oper.initFromUxuyeta, Oper.statespect, hz, Oper.isht]
  rw [e2] at h1
  simp [Oper.initFromUxuyeta] at h1

/-! ### The hypotheses are met -/

/-- The example is a sphere with modes of degrees 0, 1 and 2, of which the tendency of ns2d
does not vanish: `x` and `y z` transfer enstrophy to `y² - z²`. -/
example : IsSphere exOper ∧
    exOper.ns2d (Pi.single 1 1 + Pi.single 3 1) 4 ≠ 0 := by
  refine ⟨exSphere, ?_⟩
  have e1 : exOper.isht (Pi.single 1 1 + Pi.single 3 1)
      = C (Real.sqrt 3 : ℂ) * X 0 + C (Real.sqrt 15 : ℂ) * (X 1 * X 2) := by
    simp [Oper.isht, Fin.sum_univ_five, exOper, exP, exN, Pi.single_apply]
  have e0 : exOper.isht (exOper.potential (Pi.single 1 1 + Pi.single 3 1))
      = C (-(1 : ℂ) / 2) * (C (Real.sqrt 3 : ℂ) * X 0)
        + C (-(1 : ℂ) / 6) * (C (Real.sqrt 15 : ℂ) * (X 1 * X 2)) := by
    simp [Oper.isht, Oper.potential, Oper.K2, Fin.sum_univ_five, exOper, exP, exN,
      Pi.single_apply]
    norm_num
  have e2 : jac (C (-(1 : ℂ) / 2) * (C (Real.sqrt 3 : ℂ) * X 0)
        + C (-(1 : ℂ) / 6) * (C (Real.sqrt 15 : ℂ) * (X 1 * X 2)))
      (C (Real.sqrt 3 : ℂ) * X 0 + C (Real.sqrt 15 : ℂ) * (X 1 * X 2))
      = C ((-(-(1 : ℂ) / 2) + (-(1 : ℂ) / 6)) * (Real.sqrt 3 : ℂ) * (Real.sqrt 15 : ℂ)) * exP 4 := by
    simp only [jac, L_C_mul, map_add, pderiv_C_mul, pderiv_X, pderiv_mul,
      Fin.sum_univ_three, L_apply, f01, f02, f11, f12, f21, f22, Pi.single_apply, C_mul, C_add,
      C_neg]
    simp [exP]
    ring
  rw [ns2d_jac exSphere, e0, e1, e2, mean_mul_C_mul]
  have e3 : exOper.mean (exOper.Y 4 * exP 4) = (Real.sqrt (exN 4) : ℂ) * (1 / (exN 4 : ℂ)) := by
    simp only [exOper]
    rw [mul_assoc, mean_C_mul, exOrtho, if_pos rfl]
  rw [e3]
  have h3 : (Real.sqrt 3 : ℂ) ≠ 0 := by
    exact_mod_cast (Real.sqrt_pos.mpr (by norm_num : (0 : ℝ) < 3)).ne'
  have h15 : (Real.sqrt 15 : ℂ) ≠ 0 := by
    exact_mod_cast (Real.sqrt_pos.mpr (by norm_num : (0 : ℝ) < 15)).ne'
  have h4 : (Real.sqrt (exN 4) : ℂ) ≠ 0 := by
    exact_mod_cast (Real.sqrt_pos.mpr (exN_pos 4)).ne'
  have h4' : (exN 4 : ℂ) ≠ 0 := by exact_mod_cast (exN_pos 4).ne'
  have h1 : (exOper.radius : ℂ) ≠ 0 := radius_ne exSphere
  have hn : (-(-(1 : ℂ) / 2) + (-(1 : ℂ) / 6)) ≠ 0 := by norm_num
  refine mul_ne_zero ?_ (mul_ne_zero (mul_ne_zero (mul_ne_zero hn h3) h15)
    (mul_ne_zero h4 (one_div_ne_zero h4')))
  exact neg_ne_zero.mpr (mul_ne_zero (one_div_ne_zero h1) (one_div_ne_zero h1))

/-- A run of the example with two steps of different schemes and increments conserves its
angular momentum. -/
example (hp : Heap (Fin 5)) (k : Fin 3) :
    angularMomentum exOper.radius exOper.mean (exOper.vecFromRotsh
        ((steps (fun _ s => exOper.ns2d s) (fun _ => false)
          [⟨.RK4, 1 / 2, 1, 1, 1⟩, ⟨.RK2, 1, 1, 1, 1⟩]
          ⟨hp, Coefs.init (fun i => exOper.l i - 1) true 1 0 0⟩).heap .state)) k
      = angularMomentum exOper.radius exOper.mean (exOper.vecFromRotsh (hp .state)) k :=
  C94_angular_momentum exSphere _ _ _ _ _ _ _ _ (by simp) (by intro i hl; simp [hl])
    (by simp) k

end

end Verif.Sphere
