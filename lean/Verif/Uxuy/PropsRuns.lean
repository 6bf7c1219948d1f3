import Verif.Uxuy.Props

/-!
# C90: mean flow, convergence and findings
-/

set_option linter.unusedSectionVars false

namespace Verif.Uxuy

open Verif.Fourier Verif.Energy Verif.Galerkin Verif.Schemes Verif.Convergence Verif.EndToEnd Finset

noncomputable section

/-- An entry without tendency and dissipation is not changed by the schemes. -/
theorem timeStepRK_fixed {ι : Type*} {N : Arr ι → Arr ι} {i : ι} (hN : ∀ x, N x i = 0) (sc : Scheme) (dt : ℂ) {d d2 : Arr ι} (hd : d i = 1)
    (hd2 : d2 i = 1) (ps pa pb : Arr ι) (h : Heap ι) :
    timeStepRK sc (fun _ => N) dt d d2 ps pa pb h .state i = h .state i := by
  cases sc <;>
    simp [timeStepRK, euler, eulerPhaseshift, eulerPhaseshiftRandom, rk2, rk2Trapezoid, rk2Phaseshift, rk2PhaseshiftRandom,
      rk2PhaseshiftExact, rk4, tendencies, stepEuler, stepLikeRK2, meanWithPhaseshift, mulShift, divInplace, hN, hd, hd2]

/-- The coefficients of an entry without dissipation. -/
def CoefOne {ι : Type*} (c : Coefs ι) (i : ι) : Prop :=
  c.freq i = 0 ∧ ((c.useCFL = true ∧ c.dtOld = 0) ∨ (c.exact1 i = 1 ∧ c.exact2 i = 1))

theorem coefOne_get {ι : Type*} {c : Coefs ι} {i : ι} (h : CoefOne c i) {dt : ℝ} (hdt : dt ≠ 0) :
    CoefOne (c.get dt).1 i ∧ (c.get dt).2.1 i = 1 ∧ (c.get dt).2.2 i = 1 := by
  obtain ⟨h1, h2⟩ := h
  simp only [Coefs.get]
  cases hc : c.useCFL
  · rw [hc] at h2
    simp only [Bool.false_eq_true, false_and, false_or] at h2
    simp only [Bool.false_eq_true, if_false]
    exact ⟨⟨h1, Or.inr h2⟩, h2⟩
  · simp only [if_true]
    by_cases he : c.dtOld = dt
    · have h2' := h2.resolve_left fun h => hdt (by rw [← he]; exact h.2)
      simp only [he, ne_eq, not_true_eq_false, if_false]
      exact ⟨⟨h1, Or.inr h2'⟩, h2'⟩
    · simp only [ne_eq, he, not_false_eq_true, if_true]
      have : (c.compute dt).exact1 i = 1 ∧ (c.compute dt).exact2 i = 1 := by simp [Coefs.compute, h1]
      exact ⟨⟨h1, Or.inr this⟩, this⟩

/-- C90, mean flow: without hypo-viscosity and mean force, the mean velocity does not change, for every scheme and every initial
state. -/
theorem C90_mean_flow (n : Fin 2 → ℕ) {S G : Finset (Fin 2 → ℤ)} (hG : S ⊆ G) (h0 : (0 : Fin 2 → ℤ) ∈ S) (δ : Fin 2 → ℝ) (beta : ℝ)
    (nu : Dissip.Nu) (sc : Scheme) {F : Fin 2 → Fld (Fin 2)} (hF : ∀ v, F v 0 = 0) (u0 : Fin 2 → Fld (Fin 2)) (ps pa pb : ℕ → G → ℂ)
    (heap : Heap (Fin 2 × G)) (g1 g2 : Arr (Fin 2 × G)) (cfl : Bool) {dt : ℕ → ℝ} (hdt : ∀ k, dt k ≠ 0) (k : ℕ) (v : Fin 2) :
    runUxuy n S G δ beta nu sc F ps pa pb heap g1 g2 cfl u0 dt k v 0 = u0 v 0 := by
  have hi : (0 : Fin 2 → ℤ) ∈ G := hG h0
  have hN : ∀ x v, onArrays G (forced F (tendUxuy n S δ beta)) x (v, ⟨0, hi⟩) = 0 := by
    intro x v
    simp only [onArrays, array, forced, hF, add_zero]
    rw [tendUxuy, vecOf_mul]
    fin_cases v <;> simp [vecOf, ux2, uy2, Forcing.vecFromRot]
  have hf : ∀ v : Fin 2, freqDiss G δ nu (v, ⟨0, hi⟩) = 0 := by
    intro v
    simp [freqDiss, waveSq, Dissip.fd]
  have key : ∀ k, (∀ v, CoefOne (simulationUxuy (projectUxuy G δ) sc (onArrays G (forced F (tendUxuy n S δ beta))) (freqDiss G δ nu)
      (truncated G S) (fun m i => ps m i.2) (fun m i => pa m i.2) (fun m i => pb m i.2) heap g1 g2 cfl (array G u0) dt k).coefs
        (v, ⟨0, hi⟩)) ∧
      ∀ v, (simulationUxuy (projectUxuy G δ) sc (onArrays G (forced F (tendUxuy n S δ beta))) (freqDiss G δ nu)
        (truncated G S) (fun m i => ps m i.2) (fun m i => pa m i.2) (fun m i => pb m i.2) heap g1 g2 cfl (array G u0) dt k).heap .state
        (v, ⟨0, hi⟩) = u0 v 0 := by
    intro k
    induction k with
    | zero =>
      refine ⟨fun v => ?_, fun v => by simp [simulationUxuy, array]⟩
      cases cfl
      · refine ⟨hf v, Or.inr ?_⟩
        simp [simulationUxuy, Coefs.init, Coefs.compute, hf v]
      · exact ⟨hf v, Or.inl ⟨rfl, rfl⟩⟩
    | succ k ih =>
      obtain ⟨h1, h2⟩ := ih
      refine ⟨fun v => (coefOne_get (h1 v) (hdt k)).1, fun v => ?_⟩
      have hst : ∀ v, timeStepRK sc (fun _ => onArrays G (forced F (tendUxuy n S δ beta))) (dt k) _ _ (fun i => ps k i.2)
          (fun i => pa k i.2) (fun i => pb k i.2) (simulationUxuy (projectUxuy G δ) sc (onArrays G (forced F (tendUxuy n S δ beta)))
          (freqDiss G δ nu) (truncated G S) (fun m i => ps m i.2) (fun m i => pa m i.2) (fun m i => pb m i.2) heap g1 g2 cfl (array G u0)
          dt k).heap .state (v, ⟨0, hi⟩) = _ := fun v =>
        timeStepRK_fixed (fun x => hN x v) sc (dt k) (coefOne_get (h1 v) (hdt k)).2.1 (coefOne_get (h1 v) (hdt k)).2.2
          (fun i => ps k i.2) (fun i => pa k i.2) (fun i => pb k i.2) _
      have hm : ∀ v : Fin 2, truncated G S (v, ⟨0, hi⟩) = false := fun v => by simp [truncated, h0]
      have hcases : v = 0 ∨ v = 1 := by fin_cases v <;> simp
      rcases hcases with rfl | rfl <;>
        · simp only [simulationUxuy, oneStepUxuy, set_same, projectUxuy, array, perpOf, InitFields.projPerp, fields, dif_pos hi,
            Schemes.dealias, hm, hst, h2]
          simp
  rw [runUxuy, fields, dif_pos hi]
  exact (key k).2 v

/-! ### convergence -/

theorem vorticity_real {S : Finset (Fin 2 → ℤ)} {δ : Fin 2 → ℝ} {u : Fin 2 → Fld (Fin 2)} (h : ∀ v, RealField S (u v)) :
    RealField S (vorticity δ u) := by
  refine ⟨fun k hk => ⟨((h 0).1 k hk).1, ?_⟩, fun k hk => ?_⟩
  · simp only [vorticity, pd, ((h 0).1 k hk).2, ((h 1).1 k hk).2, Pi.neg_apply, map_mul, map_sub, Complex.conj_I, Complex.conj_ofReal,
      Int.cast_neg]
    push_cast
    ring
  · simp [vorticity, pd, (h 0).2 k hk, (h 1).2 k hk]

theorem vecOf_real {S : Finset (Fin 2 → ℤ)} {δ : Fin 2 → ℝ} {r : Fld (Fin 2)} (h : RealField S r) (v : Fin 2) :
    RealField S (vecOf δ r v) := by
  refine ⟨fun k hk => ⟨(h.1 k hk).1, ?_⟩, fun k hk => by rw [vecOf_mul, h.2 k hk, mul_zero]⟩
  have e : Forcing.k2not0 (δ 0 * (-k) 0) (δ 1 * (-k) 1) = Forcing.k2not0 (δ 0 * k 0) (δ 1 * k 1) := by
    simp [Forcing.k2not0]
  fin_cases v
  · show ux2 δ r (-k) = (starRingEnd ℂ) (ux2 δ r k)
    simp only [ux2, Forcing.vecFromRot]
    rw [e, (h.1 k hk).2]
    simp only [Pi.neg_apply, map_mul, map_div₀, Complex.conj_I, Complex.conj_ofReal, Int.cast_neg]
    push_cast
    ring
  · show uy2 δ r (-k) = (starRingEnd ℂ) (uy2 δ r k)
    simp only [uy2, Forcing.vecFromRot]
    rw [e, (h.1 k hk).2]
    simp only [Pi.neg_apply, map_mul, map_neg, map_div₀, Complex.conj_I, Complex.conj_ofReal, Int.cast_neg]
    push_cast
    ring

/-- C90, convergence: for every initial velocity (real, with the modes kept, without divergence and mean) and every constant force of the
same kind, the documented equations have one and only one solution, for all times, and the velocities computed by ns2d.with_uxuy
converge to it with the order of their scheme. -/
theorem C90_converges {n : Fin 2 → ℕ} (hn : ∀ d, 0 < n d) {S : Finset (Fin 2 → ℤ)} (hS : NoAlias n S) {δ : Fin 2 → ℝ}
    (hδ : ∀ d, δ d ≠ 0) (beta : ℝ) {nu : Dissip.Nu} (hnu : Nu.Ok nu) {F u0 : Fin 2 → Fld (Fin 2)} (hF : ∀ v, RealField S (F v))
    (hFd : DivFree δ F) (hF0 : ∀ v, F v 0 = 0) (hu : ∀ v, RealField S (u0 v)) (hud : DivFree δ u0) (hu0 : ∀ v, u0 v 0 = 0) {T : ℝ}
    (hT : 0 ≤ T) :
    ∃ u : ℝ → Fin 2 → Fld (Fin 2), u 0 = u0 ∧ FlowU S δ beta nu F T u ∧
      (∀ u', u' 0 = u0 → FlowU S δ beta nu F T u' → ∀ t ∈ Set.Icc 0 T, u' t = u t) ∧
      ∀ G : Finset (Fin 2 → ℤ), S ⊆ G → ∀ c ∈ orders, ∀ (ps pa pb : ℕ → G → ℂ) (heap : Heap (Fin 2 × G)) (g1 g2 : Arr (Fin 2 × G))
        (cfl : Bool), ConvergesWithOrder c.2 T (fun t => array G (u t)) cfl
          fun dt k => array G (runUxuy n S G δ beta nu c.1 F ps pa pb heap g1 g2 cfl u0 dt k) := by
  obtain ⟨rot, h0, hflow, huniq, hconv⟩ := C87_ns2d hn hS hδ beta hnu (vorticity_real (δ := δ) hF) (vorticity_real (δ := δ) hu) hT
  have htriad := SpectBudget.triad_of_noAlias hS (hu 0).1
  have hv0 : ∀ r v, vecOf δ r v 0 = 0 := by
    intro r v
    rw [vecOf_mul]
    fin_cases v <;> simp [vecOf, ux2, uy2, Forcing.vecFromRot]
  -- the mean vorticity is zero
  have hmean : ∀ t ∈ Set.Icc 0 T, rot t 0 = 0 := by
    by_cases hz : (0 : Fin 2 → ℤ) ∈ S
    · have hd : ∀ t ∈ Set.Icc 0 T, HasDerivAt (fun t => rot t 0) 0 t := by
        intro t ht
        have hvel := velocity2_ux2 (S := S) hδ (rot t)
        refine (hflow.eq t ht _ _ hvel 0 hz).congr_deriv ?_
        rw [← C57_ns2d hn hS hδ beta hvel hz, C38_mean_vorticity hn htriad hS.distinct]
        simp [dissipation, vorticity, pd]
      intro t ht
      have := constant_of_derivWithin_zero (f := fun t => rot t 0) (a := 0) (b := T)
        (fun t ht => (hd t ht).differentiableAt.differentiableWithinAt)
        (fun t ht => (hd t ⟨ht.1, ht.2.le⟩).hasDerivWithinAt.derivWithin (uniqueDiffOn_Icc (lt_of_le_of_lt ht.1 ht.2) t ⟨ht.1, ht.2.le⟩)) t ht
      rw [this, h0]
      simp [vorticity, pd]
    · exact fun t ht => (hflow.real t ht).2 0 hz
  have hvr : ∀ t ∈ Set.Icc 0 T, vorticity δ (vecOf δ (rot t)) = rot t := by
    intro t ht
    funext q
    rw [← rotOf_eq, rot_vecOf]
    split
    · rename_i h; rw [wave_zero hδ h, hmean t ht]
    · rfl
  refine ⟨fun t => vecOf δ (rot t), ?_, ⟨fun t ht v => vecOf_real (hflow.real t ht) v, fun t _ q => ?_, fun t _ v => hv0 _ v,
    ⟨fun t ht => ?_, fun t ht ux uy hvel k hk => ?_⟩⟩, fun u' h0' hu' t ht => ?_, ?_⟩
  · show vecOf δ (rot 0) = u0
    rw [h0, vec_of_divFree hδ hud hu0]
  · simp only [pd, vecOf, ux2, uy2, Forcing.vecFromRot]; ring
  · rw [hvr t ht]; exact hflow.real t ht
  · rw [hvr t ht] at hvel ⊢
    have hd := hflow.eq t ht ux uy hvel k hk
    have e : (fun t => vorticity δ (vecOf δ (rot t)) k) = fun t => if (δ 0 * k 0 : ℝ) ^ 2 + (δ 1 * k 1) ^ 2 = 0 then 0 else rot t k := by
      funext t; rw [← rotOf_eq, rot_vecOf]
    rw [e]
    by_cases hk0 : (δ 0 * k 0 : ℝ) ^ 2 + (δ 1 * k 1) ^ 2 = 0
    · simp only [if_pos hk0]
      refine (hasDerivAt_const t (0 : ℂ)).congr_deriv ?_
      have hz := wave_zero hδ hk0
      subst hz
      rw [← C57_ns2d hn hS hδ beta hvel hk, C38_mean_vorticity hn htriad hS.distinct]
      simp [dissipation, vorticity, pd]
    · simp only [if_neg hk0]; exact hd
  · have := huniq (fun t => vorticity δ (u' t)) (by simp only [h0']) hu'.vort t ht
    show u' t = vecOf δ (rot t)
    rw [← this, vec_of_divFree hδ (hu'.divFree t ht) (hu'.mean t ht)]
  · intro G hG c hc ps pa pb heap g1 g2 cfl
    obtain ⟨C, b, hb, hC⟩ := hconv G hG c hc (fun m i => ps m i.2) (fun m i => pa m i.2) (fun m i => pb m i.2) (fun _ _ => 0) 0 0 cfl
    refine ⟨(∑ i, ‖coefVec G δ i‖) * C, b, hb, fun h dt hh hdt hcst k hk => ?_⟩
    have hs := C90_same_flow n S G δ beta nu c.1 (vorticity δ F) (vorticity δ u0) ps pa pb (fun _ _ => 0) heap 0 0 g1 g2 cfl
      (dt := dt) (fun k => (hdt k).1.ne') k
    rw [vec_of_divFree hδ hFd hF0, vec_of_divFree hδ hud hu0] at hs
    have hb := hC h dt hh hdt hcst k hk
    beta_reduce
    rw [hs, mul_assoc]
    refine le_trans ?_ (mul_le_mul_of_nonneg_left hb (by positivity))
    refine (pi_norm_le_iff_of_nonneg (by positivity)).2 fun i => ?_
    rw [Pi.sub_apply]
    have e1 : ∀ r : Fld (Fin 2), array G (vecOf δ r) i = coefVec G δ i * r i.2.1 := fun r => vecOf_mul δ r _ _
    rw [e1, e1, ← mul_sub, norm_mul]
    refine mul_le_mul (single_le_sum (f := fun i => ‖coefVec G δ i‖) (fun _ _ => norm_nonneg _) (mem_univ i)) ?_ (norm_nonneg _)
      (by positivity)
    refine le_trans (le_of_eq ?_) (norm_le_pi_norm _ ((), i.2))
    rw [Pi.sub_apply, runNs2d, fields, dif_pos i.2.2]
    simp only [h0, array]

/-! ### output -/

/-- C90: the energy spectrum of the outputs (`compute_energy_fft`) is, for a velocity without divergence, `|ζ|² / (2 k²)`, as in ns2d;
the mean flow is counted. -/
theorem C90_energy_fft {δ : Fin 2 → ℝ} (hδ : ∀ d, δ d ≠ 0) {u : Fin 2 → Fld (Fin 2)} (hdiv : DivFree δ u) (k : Fin 2 → ℤ) :
    energyFft u k = if k = 0 then (‖u 0 0‖ ^ 2 + ‖u 1 0‖ ^ 2) / 2 else ‖vorticity δ u k‖ ^ 2 / (2 * ((δ 0 * k 0) ^ 2 + (δ 1 * k 1) ^ 2)) := by
  split
  · rename_i h; rw [h, energyFft]
  · rename_i hk
    have hne : (δ 0 * k 0 : ℝ) ^ 2 + (δ 1 * k 1) ^ 2 ≠ 0 := fun h => hk (wave_zero hδ h)
    have hpos : 0 < (δ 0 * k 0 : ℝ) ^ 2 + (δ 1 * k 1) ^ 2 := lt_of_le_of_ne (by positivity) (Ne.symm hne)
    rw [energyFft, ← vecOf_rotOf (hdiv k) hne 0, ← vecOf_rotOf (hdiv k) hne 1, rotOf_eq]
    simp only [vecOf, ux2, uy2, Forcing.vecFromRot, k2not0_eq hne]
    generalize vorticity δ u k = z
    generalize (δ 0 * k 0 : ℝ) = a at *
    generalize (δ 1 * k 1 : ℝ) = b at *
    simp only [norm_mul, norm_div, norm_neg, Complex.norm_I, Complex.norm_real, Real.norm_eq_abs, abs_of_pos hpos]
    have e : ∀ D : ℝ, (1 * |b| / D * ‖z‖) ^ 2 + (1 * |a| / D * ‖z‖) ^ 2 = (|a| ^ 2 + |b| ^ 2) / D ^ 2 * ‖z‖ ^ 2 := by intro D; ring
    rw [e, sq_abs, sq_abs]
    field_simp

/-! ### findings -/

/-- FINDING: the initial velocity is not projected: a state initialised with `ux_fft` and `uy_fft` with a divergence is used and saved as it is at the
first time (with_uxuy.py 31-36), so that the velocity does not always have no divergence. -/
theorem C90_initial_divergence_violated : ¬ ∀ (n : Fin 2 → ℕ) (S G : Finset (Fin 2 → ℤ)) (δ : Fin 2 → ℝ) (beta : ℝ) (nu : Dissip.Nu)
    (sc : Scheme) (F u0 : Fin 2 → Fld (Fin 2)) (ps pa pb : ℕ → G → ℂ) (heap : Heap (Fin 2 × G)) (g1 g2 : Arr (Fin 2 × G)) (cfl : Bool)
    (dt : ℕ → ℝ) (k : ℕ), DivFree δ (runUxuy n S G δ beta nu sc F ps pa pb heap g1 g2 cfl u0 dt k) := by
  intro h
  have := h (fun _ => 4) EndToEnd.box EndToEnd.box (fun _ => 1) 0 ⟨0, 0, 0, 0⟩ .Euler (fun _ _ => 0)
    (fun v k => if k ∈ (EndToEnd.box : Finset (Fin 2 → ℤ)) then 1 else 0) (fun _ _ => 0) (fun _ _ => 0) (fun _ _ => 0) (fun _ _ => 0) 0 0 false
    (fun _ => 1) 0 (fun _ => 1)
  have hb : (fun _ => 1 : Fin 2 → ℤ) ∈ (EndToEnd.box : Finset (Fin 2 → ℤ)) := by simp [EndToEnd.box]
  simp [runUxuy, simulationUxuy, fields, array, hb, pd, ← two_mul] at this

/-- The tendencies of a velocity without vorticity: only the beta term. -/
theorem frot_potential {n : Fin 2 → ℕ} (hn : ∀ d, 0 < n d) {S : Finset (Fin 2 → ℤ)} (hD : Distinct n S) (δ : Fin 2 → ℝ) (beta : ℝ)
    {u : Fin 2 → Fld (Fin 2)} (h : rotOf δ u = fun _ => 0) {k : Fin 2 → ℤ} (hk : k ∈ S) : frotFft n S δ beta u k = -beta * u 1 k := by
  have hz : ∀ d j, gridVal n S (Energy.deriv δ d (rotOf δ u)) j = 0 := by
    intro d j; rw [h]; simp [gridVal, Energy.deriv]
  rw [frotFft, if_pos hk, ← fft_grid hn hD (u 1) hk, ← fft_mul]
  refine fft_congr n (fun j => ?_) k
  rw [hz, hz]
  simp only [computeFrot]
  split
  · rename_i h; rw [h]; simp
  · ring

theorem rk2_state {ι : Type*} (N : Arr ι → Arr ι) (dt : ℂ) (d d2 ps pa pb : Arr ι) (h : Heap ι) :
    timeStepRK .RK2 (fun _ => N) dt d d2 ps pa pb h .state
      = h .state * d + dt • (d2 * N ((h .state + (dt / 2) • N (h .state)) * d2)) := by
  simp [timeStepRK, rk2, tendencies, stepEuler, stepLikeRK2]

/-- FINDING: a force which is the gradient of a potential (balanced by the pressure: it has no effect on an incompressible flow) changes the
flow computed: the states inside a time step are not projected (with_uxuy.py 12-22), so that the tendencies are computed with
velocities which have a divergence. Here the scheme is RK2, the initial state is at rest and there is a beta effect. -/
theorem C90_gradient_force_violated : ¬ ∀ (n : Fin 2 → ℕ) (S G : Finset (Fin 2 → ℤ)) (δ : Fin 2 → ℝ) (beta : ℝ) (nu : Dissip.Nu)
    (sc : Scheme) (p : Fld (Fin 2)) (u0 : Fin 2 → Fld (Fin 2)) (ps pa pb : ℕ → G → ℂ) (heap : Heap (Fin 2 × G))
    (g1 g2 : Arr (Fin 2 × G)) (cfl : Bool) (dt : ℕ → ℝ) (k : ℕ), RealField S p →
      runUxuy n S G δ beta nu sc (fun v => pd δ v p) ps pa pb heap g1 g2 cfl u0 dt k
        = runUxuy n S G δ beta nu sc (fun _ _ => 0) ps pa pb heap g1 g2 cfl u0 dt k := by
  intro h
  set p : Fld (Fin 2) := fun k => if k = ![0, 1] ∨ k = ![0, -1] then 1 else 0 with hp
  set B : Finset (Fin 2 → ℤ) := EndToEnd.box with hB
  have hD : Distinct (fun _ : Fin 2 => 4) B := (box_noAlias (d := 2)).distinct
  have hq : (![0, 1] : Fin 2 → ℤ) ∈ B := by
    rw [hB, EndToEnd.box, Fintype.mem_piFinset]; intro d; fin_cases d <;> simp
  have hq' : (![0, -1] : Fin 2 → ℤ) ∈ B := by
    rw [hB, EndToEnd.box, Fintype.mem_piFinset]; intro d; fin_cases d <;> simp
  have hreal : RealField B p := by
    refine ⟨fun k hk => ⟨box_neg hk, ?_⟩, fun k hk => ?_⟩
    · have : (-k = ![0, 1] ∨ -k = ![0, -1]) ↔ (k = ![0, 1] ∨ k = ![0, -1]) := by
        rw [neg_eq_iff_eq_neg, neg_eq_iff_eq_neg]
        simp [or_comm]
      simp only [hp, this]
      split <;> simp
    · simp only [hp]
      rw [if_neg]
      rintro (rfl | rfl)
      · exact hk hq
      · exact hk hq'
  have key : ∀ F : Fin 2 → Fld (Fin 2), (∀ k, k ∉ B → ∀ v, F v k = 0) → rotOf (fun _ => 1) F = (fun _ => 0) →
      F 0 ![0, 1] = 0 →
      runUxuy (fun _ => 4) B B (fun _ => 1) 1 ⟨0, 0, 0, 0⟩ .RK2 F (fun _ _ => 0) (fun _ _ => 0) (fun _ _ => 0) (fun _ _ => 0) 0 0 false
        (fun _ _ => 0) (fun _ => 1) 1 0 ![0, 1] = -Complex.I / 2 * F 1 ![0, 1] := by
    intro F hout hrot hF0
    have hone : (fun i : Fin 2 × B => Complex.exp (-1 * freqDiss B (fun _ => 1) ⟨0, 0, 0, 0⟩ i)) = 1 := by
      funext i; simp [freqDiss, Dissip.fd]
    have hone2 : (fun i : Fin 2 × B => Complex.exp (-1 / 2 * freqDiss B (fun _ => 1) ⟨0, 0, 0, 0⟩ i)) = 1 := by
      funext i; simp [freqDiss, Dissip.fd]
    have hf0 : fields B (array B fun (_ : Fin 2) _ => (0 : ℂ)) = fun _ _ => 0 := by
      funext v k; simp [fields, array]
    have hr0 : rotOf (fun _ => 1) (fun _ _ => (0 : ℂ)) = fun _ => 0 := by funext k; simp [rotOf, Forcing.rotFromVec]
    have ht0 : tendUxuy (fun _ => 4) B (fun _ => 1) 1 (fun _ _ => 0) = fun _ _ => 0 := by
      funext v k
      rw [tendUxuy, vecOf_mul]
      by_cases hk : k ∈ B
      · rw [frot_potential (by simp) hD _ _ hr0 hk]; simp
      · simp [frotFft, hk]
    have hN0 : onArrays B (forced F (tendUxuy (fun _ => 4) B (fun _ => 1) 1)) (array B fun _ _ => 0) = array B F := by
      rw [onArrays, hf0]
      funext i
      simp [array, forced, ht0]
    have hfF : fields B (((1 : ℂ) / 2) • array B F) = fun v k => 1 / 2 * F v k := by
      funext v k
      simp only [fields, Pi.smul_apply, array, smul_eq_mul]
      split
      · rfl
      · rename_i hk; rw [hout k hk, mul_zero]
    have hrF : rotOf (fun _ => 1) (fun v k => 1 / 2 * F v k) = fun _ => 0 := by
      funext k
      have := congrFun hrot k
      simp only [rotOf, Forcing.rotFromVec] at this ⊢
      linear_combination (1 / 2 : ℂ) * this
    simp only [runUxuy, fields, dif_pos hq, simulationUxuy, oneStepUxuy, set_same, projectUxuy, array, perpOf, InitFields.projPerp,
      Schemes.dealias, truncated, hq, Coefs.get, Coefs.init, Coefs.compute]
    rw [rk2_state]
    simp only [set_same, Bool.false_eq_true, if_false, Complex.ofReal_one, hone, hone2]
    have hN1 : (onArrays B (forced F (tendUxuy (fun _ => 4) B (fun _ => 1) 1))
        (((array B fun _ _ => 0) + ((1 : ℂ) / 2) • onArrays B (forced F (tendUxuy (fun _ => 4) B (fun _ => 1) 1)) (array B fun _ _ => 0)) * 1))
        (0, ⟨![0, 1], hq⟩) = -Complex.I / 2 * F 1 ![0, 1] := by
      rw [hN0, mul_one]
      have : ((array B fun (_ : Fin 2) _ => (0 : ℂ)) + ((1 : ℂ) / 2) • array B F) = ((1 : ℂ) / 2) • array B F := by
        funext i; simp [array]
      rw [this, onArrays, hfF]
      simp only [array, forced, hF0, add_zero]
      rw [tendUxuy, vecOf_mul, frot_potential (by simp) hD _ _ hrF hq]
      simp [vecOf, ux2, Forcing.vecFromRot, Forcing.k2not0]
      ring
    simp only [mul_one, one_div] at hN1
    simp [array]
    exact hN1
  have e1 := key (fun v => pd (fun _ => 1) v p) (fun k hk v => by simp [pd, hreal.2 k hk])
    (by funext k; simp only [rotOf, Forcing.rotFromVec, pd]; ring) (by simp [pd])
  have e2 := key (fun _ _ => 0) (fun _ _ _ => rfl) (by funext k; simp [rotOf, Forcing.rotFromVec]) rfl
  have := congrFun (congrFun (h (fun _ => 4) B B (fun _ => 1) 1 ⟨0, 0, 0, 0⟩ .RK2 p (fun _ _ => 0) (fun _ _ => 0) (fun _ _ => 0)
    (fun _ _ => 0) (fun _ _ => 0) 0 0 false (fun _ => 1) 1 hreal) 0) ![0, 1]
  rw [e1, e2] at this
  simp [pd, hp] at this

/-! ### the hypotheses can be satisfied -/

/-- The velocity of the vorticity with all the modes equal to 1. -/
def uEx : Fin 2 → Fld (Fin 2) := vecOf (fun _ => 1) fun k => if k ∈ (EndToEnd.box : Finset (Fin 2 → ℤ)) then 1 else 0

theorem uEx_div : DivFree (fun _ => 1) uEx := by
  intro q
  simp only [uEx, pd, vecOf, ux2, uy2, Forcing.vecFromRot]; ring

theorem uEx_mean (v : Fin 2) : uEx v 0 = 0 := by
  rw [uEx, vecOf_mul]
  fin_cases v <;> simp [vecOf, ux2, uy2, Forcing.vecFromRot]

example : ∃ u : ℝ → Fin 2 → Fld (Fin 2), u 0 = uEx ∧ FlowU EndToEnd.box (fun _ => 1) 1 ⟨1, 0, 0, 0⟩ uEx 10 u := by
  obtain ⟨u, h0, h, _⟩ := C90_converges (n := fun _ => 4) (by simp) box_noAlias (δ := fun _ => 1) (by simp) 1 (nu := ⟨1, 0, 0, 0⟩)
    ⟨by norm_num, le_rfl, le_rfl, rfl⟩ (F := uEx) (u0 := uEx) (vecOf_real box_real) uEx_div uEx_mean (vecOf_real box_real) uEx_div
    uEx_mean (T := 10) (by norm_num)
  exact ⟨u, h0, h⟩

/-- With a mean flow. -/
def uEx' : Fin 2 → Fld (Fin 2) := fun v k => uEx v k + if k = 0 then 3 else 0

example : rateKinetic EndToEnd.box uEx' (tendUxuy (fun _ => 4) EndToEnd.box (fun _ => 1) 1 uEx') = 0 := by
  have hr : ∀ v, RealOn EndToEnd.box (uEx' v) := by
    intro v k hk
    refine ⟨box_neg hk, ?_⟩
    have h1 : uEx v (-k) = (starRingEnd ℂ) (uEx v k) := ((vecOf_real (δ := fun _ => 1) box_real v).1 k hk).2
    rw [uEx', uEx', map_add, ← h1]
    simp only [neg_eq_zero]
    congr 1
    split <;> simp [Complex.conj_ofNat]
  refine (C90_energy (by simp) (SpectBudget.triad_of_noAlias box_noAlias (hr 0)) box_noAlias.distinct (by simp) 1 hr fun k _ => ?_).1
  have := uEx_div k
  simp only [pd, uEx'] at this ⊢
  split
  · rename_i h; rw [h]; simp
  · simpa using this

end

end Verif.Uxuy
