import Verif.Uxuy.Lemmas
import Verif.EndToEnd.Props

/-!
# C90: ns2d.with_uxuy computes the same flow as ns2d
-/

set_option linter.unusedSectionVars false

namespace Verif.Uxuy

open Verif.Fourier Verif.Energy Verif.Galerkin Verif.Schemes Verif.Convergence Verif.EndToEnd Finset

noncomputable section

theorem rotOf_eq (δ : Fin 2 → ℝ) (u : Fin 2 → Fld (Fin 2)) : rotOf δ u = vorticity δ u := by
  funext k
  simp only [rotOf, vorticity, pd, Forcing.rotFromVec]
  ring

theorem wave_zero {δ : Fin 2 → ℝ} (hδ : ∀ d, δ d ≠ 0) {k : Fin 2 → ℤ} (h : (δ 0 * k 0 : ℝ) ^ 2 + (δ 1 * k 1) ^ 2 = 0) : k = 0 := by
  have h0 : δ 0 * k 0 = 0 := by nlinarith [sq_nonneg (δ 0 * (k 0 : ℝ)), sq_nonneg (δ 1 * (k 1 : ℝ))]
  have h1 : δ 1 * k 1 = 0 := by nlinarith [sq_nonneg (δ 0 * (k 0 : ℝ)), sq_nonneg (δ 1 * (k 1 : ℝ))]
  have h0' : k 0 = 0 := by exact_mod_cast (mul_eq_zero.1 h0).resolve_left (hδ 0)
  have h1' : k 1 = 0 := by exact_mod_cast (mul_eq_zero.1 h1).resolve_left (hδ 1)
  funext d
  fin_cases d
  · exact h0'
  · exact h1'

/-- A velocity without divergence at a mode which is not the mean is the velocity of its vorticity. -/
theorem vecOf_rotOf {δ : Fin 2 → ℝ} {u : Fin 2 → Fld (Fin 2)} {k : Fin 2 → ℤ} (hdiv : pd δ 0 (u 0) k + pd δ 1 (u 1) k = 0)
    (hk : (δ 0 * k 0 : ℝ) ^ 2 + (δ 1 * k 1) ^ 2 ≠ 0) (v : Fin 2) : vecOf δ (rotOf δ u) v k = u v k := by
  simp only [pd] at hdiv
  have e0 : vecOf δ (rotOf δ u) 0 k = Complex.I * (δ 1 * k 1 : ℝ) / Forcing.k2not0 (δ 0 * k 0) (δ 1 * k 1)
      * (Complex.I * ((δ 0 * k 0 : ℝ) * u 1 k - (δ 1 * k 1 : ℝ) * u 0 k)) := by
    simp only [vecOf, ux2, rotOf, Forcing.vecFromRot, Forcing.rotFromVec]
  have e1 : vecOf δ (rotOf δ u) 1 k = -Complex.I * (δ 0 * k 0 : ℝ) / Forcing.k2not0 (δ 0 * k 0) (δ 1 * k 1)
      * (Complex.I * ((δ 0 * k 0 : ℝ) * u 1 k - (δ 1 * k 1 : ℝ) * u 0 k)) := by
    simp only [vecOf, uy2, rotOf, Forcing.vecFromRot, Forcing.rotFromVec]
  rw [k2not0_eq hk] at e0 e1
  generalize (δ 0 * k 0 : ℝ) = a at *
  generalize (δ 1 * k 1 : ℝ) = b at *
  have h' : (a : ℂ) ^ 2 + (b : ℂ) ^ 2 ≠ 0 := by exact_mod_cast hk
  have hd : (a : ℂ) * u 0 k + b * u 1 k = 0 := by
    have : Complex.I * ((a : ℂ) * u 0 k + b * u 1 k) = 0 := by linear_combination hdiv
    exact (mul_eq_zero.1 this).resolve_left Complex.I_ne_zero
  have hI := Complex.I_sq
  push_cast at e0 e1
  fin_cases v
  · refine e0.trans ?_
    have : Complex.I * (b : ℂ) / (a ^ 2 + b ^ 2) * (Complex.I * (a * u 1 k - b * u 0 k))
        = -(Complex.I ^ 2) * ((((a : ℂ) ^ 2 + b ^ 2) * u 0 k - a * (a * u 0 k + b * u 1 k)) / (a ^ 2 + b ^ 2)) := by ring
    rw [this, hd, hI, mul_zero, sub_zero, mul_div_cancel_left₀ _ h']
    simp
  · refine e1.trans ?_
    have : -Complex.I * (a : ℂ) / (a ^ 2 + b ^ 2) * (Complex.I * (a * u 1 k - b * u 0 k))
        = -(Complex.I ^ 2) * ((((a : ℂ) ^ 2 + b ^ 2) * u 1 k - b * (a * u 0 k + b * u 1 k)) / (a ^ 2 + b ^ 2)) := by ring
    rw [this, hd, hI, mul_zero, sub_zero, mul_div_cancel_left₀ _ h']
    simp

/-- A velocity without divergence and mean is the velocity of its vorticity. -/
theorem vec_of_divFree {δ : Fin 2 → ℝ} (hδ : ∀ d, δ d ≠ 0) {u : Fin 2 → Fld (Fin 2)} (h : DivFree δ u) (h0 : ∀ v, u v 0 = 0) :
    vecOf δ (vorticity δ u) = u := by
  funext v k
  rw [← rotOf_eq]
  by_cases hk : (δ 0 * k 0 : ℝ) ^ 2 + (δ 1 * k 1) ^ 2 = 0
  · rw [wave_zero hδ hk, vecOf_mul, h0]
    fin_cases v <;> simp [vecOf, ux2, uy2, Forcing.vecFromRot]
  · exact vecOf_rotOf (h k) hk v

/-- C90: for every time scheme, every grid and truncation, every vorticity force and initial vorticity, every choice of the time steps and
whatever the contents of the work arrays, the velocity computed by ns2d.with_uxuy is, after each step, the velocity of the vorticity
computed by ns2d. -/
theorem C90_same_flow (n : Fin 2 → ℕ) (S G : Finset (Fin 2 → ℤ)) (δ : Fin 2 → ℝ) (beta : ℝ) (nu : Dissip.Nu) (sc : Scheme)
    (F rot0 : Fld (Fin 2)) (ps pa pb : ℕ → G → ℂ) (heap : Heap (Unit × G)) (heap' : Heap (Fin 2 × G)) (g1 g2 : Arr (Unit × G))
    (g1' g2' : Arr (Fin 2 × G)) (cfl : Bool) {dt : ℕ → ℝ} (hdt : ∀ k, dt k ≠ 0) (k : ℕ) :
    runUxuy n S G δ beta nu sc (vecOf δ F) ps pa pb heap' g1' g2' cfl (vecOf δ rot0) dt k
      = vecOf δ (runNs2d n S G δ beta nu sc F ps pa pb heap g1 g2 cfl rot0 dt k) := by
  rw [runUxuy, runNs2d, ← fields_lift, array_vecOf]
  congr 1
  exact (simulation_lift (coefVec G δ) (fun i : Fin 2 × G => ((), i.2)) (fun x => onArrays_lift n S G δ beta F x)
    (fun x => project_lift G δ x) sc (freqDiss G δ nu) (truncated G S) (fun m i => ps m i.2) (fun m i => pa m i.2)
    (fun m i => pb m i.2) heap heap' g1 g2 g1' g2' cfl (array G fun _ => rot0) hdt k).2

/-- C90, from velocities: for an initial velocity and a force per unit mass without divergence and mean, the vorticity of the velocity
computed by ns2d.with_uxuy is the one computed by ns2d with the vorticity of the force and of the initial state (the mean vorticity,
which is zero for a periodic velocity, excepted), and the velocity is the one which has this vorticity. -/
theorem C90_same_vorticity (n : Fin 2 → ℕ) (S G : Finset (Fin 2 → ℤ)) {δ : Fin 2 → ℝ} (hδ : ∀ d, δ d ≠ 0) (beta : ℝ) (nu : Dissip.Nu)
    (sc : Scheme) {F u0 : Fin 2 → Fld (Fin 2)} (hF : DivFree δ F) (hF0 : ∀ v, F v 0 = 0) (hu : DivFree δ u0) (hu0 : ∀ v, u0 v 0 = 0)
    (ps pa pb : ℕ → G → ℂ) (heap : Heap (Unit × G)) (heap' : Heap (Fin 2 × G)) (g1 g2 : Arr (Unit × G))
    (g1' g2' : Arr (Fin 2 × G)) (cfl : Bool) {dt : ℕ → ℝ} (hdt : ∀ k, dt k ≠ 0) (k : ℕ) :
    let u := runUxuy n S G δ beta nu sc F ps pa pb heap' g1' g2' cfl u0 dt k
    let rot := runNs2d n S G δ beta nu sc (vorticity δ F) ps pa pb heap g1 g2 cfl (vorticity δ u0) dt k
    DivFree δ u ∧ (∀ q, q ≠ 0 → vorticity δ u q = rot q) ∧ ∀ v, u v 0 = 0 := by
  intro u rot
  have hs := C90_same_flow n S G δ beta nu sc (vorticity δ F) (vorticity δ u0) ps pa pb heap heap' g1 g2 g1' g2' cfl hdt k
  rw [vec_of_divFree hδ hF hF0, vec_of_divFree hδ hu hu0] at hs
  change u = vecOf δ rot at hs
  rw [hs]
  refine ⟨fun q => ?_, fun q hq => ?_, fun v => ?_⟩
  · simp only [pd, vecOf, ux2, uy2, Forcing.vecFromRot]; ring
  · rw [← rotOf_eq, rot_vecOf, if_neg fun h => hq (wave_zero hδ h)]
  · rw [vecOf_mul]
    fin_cases v <;> simp [vecOf, ux2, uy2, Forcing.vecFromRot]

/-- C90: after each step the velocity has no divergence, for every initial state and force, with a divergence or not, and whatever the
tendencies. -/
theorem C90_incompressible (n : Fin 2 → ℕ) (S G : Finset (Fin 2 → ℤ)) (δ : Fin 2 → ℝ) (beta : ℝ) (nu : Dissip.Nu) (sc : Scheme)
    (F u0 : Fin 2 → Fld (Fin 2)) (ps pa pb : ℕ → G → ℂ) (heap : Heap (Fin 2 × G)) (g1 g2 : Arr (Fin 2 × G)) (cfl : Bool) (dt : ℕ → ℝ)
    (k : ℕ) : DivFree δ (runUxuy n S G δ beta nu sc F ps pa pb heap g1 g2 cfl u0 dt (k + 1)) := by
  intro q
  have key : ∀ a b : ℝ, ∀ x y : ℂ, Complex.I * a * (InitFields.projPerp a b (x, y)).1 + Complex.I * b * (InitFields.projPerp a b (x, y)).2
      = 0 := by
    intro a b x y
    simp only [InitFields.projPerp]
    by_cases h : a ^ 2 + b ^ 2 = 0
    · have h0 : a = 0 := by nlinarith [sq_nonneg a, sq_nonneg b]
      have h1 : b = 0 := by nlinarith [sq_nonneg a, sq_nonneg b]
      rw [h0, h1]; simp
    · have h' : (a : ℂ) ^ 2 + (b : ℂ) ^ 2 ≠ 0 := by exact_mod_cast h
      rw [k2not0_eq h]
      push_cast
      have : Complex.I * a * (x - a * ((a * x + b * y) / (a ^ 2 + b ^ 2))) + Complex.I * b * (y - b * ((a * x + b * y) / (a ^ 2 + b ^ 2)))
          = Complex.I * ((a * x + b * y) - ((a : ℂ) ^ 2 + b ^ 2) * ((a * x + b * y) / (a ^ 2 + b ^ 2))) := by ring
      rw [this, mul_div_cancel₀ _ h', sub_self, mul_zero]
  by_cases hq : q ∈ G
  · simp only [runUxuy, pd, fields, dif_pos hq, simulationUxuy, oneStepUxuy, set_same, projectUxuy, array, perpOf]
    exact key _ _ _ _
  · simp [runUxuy, pd, fields, hq]

/-! ### the equation -/

/-- The mean velocity. -/
def meanOf (u : Fin 2 → Fld (Fin 2)) (v : Fin 2) : Fld (Fin 2) := fun k => if k = 0 then u v 0 else 0

theorem grid_mean (n : Fin 2 → ℕ) (S : Finset (Fin 2 → ℤ)) (u : Fin 2 → Fld (Fin 2)) (v : Fin 2) (j : Pt n) :
    gridVal n S (meanOf u v) j = if (0 : Fin 2 → ℤ) ∈ S then u v 0 else 0 := by
  simp only [gridVal, meanOf, ite_mul, zero_mul]
  rw [sum_ite_eq' S 0]
  split <;> simp [chi]

theorem split_mean {S : Finset (Fin 2 → ℤ)} {δ : Fin 2 → ℝ} (hδ : ∀ d, δ d ≠ 0) {u : Fin 2 → Fld (Fin 2)}
    (hdiv : ∀ k ∈ S, pd δ 0 (u 0) k + pd δ 1 (u 1) k = 0) (v : Fin 2) {k : Fin 2 → ℤ} (hk : k ∈ S) :
    u v k = vecOf δ (rotOf δ u) v k + meanOf u v k := by
  by_cases h0 : k = 0
  · subst h0
    rw [vecOf_mul]
    fin_cases v <;> simp [vecOf, ux2, uy2, Forcing.vecFromRot, meanOf]
  · rw [vecOf_rotOf (hdiv k hk) (fun h => h0 (wave_zero hδ h))]
    simp [meanOf, h0]

theorem grid_split (n : Fin 2 → ℕ) {S : Finset (Fin 2 → ℤ)} {δ : Fin 2 → ℝ} (hδ : ∀ d, δ d ≠ 0) {u : Fin 2 → Fld (Fin 2)}
    (hdiv : ∀ k ∈ S, pd δ 0 (u 0) k + pd δ 1 (u 1) k = 0) (v : Fin 2) (j : Pt n) :
    gridVal n S (u v) j = gridVal n S (vecOf δ (rotOf δ u) v) j + if (0 : Fin 2 → ℤ) ∈ S then u v 0 else 0 := by
  rw [← grid_mean, gridVal, gridVal, gridVal, ← sum_add_distrib]
  exact sum_congr rfl fun k hk => by rw [split_mean hδ hdiv v hk]; ring

/-- `Frot_fft` for a velocity without divergence: the one of ns2d and the advection by the mean velocity. -/
theorem frot_eq {n : Fin 2 → ℕ} (hn : ∀ d, 0 < n d) {S : Finset (Fin 2 → ℤ)} (hD : Distinct n S) {δ : Fin 2 → ℝ}
    (hδ : ∀ d, δ d ≠ 0) (beta : ℝ) {u : Fin 2 → Fld (Fin 2)} (hdiv : ∀ k ∈ S, pd δ 0 (u 0) k + pd δ 1 (u 1) k = 0) {k : Fin 2 → ℤ}
    (hk : k ∈ S) (hk0 : k ≠ 0) :
    frotFft n S δ beta u k = ns2d n S δ beta (rotOf δ u) k
      - (if (0 : Fin 2 → ℤ) ∈ S then u 0 0 else 0) * Energy.deriv δ 0 (rotOf δ u) k
      - (if (0 : Fin 2 → ℤ) ∈ S then u 1 0 else 0) * Energy.deriv δ 1 (rotOf δ u) k := by
  rw [frotFft, if_pos hk, ns2d, if_pos hk, ← fft_grid hn hD (Energy.deriv δ 0 (rotOf δ u)) hk,
    ← fft_grid hn hD (Energy.deriv δ 1 (rotOf δ u)) hk, ← fft_mul, ← fft_mul, ← fft_sub, ← fft_sub]
  have hz : fftCoef n (fun j => (beta : ℂ) * gridVal n S (meanOf u 1) j) k = 0 := by
    rw [fft_mul, fft_grid hn hD _ hk, meanOf, if_neg hk0, mul_zero]
  refine Eq.trans (b := _ - fftCoef n (fun j => (beta : ℂ) * gridVal n S (meanOf u 1) j) k) ?_ (by rw [hz, sub_zero])
  rw [← fft_sub]
  refine fft_congr n (fun j => ?_) k
  rw [grid_split n hδ hdiv 0 j, grid_split n hδ hdiv 1 j, grid_mean]
  simp only [computeFrot, vecOf]
  split
  · rename_i h; rw [h]; push_cast; ring
  · ring

/-- C90, energy: the nonlinear terms of ns2d.with_uxuy do not change the kinetic energy, for every real velocity without divergence,
with a mean flow or not. -/
theorem C90_energy {n : Fin 2 → ℕ} (hn : ∀ d, 0 < n d) {S : Finset (Fin 2 → ℤ)} (hS : TriadExact n S) (hD : Distinct n S)
    {δ : Fin 2 → ℝ} (hδ : ∀ d, δ d ≠ 0) (beta : ℝ) {u : Fin 2 → Fld (Fin 2)} (hreal : ∀ v, RealOn S (u v))
    (hdiv : ∀ k ∈ S, pd δ 0 (u 0) k + pd δ 1 (u 1) k = 0) :
    rateKinetic S u (tendUxuy n S δ beta u) = 0 ∧ rate S (vorticity δ u) (vorticity δ (tendUxuy n S δ beta u)) = 0 := by
  set z := rotOf δ u with hz
  set F := frotFft n S δ beta u with hF
  have hzreal : RealOn S z := by
    intro k hk
    refine ⟨(hreal 0 k hk).1, ?_⟩
    simp only [hz, rotOf, Forcing.rotFromVec, (hreal 0 k hk).2, (hreal 1 k hk).2, Pi.neg_apply, map_mul, map_sub, Complex.conj_I,
      Complex.conj_ofReal, Int.cast_neg]
    push_cast
    ring
  have hz0 : z 0 = 0 := by simp [hz, rotOf, Forcing.rotFromVec]
  have hU : ∀ v, (if (0 : Fin 2 → ℤ) ∈ S then u v 0 else 0).im = 0 := by
    intro v
    split
    · rename_i h
      have := (hreal v 0 h).2
      rw [neg_zero] at this
      exact Complex.conj_eq_iff_im.1 this.symm
    · rfl
  -- work of the advection by the mean flow
  have hwork : ∀ k ∈ S, k ≠ 0 → (F k * (starRingEnd ℂ) (z k)).re = (ns2d n S δ beta z k * (starRingEnd ℂ) (z k)).re := by
    intro k hk hk0
    rw [hF, frot_eq hn hD hδ beta hdiv hk hk0, ← hz]
    have h0 := hU 0
    have h1 := hU 1
    simp only [Energy.deriv, Complex.sub_re, Complex.mul_re, Complex.mul_im, Complex.sub_im, Complex.I_re, Complex.I_im,
      Complex.ofReal_re, Complex.ofReal_im, Complex.conj_re, Complex.conj_im, h0, h1]
    ring
  constructor
  · have hkin : rateKinetic S u (tendUxuy n S δ beta u) = rateEnergy2 S δ z F := by
      rw [rateKinetic, rate, rate, ← sum_add_distrib, rateEnergy2, sum_filter]
      refine sum_congr rfl fun k hk => ?_
      by_cases hk0 : k = 0
      · subst hk0
        simp [tendUxuy, vecOf, ux2, uy2, Forcing.vecFromRot]
      · rw [if_pos hk0]
        have hne : (δ 0 * k 0 : ℝ) ^ 2 + (δ 1 * k 1) ^ 2 ≠ 0 := fun h => hk0 (wave_zero hδ h)
        rw [← vecOf_rotOf (hdiv k hk) hne 0, ← vecOf_rotOf (hdiv k hk) hne 1, ← hz]
        simp only [tendUxuy, ← hF, vecOf, ux2, uy2, Forcing.vecFromRot, k2not0_eq hne]
        generalize (δ 0 * k 0 : ℝ) = a at hne ⊢
        generalize (δ 1 * k 1 : ℝ) = b at hne ⊢
        simp only [map_mul, map_div₀, map_neg, Complex.conj_I, Complex.conj_ofReal]
        rw [← Complex.add_re]
        have e : Complex.I * b / ((a ^ 2 + b ^ 2 : ℝ) : ℂ) * F k * (-Complex.I * b / ((a ^ 2 + b ^ 2 : ℝ) : ℂ) * (starRingEnd ℂ) (z k))
            + -Complex.I * a / ((a ^ 2 + b ^ 2 : ℝ) : ℂ) * F k * (- -Complex.I * a / ((a ^ 2 + b ^ 2 : ℝ) : ℂ) * (starRingEnd ℂ) (z k))
            = ((1 / (a ^ 2 + b ^ 2) : ℝ) : ℂ) * (F k * (starRingEnd ℂ) (z k)) := by
          have h' : (a : ℂ) ^ 2 + (b : ℂ) ^ 2 ≠ 0 := by exact_mod_cast hne
          push_cast
          have e1 : ∀ x y D : ℂ, Complex.I * b / D * x * (-Complex.I * b / D * y) + -Complex.I * a / D * x * (- -Complex.I * a / D * y)
              = -(Complex.I ^ 2) * (((a : ℂ) ^ 2 + b ^ 2) / D) * (1 / D) * (x * y) := by intro x y D; ring
          rw [e1, div_self h', Complex.I_sq]
          ring
        rw [e, Complex.re_ofReal_mul]
        ring
    rw [hkin, ← C38_energy hn hS hD hδ beta z hzreal, rateEnergy2, rateEnergy2]
    refine sum_congr rfl fun k hk => ?_
    rw [mem_filter] at hk
    rw [hwork k hk.1 hk.2]
  · rw [← C38_enstrophy hn hS hD δ beta z hzreal, ← rotOf_eq, ← rotOf_eq, ← hz, rate, rate]
    refine sum_congr rfl fun k hk => ?_
    by_cases hk0 : k = 0
    · rw [hk0, hz0]; simp
    · rw [tendUxuy, rot_vecOf, if_neg fun h => hk0 (wave_zero hδ h)]
      exact hwork k hk hk0

/-- C90, equation: for every velocity (with a mean flow or not), the tendency has no divergence and no mean and its vorticity is
`-u·∇ζ - β uy`. -/
theorem C90_equation {n : Fin 2 → ℕ} (hn : ∀ d, 0 < n d) {S : Finset (Fin 2 → ℤ)} (hS : NoAlias n S) {δ : Fin 2 → ℝ}
    (hδ : ∀ d, δ d ≠ 0) (beta : ℝ) {u : Fin 2 → Fld (Fin 2)} :
    DivFree δ (tendUxuy n S δ beta u) ∧ (∀ v, tendUxuy n S δ beta u v 0 = 0) ∧
    ∀ k ∈ S, k ≠ 0 → vorticity δ (tendUxuy n S δ beta u) k = -advect S δ u (vorticity δ u) k - beta * u 1 k := by
  refine ⟨fun q => ?_, fun v => ?_, fun k hk hk0 => ?_⟩
  · simp only [tendUxuy, pd, vecOf, ux2, uy2, Forcing.vecFromRot]; ring
  · rw [tendUxuy, vecOf_mul]
    fin_cases v <;> simp [vecOf, ux2, uy2, Forcing.vecFromRot]
  · rw [← rotOf_eq, tendUxuy, rot_vecOf, if_neg fun h => hk0 (wave_zero hδ h), frotFft, if_pos hk, ← rotOf_eq]
    simp only [advect, Fin.sum_univ_two, pd_deriv]
    rw [← fft_prod hn hS _ _ hk, ← fft_prod hn hS _ _ hk, ← fft_grid hn hS.distinct (u 1) hk, ← fft_mul, ← fft_add, ← fft_neg,
      ← fft_sub]
    refine fft_congr n (fun j => ?_) k
    simp only [computeFrot]
    split
    · rename_i h; rw [h]; push_cast; ring
    · ring

/-- C90, momentum: without beta, the tendency of a velocity without divergence is `-(u·∇)u - ∇p`, for a pressure `p`. -/
theorem C90_momentum {n : Fin 2 → ℕ} (hn : ∀ d, 0 < n d) {S : Finset (Fin 2 → ℤ)} (hS : NoAlias n S) {δ : Fin 2 → ℝ}
    (hδ : ∀ d, δ d ≠ 0) {u : Fin 2 → Fld (Fin 2)} (hdiv : ∀ k ∈ S, pd δ 0 (u 0) k + pd δ 1 (u 1) k = 0) :
    ∃ p : Fld (Fin 2), ∀ v, ∀ k ∈ S, tendUxuy n S δ 0 u v k = -advect S δ u (u v) k - pd δ v p k := by
  have hcomb : ∀ (a : Fld (Fin 2)) k, exactProduct S (pd δ 0 (u 0)) a k + exactProduct S (pd δ 1 (u 1)) a k = 0 := by
    intro a k
    rw [← exact_add_left, exact_congr (u' := fun _ => 0) (v' := a) hdiv (fun _ _ => rfl)]
    simp [exactProduct]
  have hflux : ∀ v k, advect S δ u (u v) k = Complex.I * ((δ 0 * k 0 : ℝ) : ℂ) * exactProduct S (u 0) (u v) k
      + Complex.I * ((δ 1 * k 1 : ℝ) : ℂ) * exactProduct S (u 1) (u v) k := by
    intro v k
    rw [exact_leibniz, exact_leibniz, advect, Fin.sum_univ_two]
    linear_combination -(hcomb (u v) k)
  -- the curl of the advection term
  have hcurl : ∀ k, Complex.I * ((δ 0 * k 0 : ℝ) : ℂ) * advect S δ u (u 1) k - Complex.I * ((δ 1 * k 1 : ℝ) : ℂ) * advect S δ u (u 0) k
      = advect S δ u (vorticity δ u) k := by
    intro k
    have hpd : ∀ d e (a : Fld (Fin 2)), pd δ d (pd δ e a) = pd δ e (pd δ d a) := by
      intro d e a; funext q; simp only [pd]; ring
    have hsub : ∀ d, pd δ d (vorticity δ u) = fun q => pd δ d (pd δ 0 (u 1)) q - pd δ d (pd δ 1 (u 0)) q := by
      intro d; funext q; simp only [pd, vorticity]; ring
    have hz := hcomb (vorticity δ u) k
    have hz' : exactProduct S (pd δ 0 (u 0)) (vorticity δ u) k = exactProduct S (pd δ 0 (u 0)) (pd δ 0 (u 1)) k
        - exactProduct S (pd δ 0 (u 0)) (pd δ 1 (u 0)) k := exact_sub_right S _ _ _ k
    have hz'' : exactProduct S (pd δ 1 (u 1)) (vorticity δ u) k = exactProduct S (pd δ 1 (u 1)) (pd δ 0 (u 1)) k
        - exactProduct S (pd δ 1 (u 1)) (pd δ 1 (u 0)) k := exact_sub_right S _ _ _ k
    simp only [advect, Fin.sum_univ_two, mul_add, exact_leibniz, hsub, exact_sub_right]
    rw [hz', hz''] at hz
    rw [hpd 0 1 (u 1), hpd 0 1 (u 0), exact_comm S (pd δ 1 (u 1)) (pd δ 0 (u 1)),
      exact_comm S (pd δ 0 (u 0)) (pd δ 1 (u 0))] at *
    linear_combination hz
  obtain ⟨t1, t2, t3⟩ := C90_equation hn hS hδ 0 (u := u)
  set T := tendUxuy n S δ 0 u
  refine ⟨fun k => if k = 0 then 0 else -Complex.I * (((δ 0 * k 0 : ℝ) : ℂ) * (-advect S δ u (u 0) k - T 0 k)
    + ((δ 1 * k 1 : ℝ) : ℂ) * (-advect S δ u (u 1) k - T 1 k)) / ((δ 0 * k 0 : ℝ) ^ 2 + (δ 1 * k 1 : ℝ) ^ 2 : ℝ), fun v k hk => ?_⟩
  by_cases hk0 : k = 0
  · subst hk0
    rw [t2, hflux]; simp [pd]
  · have hne : (δ 0 * k 0 : ℝ) ^ 2 + (δ 1 * k 1) ^ 2 ≠ 0 := fun h => hk0 (wave_zero hδ h)
    have h3 := t3 k hk hk0
    rw [← hcurl k] at h3
    simp only [vorticity, pd] at h3
    simp only [pd, if_neg hk0]
    have hc : ((δ 0 * k 0 : ℝ) : ℂ) * (-advect S δ u (u 1) k - T 1 k) = ((δ 1 * k 1 : ℝ) : ℂ) * (-advect S δ u (u 0) k - T 0 k) := by
      have : Complex.I * (((δ 0 * k 0 : ℝ) : ℂ) * (-advect S δ u (u 1) k - T 1 k)
          - ((δ 1 * k 1 : ℝ) : ℂ) * (-advect S δ u (u 0) k - T 0 k)) = 0 := by
        rw [Complex.ofReal_zero, zero_mul, sub_zero] at h3
        linear_combination -h3
      exact sub_eq_zero.1 ((mul_eq_zero.1 this).resolve_left Complex.I_ne_zero)
    have hcases : v = 0 ∨ v = 1 := by fin_cases v <;> simp
    rcases hcases with rfl | rfl
    · generalize (δ 0 * k 0 : ℝ) = a at *
      generalize (δ 1 * k 1 : ℝ) = b at *
      have h' : (a : ℂ) ^ 2 + (b : ℂ) ^ 2 ≠ 0 := by exact_mod_cast hne
      push_cast
      generalize hw0 : -advect S δ u (u 0) k - T 0 k = w0 at *
      generalize hw1 : -advect S δ u (u 1) k - T 1 k = w1 at *
      have e : Complex.I * (a : ℂ) * (-Complex.I * (a * w0 + b * w1) / (a ^ 2 + b ^ 2)) = w0 := by
        have : Complex.I * (a : ℂ) * (-Complex.I * (a * w0 + b * w1) / (a ^ 2 + b ^ 2))
            = -(Complex.I ^ 2) * (((a : ℂ) * (a * w0 + b * w1)) / (a ^ 2 + b ^ 2)) := by ring
        rw [this, Complex.I_sq, show (((a : ℂ) : ℂ) * (a * w0 + b * w1)) = (a ^ 2 + b ^ 2) * w0 by linear_combination (b : ℂ) * hc,
          mul_div_cancel_left₀ _ h']
        ring
      rw [e, ← hw0]
      ring
    · generalize (δ 0 * k 0 : ℝ) = a at *
      generalize (δ 1 * k 1 : ℝ) = b at *
      have h' : (a : ℂ) ^ 2 + (b : ℂ) ^ 2 ≠ 0 := by exact_mod_cast hne
      push_cast
      generalize hw0 : -advect S δ u (u 0) k - T 0 k = w0 at *
      generalize hw1 : -advect S δ u (u 1) k - T 1 k = w1 at *
      have e : Complex.I * (b : ℂ) * (-Complex.I * (a * w0 + b * w1) / (a ^ 2 + b ^ 2)) = w1 := by
        have : Complex.I * (b : ℂ) * (-Complex.I * (a * w0 + b * w1) / (a ^ 2 + b ^ 2))
            = -(Complex.I ^ 2) * (((b : ℂ) * (a * w0 + b * w1)) / (a ^ 2 + b ^ 2)) := by ring
        rw [this, Complex.I_sq, show (((b : ℂ) : ℂ) * (a * w0 + b * w1)) = (a ^ 2 + b ^ 2) * w1 by linear_combination (-(a : ℂ)) * hc,
          mul_div_cancel_left₀ _ h']
        ring
      rw [e, ← hw1]
      ring

end

end Verif.Uxuy
