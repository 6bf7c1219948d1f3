import Verif.Convergence.LemmasStep

/-! Helper lemmas for C83: the states computed by the schemes. -/

namespace Verif.Convergence

open Verif Schemes Set

set_option linter.unusedSectionVars false

variable {ι : Type*} [Fintype ι]

theorem csmul (h : ℝ) (x : Arr ι) : (h : ℂ) • x = h • x := by
  funext i; simp

theorem csmul2 (h : ℝ) (x : Arr ι) : ((h : ℂ) / 2) • x = (h / 2) • x := by
  rw [← csmul]; push_cast; rfl

theorem chalf (x : Arr ι) : (1 / 2 : ℂ) • x = (1 / 2 : ℝ) • x := by
  rw [← csmul]; push_cast; rfl

variable (N : Arr ι → Arr ι) (h : ℝ) (E E2 ps pa pb : Arr ι) (H : Heap ι)

theorem form_euler : timeStepRK .Euler (fun _ => N) (h : ℂ) E E2 ps pa pb H .state =
    E * (H .state + h • N (H .state)) := by
  simp [timeStepRK, euler, tendencies, stepEuler, csmul, mul_comm]

theorem form_rk2 : timeStepRK .RK2 (fun _ => N) (h : ℂ) E E2 ps pa pb H .state =
    E * H .state + h • (E2 * N (E2 * (H .state + (h / 2) • N (H .state)))) := by
  simp [timeStepRK, rk2, tendencies, stepEuler, stepLikeRK2, csmul, csmul2, mul_comm]

theorem form_trapezoid : timeStepRK .RK2_trapezoid (fun _ => N) (h : ℂ) E E2 ps pa pb H .state =
    E * (H .state + (h / 2) • N (H .state)) + (h / 2) • N (E * (H .state + h • N (H .state))) := by
  simp [timeStepRK, rk2Trapezoid, tendencies, stepEuler, csmul, csmul2, mul_comm]

theorem form_euler_ps : timeStepRK .Euler_phaseshift (fun _ => N) (h : ℂ) E E2 ps pa pb H .state =
    E * (H .state + h • shiftMean N ps (H .state)) := by
  simp [timeStepRK, eulerPhaseshift, tendencies, stepEuler, csmul, mul_comm, shiftMean]

theorem form_euler_psr : timeStepRK .Euler_phaseshift_random (fun _ => N) (h : ℂ) E E2 ps pa pb H .state =
    E * (H .state + h • ((1 / 2 : ℂ) • (shifted N pa (H .state) + shifted N pb (H .state)))) := by
  simp [timeStepRK, eulerPhaseshiftRandom, stepEuler, csmul, mul_comm, shifted]

theorem form_rk2_ps : timeStepRK .RK2_phaseshift (fun _ => N) (h : ℂ) E E2 ps pa pb H .state =
    E * H .state + h • (E2 * ((1 / 2 : ℝ) • (N (H .state) +
      shifted N ps (E * (H .state + h • N (H .state)))))) := by
  rw [← chalf]
  simp [timeStepRK, rk2Phaseshift, tendencies, stepEuler, meanWithPhaseshift, stepLikeRK2, csmul, mul_comm, shifted]

theorem form_rk2_psr : timeStepRK .RK2_phaseshift_random (fun _ => N) (h : ℂ) E E2 ps pa pb H .state =
    E * H .state + h • (E2 * ((1 / 2 : ℝ) • (shifted N pa (H .state) +
      shifted N pb (E * (H .state + h • shifted N pa (H .state)))))) := by
  rw [← chalf]
  simp [timeStepRK, rk2PhaseshiftRandom, tendencies, stepEuler, meanWithPhaseshift, stepLikeRK2, mulShift, divInplace,
    csmul, mul_comm, shifted]

theorem form_rk2_pse : timeStepRK .RK2_phaseshift_exact (fun _ => N) (h : ℂ) E E2 ps pa pb H .state =
    E * H .state + h • (E2 * ((1 / 2 : ℝ) • (shiftMean N ps (H .state) +
      shiftMean N ps (E * (H .state + h • shiftMean N ps (H .state)))))) := by
  rw [← chalf]
  simp [timeStepRK, rk2PhaseshiftExact, tendencies, stepEuler, meanWithPhaseshift, stepLikeRK2, mulShift,
    csmul, mul_comm, shiftMean]

theorem form_rk4 : timeStepRK .RK4 (fun _ => N) (h : ℂ) E E2 ps pa pb H .state =
    let s := H .state
    let n0 := N s
    let a1 := E2 * (s + (h / 2) • n0)
    let a2 := E2 * s + (h / 2) • N a1
    let a3 := E * s + h • (E2 * N a2)
    E * s + (h / 6) • (E * n0 + (2 : ℝ) • (E2 * N a1) + (2 : ℝ) • (E2 * N a2) + N a3) := by
  have h6 : ∀ x : Arr ι, ((h : ℂ) / 6) • x = (h / 6) • x := fun x => by rw [← csmul]; push_cast; rfl
  have h3 : ∀ x : Arr ι, ((h : ℂ) / 3) • x = (h / 3) • x := fun x => by rw [← csmul]; push_cast; rfl
  simp only [timeStepRK, rk4, tendencies, stepEuler, csmul, csmul2, h6, h3]
  simp only [set_same, set_other, ne_eq, reduceCtorEq, not_false_eq_true]
  simp only [mul_comm _ E, mul_comm _ E2, mul_add, mul_smul_comm]
  module

/-- Phase shifts do not change the norms. -/
theorem norm_unimodular_mul {p : Arr ι} (hp : ∀ i, ‖p i‖ = 1) (x : Arr ι) : ‖p * x‖ = ‖x‖ := by
  have : ∀ i, ‖(p * x) i‖ = ‖x i‖ := fun i => by simp [hp i]
  simp only [Pi.norm_def]
  congr 1
  refine Finset.sup_congr rfl fun i _ => ?_
  exact NNReal.eq (this i)

theorem norm_unimodular_div {p : Arr ι} (hp : ∀ i, ‖p i‖ = 1) (x : Arr ι) : ‖x / p‖ = ‖x‖ := by
  have : ∀ i, ‖(x / p) i‖ = ‖x i‖ := fun i => by simp [hp i]
  simp only [Pi.norm_def]
  congr 1
  refine Finset.sup_congr rfl fun i _ => ?_
  exact NNReal.eq (this i)

theorem shifted_lip {N : Arr ι → Arr ι} {p : Arr ι} (hp : ∀ i, ‖p i‖ = 1) {L R : ℝ}
    (hlip : ∀ x y : Arr ι, ‖x‖ ≤ R → ‖y‖ ≤ R → ‖N x - N y‖ ≤ L * ‖x - y‖) (x y : Arr ι) (hx : ‖x‖ ≤ R)
    (hy : ‖y‖ ≤ R) : ‖shifted N p x - shifted N p y‖ ≤ L * ‖x - y‖ := by
  have e : shifted N p x - shifted N p y = (N (p * x) - N (p * y)) / p := by
    funext i; simp [shifted, sub_div]
  rw [e, norm_unimodular_div hp]
  have := hlip (p * x) (p * y) (by rwa [norm_unimodular_mul hp]) (by rwa [norm_unimodular_mul hp])
  rwa [← mul_sub, norm_unimodular_mul hp] at this

theorem shifted_bound {N : Arr ι → Arr ι} {p : Arr ι} (hp : ∀ i, ‖p i‖ = 1) {B R : ℝ}
    (hb : ∀ x : Arr ι, ‖x‖ ≤ R → ‖N x‖ ≤ B) (x : Arr ι) (hx : ‖x‖ ≤ R) : ‖shifted N p x‖ ≤ B := by
  rw [shifted, norm_unimodular_div hp]
  exact hb _ (by rwa [norm_unimodular_mul hp])

end Verif.Convergence
