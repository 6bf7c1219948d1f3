import Verif.Schemes.Spec
import Mathlib.Tactic.LinearCombination

/-! # C04, C05, C06: the time schemes -/

namespace Verif.Schemes

noncomputable section

variable {ι : Type*}

/-! ### Lemmas -/

theorem expLin_zero (f : Arr ι) : expLin f 0 = 1 := by
  funext i; simp [expLin]

theorem expLin_add (f : Arr ι) (s t : ℂ) : expLin f (s + t) = expLin f s * expLin f t := by
  funext i
  simp only [expLin, Pi.mul_apply, ← Complex.exp_add]
  congr 1; ring

theorem expLin_neg_mul (f : Arr ι) (t : ℂ) : expLin f (-t) * expLin f t = 1 := by
  rw [← expLin_add]; simp [expLin_zero]

@[simp] theorem set_same (h : Heap ι) (b : Buf) (v : Arr ι) : h.set b v b = v := by
  simp [Heap.set]

@[simp] theorem set_other (h : Heap ι) (b c : Buf) (v : Arr ι) (hc : c ≠ b) :
    h.set b v c = h c := by simp [Heap.set, hc]

/-! ### C04 -/

/-- **C04** Euler: for every tendency function, state, frequency and increment, whatever the
contents of the work buffers. -/
theorem C04_euler_is_classical (N : Bool → Arr ι → Arr ι) (f : Arr ι) (dt : ℂ)
    (h : Heap ι) :
    euler N dt (expLin f dt) h .state
      = expLin f dt * classicEuler (ifRhs (N false) f) 0 dt (h .state) := by
  simp [euler, tendencies, stepEuler, classicEuler, ifRhs, expLin_zero]
  ring

/-- **C04** RK2 is the explicit midpoint rule. -/
theorem C04_rk2_is_classical_midpoint (N : Bool → Arr ι → Arr ι) (f : Arr ι) (dt : ℂ)
    (h : Heap ι) :
    rk2 N dt (expLin f dt) (expLin f (dt / 2)) h .state
      = expLin f dt * classicMidpoint (ifRhs (N false) f) 0 dt (h .state) := by
  have e1 : expLin f dt = expLin f (dt / 2) * expLin f (dt / 2) := by
    rw [← expLin_add]; congr 1; ring
  have e2 := expLin_neg_mul f (dt / 2)
  simp only [rk2, tendencies, stepEuler, stepLikeRK2, classicMidpoint, ifRhs, set_same,
    set_other, ne_eq, reduceCtorEq, not_false_eq_true, decide_false, zero_add, neg_zero, expLin_zero,
    one_mul]
  rw [mul_comm (h .state + (dt / 2) • N false (h .state)) (expLin f (dt / 2))]
  generalize N false (expLin f (dt / 2) * (h .state + (dt / 2) • N false (h .state))) = n1
  funext i
  have e1' := congrFun e1 i
  have e2' := congrFun e2 i
  simp only [Pi.mul_apply, Pi.add_apply, Pi.smul_apply, smul_eq_mul, Pi.one_apply] at *
  rw [e1']
  linear_combination (-dt * expLin f (dt / 2) i * n1 i) * e2'

/-- **C04** RK2_trapezoid is Heun's method. -/
theorem C04_rk2_trapezoid_is_heun (N : Bool → Arr ι → Arr ι) (f : Arr ι) (dt : ℂ)
    (h : Heap ι) :
    rk2Trapezoid N dt (expLin f dt) h .state
      = expLin f dt * classicHeun (ifRhs (N false) f) 0 dt (h .state) := by
  have e2 := expLin_neg_mul f dt
  simp only [rk2Trapezoid, tendencies, stepEuler, classicHeun, ifRhs, set_same,
    set_other, ne_eq, reduceCtorEq, not_false_eq_true, decide_false, zero_add, neg_zero, expLin_zero,
    one_mul]
  rw [mul_comm (h .state + dt • N false (h .state)) (expLin f dt)]
  generalize N false (expLin f dt * (h .state + dt • N false (h .state))) = n1
  funext i
  have e2' := congrFun e2 i
  simp only [Pi.mul_apply, Pi.add_apply, Pi.smul_apply, smul_eq_mul, Pi.one_apply] at *
  linear_combination (-dt / 2 * n1 i) * e2'

/-- **C04** RK4 is the classical fourth-order Runge-Kutta method, in spite of the reuse of the
two work arrays and of the tendency array. -/
theorem C04_rk4_is_classical (N : Bool → Arr ι → Arr ι) (f : Arr ι) (dt : ℂ)
    (h : Heap ι) :
    rk4 N dt (expLin f dt) (expLin f (dt / 2)) h .state
      = expLin f dt * classicRK4 (ifRhs (N false) f) 0 dt (h .state) := by
  have e1 : expLin f dt = expLin f (dt / 2) * expLin f (dt / 2) := by
    rw [← expLin_add]; congr 1; ring
  have e2 := expLin_neg_mul f (dt / 2)
  have e3 : expLin f (-dt) = expLin f (-(dt / 2)) * expLin f (-(dt / 2)) := by
    rw [← expLin_add]; congr 1; ring
  simp only [rk4, tendencies, stepEuler, classicRK4, ifRhs, set_same,
    set_other, ne_eq, reduceCtorEq, not_false_eq_true, decide_false, zero_add, neg_zero, expLin_zero,
    one_mul]
  generalize h .state = s
  generalize N false s = n0
  rw [e1, e3]
  generalize expLin f (dt / 2) = a at *
  generalize expLin f (-(dt / 2)) = b at *
  have g1 : (s + (dt / 2) • n0) * a = a * (s + (dt / 2) • n0) := mul_comm _ _
  rw [g1]
  generalize N false (a * (s + (dt / 2) • n0)) = n1
  have g2 : s * a + (dt / 2) • n1 = a * (s + (dt / 2) • (b * n1)) := by
    funext i
    have e2' := congrFun e2 i
    simp only [Pi.mul_apply, Pi.add_apply, Pi.smul_apply, smul_eq_mul, Pi.one_apply] at *
    linear_combination (-dt / 2 * n1 i) * e2'
  rw [g2]
  generalize N false (a * (s + (dt / 2) • (b * n1))) = n2
  have g3 : s * (a * a) + dt • (a * n2) = a * a * (s + dt • (b * n2)) := by
    funext i
    have e2' := congrFun e2 i
    simp only [Pi.mul_apply, Pi.add_apply, Pi.smul_apply, smul_eq_mul, Pi.one_apply] at *
    linear_combination (-dt * a i * n2 i) * e2'
  rw [g3]
  generalize N false (a * a * (s + dt • (b * n2))) = n3
  funext i
  have e2' := congrFun e2 i
  simp only [Pi.mul_apply, Pi.add_apply, Pi.smul_apply, smul_eq_mul, Pi.one_apply] at *
  linear_combination (-(dt / 3) * a i * n1 i - (dt / 3) * a i * n2 i
    - (dt / 6) * (a i * b i + 1) * n3 i) * e2'

/-- **C04** The schemes of `simple.py` (state in physical space, scalar frequency) are the
same classical schemes. -/
theorem C04_simple_schemes_are_classical (N : Arr ι → Arr ι) (σ dt : ℂ) (s : Arr ι) :
    simpleRK2 N dt (Complex.exp (-dt * σ)) (Complex.exp (-dt / 2 * σ)) s
      = expLin (fun _ => σ) dt * classicMidpoint (ifRhs N fun _ => σ) 0 dt s ∧
    simpleRK4 N dt (Complex.exp (-dt * σ)) (Complex.exp (-dt / 2 * σ)) s
      = expLin (fun _ => σ) dt * classicRK4 (ifRhs N fun _ => σ) 0 dt s := by
  -- reduce to the in-place schemes
  have d1 : Complex.exp (-dt * σ) • (1 : Arr ι) = expLin (fun _ => σ) dt := by
    funext i; simp [expLin]
  have d2 : Complex.exp (-dt / 2 * σ) • (1 : Arr ι) = expLin (fun _ => σ) (dt / 2) := by
    funext i; simp [expLin]; congr 1; ring
  have m1 : ∀ (c : ℂ) (x : Arr ι), c • x = (c • (1 : Arr ι)) * x := by
    intro c x; funext i; simp
  constructor
  · have := C04_rk2_is_classical_midpoint (fun _ => N) (fun _ => σ) dt (fun _ => s)
    rw [← this]
    simp only [rk2, tendencies, stepEuler, stepLikeRK2, set_same,
      set_other, ne_eq, reduceCtorEq, not_false_eq_true, simpleRK2]
    rw [← d1, ← d2]
    have g : Complex.exp (-dt / 2 * σ) • (s + (dt / 2) • N s)
        = (s + (dt / 2) • N s) * Complex.exp (-dt / 2 * σ) • (1 : Arr ι) :=
      (m1 _ _).trans (mul_comm _ _)
    rw [g]
    funext i; simp; ring
  · have := C04_rk4_is_classical (fun _ => N) (fun _ => σ) dt (fun _ => s)
    rw [← this]
    simp only [rk4, tendencies, stepEuler, set_same,
      set_other, ne_eq, reduceCtorEq, not_false_eq_true, simpleRK4]
    rw [← d1, ← d2]
    have g1 : Complex.exp (-dt / 2 * σ) • (s + (dt / 2) • N s)
        = (s + (dt / 2) • N s) * Complex.exp (-dt / 2 * σ) • (1 : Arr ι) :=
      (m1 _ _).trans (mul_comm _ _)
    rw [g1]
    generalize N ((s + (dt / 2) • N s) * Complex.exp (-dt / 2 * σ) • (1 : Arr ι)) = n1
    have g2 : Complex.exp (-dt / 2 * σ) • s + (dt / 2) • n1
        = s * Complex.exp (-dt / 2 * σ) • (1 : Arr ι) + (dt / 2) • n1 := by
      rw [(m1 (Complex.exp (-dt / 2 * σ)) s).trans (mul_comm _ _)]
    rw [g2]
    generalize N (s * Complex.exp (-dt / 2 * σ) • (1 : Arr ι) + (dt / 2) • n1) = n2
    have g3 : Complex.exp (-dt * σ) • s + (dt * Complex.exp (-dt / 2 * σ)) • n2
        = s * Complex.exp (-dt * σ) • (1 : Arr ι)
          + dt • (Complex.exp (-dt / 2 * σ) • (1 : Arr ι) * n2) := by
      funext i; simp; ring
    rw [g3]
    funext i; simp; ring

/-- **C04** (phase-shift schemes) The phase-shift schemes compute their documented formulas:
first-order step with the averaged tendencies, or
`S₂ = S₀ e^{-f dt} + dt N_d e^{-f dt/2}` with the documented `N_d`, for all shifts. -/
theorem C04_phaseshift_schemes_documented (N : Bool → Arr ι → Arr ι) (dt : ℂ)
    (diss diss2 ps pa pb : Arr ι) (h : Heap ι) :
    let s := h .state
    let M := N false
    (eulerPhaseshift N dt diss ps h .state = (s + dt • shiftMean M ps s) * diss) ∧
    (eulerPhaseshiftRandom N dt diss pa pb h .state
      = (s + dt • ((1 / 2 : ℂ) • (shifted M pa s + shifted M pb s))) * diss) ∧
    (rk2Phaseshift N dt diss diss2 ps h .state
      = s * diss + dt • (diss2 * ((1 / 2 : ℂ) •
          (M s + shifted M ps ((s + dt • M s) * diss))))) := by
  intro s M
  refine ⟨?_, ?_, ?_⟩
  · simp [eulerPhaseshift, tendencies, stepEuler, shiftMean, s, M]
  · simp [eulerPhaseshiftRandom, stepEuler, shifted, s, M]
  · simp [rk2Phaseshift, tendencies, stepEuler, stepLikeRK2, meanWithPhaseshift, shifted, s, M]

/-- **C04** (partial: `RK2_phaseshift_random`, `RK2_phaseshift_exact`) These two schemes ask
the solver to write the tendencies over the state they are computed from.  They compute their
documented formulas for the solvers for which this is the same as writing them elsewhere
(C53 says which ones do, and that `ns3d.strat` and `plate2d` do not). -/
theorem C04_phaseshift_inplace_schemes_partial (N : Bool → Arr ι → Arr ι)
    (hN : ∀ s, N true s = N false s) (dt : ℂ)
    (diss diss2 ps pa pb : Arr ι) (h : Heap ι) :
    let s := h .state
    let M := N false
    (rk2PhaseshiftRandom N dt diss diss2 pa pb h .state
      = s * diss + dt • (diss2 * ((1 / 2 : ℂ) •
          (shifted M pa s + shifted M pb ((s + dt • shifted M pa s) * diss))))) ∧
    (rk2PhaseshiftExact N dt diss diss2 ps h .state
      = s * diss + dt • (diss2 * ((1 / 2 : ℂ) •
          (shiftMean M ps s + shiftMean M ps ((s + dt • shiftMean M ps s) * diss))))) := by
  intro s M
  refine ⟨?_, ?_⟩
  · simp [rk2PhaseshiftRandom, tendencies, stepEuler, stepLikeRK2, meanWithPhaseshift,
      mulShift, divInplace, shifted, s, M, hN]
  · simp [rk2PhaseshiftExact, tendencies, stepEuler, stepLikeRK2, meanWithPhaseshift,
      mulShift, shiftMean, s, M, hN]

/-- **C04** (finding) Without this hypothesis the documented formula is false: the two schemes
use the in-place tendencies. -/
theorem C04_phaseshift_inplace_schemes_violated :
    ¬ ∀ (N : Bool → Arr Unit → Arr Unit) (dt : ℂ) (diss diss2 pa pb : Arr Unit) (h : Heap Unit),
      let s := h .state
      let M := N false
      rk2PhaseshiftRandom N dt diss diss2 pa pb h .state
      = s * diss + dt • (diss2 * ((1 / 2 : ℂ) •
          (shifted M pa s + shifted M pb ((s + dt • shifted M pa s) * diss)))) := by
  intro H
  have := congrFun (H (fun b _ _ => if b then 1 else 0) 1 1 1 1 1 (fun _ => 0)) ()
  simp [rk2PhaseshiftRandom, tendencies, stepEuler, stepLikeRK2, meanWithPhaseshift,
      mulShift, divInplace, shifted] at this

/-- **C04** (phase-shift schemes, no linear term) `RK2_phaseshift_exact` is Heun's method for
the dealiased tendencies when `f = 0` (for solvers as in the previous theorem). -/
theorem C04_rk2_phaseshift_exact_is_heun_partial (N : Bool → Arr ι → Arr ι)
    (hN : ∀ s, N true s = N false s) (dt : ℂ) (ps : Arr ι) (h : Heap ι) :
    rk2PhaseshiftExact N dt 1 1 ps h .state
      = classicHeun (fun _ => shiftMean (N false) ps) 0 dt (h .state) := by
  rw [(C04_phaseshift_inplace_schemes_partial N hN dt 1 1 ps ps ps h).2]
  simp only [mul_one, one_mul, classicHeun, smul_smul]
  congr 2; ring

/-- **C04** Exactly the nine documented names are accepted. -/
theorem C04_scheme_names (s : String) :
    (∃ sc, schemeOfName s = .ok sc) ↔
      s ∈ ["Euler", "Euler_phaseshift", "Euler_phaseshift_random", "RK2", "RK2_trapezoid",
        "RK2_phaseshift", "RK2_phaseshift_random", "RK2_phaseshift_exact", "RK4"] := by
  unfold schemeOfName
  split_ifs <;> simp_all

/-- **C04** Each documented name selects the scheme it names: the step of the time stepping of a simulation
with `type_time_scheme = name` is the formula of this scheme (with `M` the tendencies, `f` the frequencies of
the linear terms; for the two schemes that overwrite the state, tendencies that do not depend on the array
that receives them). -/
theorem C04_name_gives_scheme (N : Bool → Arr ι → Arr ι) (hN : ∀ s, N true s = N false s) (f : Arr ι)
    (dt : ℂ) (ps pa pb : Arr ι) (h : Heap ι) :
    let s := h .state
    let M := N false
    let E := expLin f dt
    let F := expLin f (dt / 2)
    let gives := fun (name : String) (new : Arr ι) => ∃ sc, schemeOfName name = .ok sc ∧
      timeStepRK sc N dt E F ps pa pb h .state = new
    gives "Euler" (E * classicEuler (ifRhs M f) 0 dt s) ∧
    gives "RK2" (E * classicMidpoint (ifRhs M f) 0 dt s) ∧
    gives "RK2_trapezoid" (E * classicHeun (ifRhs M f) 0 dt s) ∧
    gives "RK4" (E * classicRK4 (ifRhs M f) 0 dt s) ∧
    gives "Euler_phaseshift" ((s + dt • shiftMean M ps s) * E) ∧
    gives "Euler_phaseshift_random"
      ((s + dt • ((1 / 2 : ℂ) • (shifted M pa s + shifted M pb s))) * E) ∧
    gives "RK2_phaseshift"
      (s * E + dt • (F * ((1 / 2 : ℂ) • (M s + shifted M ps ((s + dt • M s) * E))))) ∧
    gives "RK2_phaseshift_random"
      (s * E + dt • (F * ((1 / 2 : ℂ) •
        (shifted M pa s + shifted M pb ((s + dt • shifted M pa s) * E))))) ∧
    gives "RK2_phaseshift_exact"
      (s * E + dt • (F * ((1 / 2 : ℂ) •
        (shiftMean M ps s + shiftMean M ps ((s + dt • shiftMean M ps s) * E))))) := by
  intro s M E F gives
  have d := C04_phaseshift_schemes_documented N dt E F ps pa pb h
  have i := C04_phaseshift_inplace_schemes_partial N hN dt E F ps pa pb h
  exact ⟨⟨.Euler, by decide, C04_euler_is_classical N f dt h⟩,
    ⟨.RK2, by decide, C04_rk2_is_classical_midpoint N f dt h⟩,
    ⟨.RK2_trapezoid, by decide, C04_rk2_trapezoid_is_heun N f dt h⟩,
    ⟨.RK4, by decide, C04_rk4_is_classical N f dt h⟩,
    ⟨.Euler_phaseshift, by decide, d.1⟩, ⟨.Euler_phaseshift_random, by decide, d.2.1⟩,
    ⟨.RK2_phaseshift, by decide, d.2.2⟩, ⟨.RK2_phaseshift_random, by decide, i.1⟩,
    ⟨.RK2_phaseshift_exact, by decide, i.2⟩⟩

/-! ### C06 -/

/-- **C06** With USE_CFL, for every history of earlier calls (with any increments), the
coefficients handed out for a non-zero increment `dt` are those of `dt`, whatever was in the
uninitialised arrays. -/
theorem C06_coefs_are_current (freq g1 g2 : Arr ι) (dt0 : ℝ) (hist : List ℝ) (dt : ℝ)
    (hdt : dt ≠ 0) :
    ((hist.foldl (fun c d => (c.get d).1) (Coefs.init freq true dt0 g1 g2)).get dt).2
      = (expLin freq dt, expLin freq (dt / 2)) := by
  -- invariant
  have inv : ∀ (hist : List ℝ) (c : Coefs ι), c.useCFL = true → c.freq = freq →
      (c.dtOld = 0 ∨ (c.exact1 = expLin freq c.dtOld ∧ c.exact2 = expLin freq (c.dtOld / 2))) →
      let c' := hist.foldl (fun c d => (c.get d).1) c
      c'.useCFL = true ∧ c'.freq = freq ∧
      (c'.dtOld = 0 ∨
        (c'.exact1 = expLin freq c'.dtOld ∧ c'.exact2 = expLin freq (c'.dtOld / 2))) := by
    intro hist
    induction hist with
    | nil => intro c h1 h2 h3; exact ⟨h1, h2, h3⟩
    | cons d l ih =>
      intro c h1 h2 h3
      simp only [List.foldl_cons]
      apply ih
      · simp only [Coefs.get, h1]; split <;> simp [Coefs.compute, h1]; split <;> simp [h1]
      · simp only [Coefs.get, h1]; split <;> simp [Coefs.compute, h2]; split <;> simp [h2]
      · simp only [Coefs.get, h1, if_true]
        by_cases hd : c.dtOld = d
        · simp [hd]
          rw [hd] at h3; simpa using h3
        · simp only [ne_eq, hd, not_false_eq_true, if_true]
          right
          constructor
          · funext i; simp [Coefs.compute, expLin, h2]
          · funext i; simp [Coefs.compute, expLin, h2]; congr 1; ring
  obtain ⟨h1, h2, h3⟩ := inv hist (Coefs.init freq true dt0 g1 g2)
    (by simp [Coefs.init]) (by simp [Coefs.init]) (by left; simp [Coefs.init])
  generalize hist.foldl (fun c d => (c.get d).1) (Coefs.init freq true dt0 g1 g2) = c at *
  simp only [Coefs.get, h1, if_true]
  by_cases hd : c.dtOld = dt
  · simp only [hd, ne_eq, not_true_eq_false, if_false]
    rw [hd] at h3
    rcases h3 with h3 | ⟨h3, h4⟩
    · exact absurd h3 hdt
    · rw [h3, h4]
  · simp only [ne_eq, hd, not_false_eq_true, if_true]
    refine Prod.ext ?_ ?_
    · funext i; simp [Coefs.compute, expLin, h2]
    · funext i; simp [Coefs.compute, expLin, h2]; congr 1; ring

/-- **C06** (partial: USE_CFL = False) The coefficients are those of the increment present at
initialisation, for every history; they are current as long as `deltat` is not modified. -/
theorem C06_coefs_fixed_dt_partial (freq g1 g2 : Arr ι) (dt0 : ℝ) (hist : List ℝ) (dt : ℝ) :
    ((hist.foldl (fun c d => (c.get d).1) (Coefs.init freq false dt0 g1 g2)).get dt).2
      = (expLin freq dt0, expLin freq (dt0 / 2)) := by
  have inv : ∀ (hist : List ℝ) (c : Coefs ι), c.useCFL = false →
      hist.foldl (fun c d => (c.get d).1) c = c := by
    intro hist
    induction hist with
    | nil => intro c _; rfl
    | cons d l ih =>
      intro c hc
      simp only [List.foldl_cons]
      rw [show (c.get d).1 = c by simp [Coefs.get, hc]]
      exact ih c hc
  have hu : (Coefs.init freq false dt0 g1 g2).useCFL = false := by
    simp [Coefs.init, Coefs.compute]
  rw [inv hist _ hu]
  refine Prod.ext ?_ ?_
  · funext i; simp [Coefs.get, Coefs.init, Coefs.compute, expLin]
  · funext i; simp [Coefs.get, Coefs.init, Coefs.compute, expLin]; congr 1; ring

/-- **C06** (finding) With USE_CFL = False, setting `sim.time_stepping.deltat` after the
construction leaves the coefficients of the old increment in use. -/
theorem C06_modified_deltat_violated :
    ¬ ∀ (freq g1 g2 : Arr Unit) (dt0 dt : ℝ), dt ≠ 0 →
      ((Coefs.init freq false dt0 g1 g2).get dt).2 = (expLin freq dt, expLin freq (dt / 2)) := by
  intro h
  have h1 := h (fun _ => 1) 0 0 1 2 (by norm_num)
  have h2 := C06_coefs_fixed_dt_partial (fun _ : Unit => (1 : ℂ)) 0 0 1 [] 2
  simp only [List.foldl_nil] at h2
  rw [h2] at h1
  have h3 := congrFun (congrArg Prod.fst h1) ()
  simp only [expLin, mul_one, Complex.ofReal_one] at h3
  have h4 : Real.exp (-1) = Real.exp (-2) := by
    have := congrArg Complex.re h3
    have a : Complex.exp (-1) = ((Real.exp (-1) : ℝ) : ℂ) := by push_cast; rfl
    have b : Complex.exp (-((2 : ℝ) : ℂ)) = ((Real.exp (-2) : ℝ) : ℂ) := by push_cast; rfl
    rw [a, b, Complex.ofReal_re, Complex.ofReal_re] at this
    exact this
  have := Real.exp_injective h4
  norm_num at this

/-! ### C05 -/

/-- What may differ from step to step: the scheme, the increment, the phase shifts. -/
structure StepIn (ι : Type*) where
  sc : Scheme
  dt : ℝ
  ps : Arr ι
  pa : Arr ι
  pb : Arr ι

/-- Several steps of `one_time_step_computation`. -/
def steps (N : Bool → Arr ι → Arr ι) (mask : ι → Bool) (l : List (StepIn ι)) (s : TS ι) : TS ι :=
  l.foldl (fun s x => oneStep x.sc N mask x.ps x.pa x.pb s x.dt) s

theorem zero_div_arr (a : Arr ι) : (0 : Arr ι) / a = 0 := by funext i; simp

theorem timeStepRK_zero (sc : Scheme) (dt : ℂ) (diss diss2 ps pa pb : Arr ι) (h : Heap ι) :
    timeStepRK sc (fun _ _ => 0) dt diss diss2 ps pa pb h .state = h .state * diss := by
  cases sc <;>
    simp [timeStepRK, euler, eulerPhaseshift, eulerPhaseshiftRandom, rk2, rk2Trapezoid,
      rk2Phaseshift, rk2PhaseshiftRandom, rk2PhaseshiftExact, rk4, tendencies, stepEuler,
      stepLikeRK2, meanWithPhaseshift, mulShift, divInplace, zero_div_arr]

theorem coefs_get_inv {freq : Arr ι} {c : Coefs ι} {dt : ℝ} (hdt : dt ≠ 0)
    (h1 : c.useCFL = true) (h2 : c.freq = freq)
    (h3 : c.dtOld = 0 ∨
      (c.exact1 = expLin freq c.dtOld ∧ c.exact2 = expLin freq (c.dtOld / 2))) :
    (c.get dt).2.1 = expLin freq dt ∧ (c.get dt).1.useCFL = true ∧ (c.get dt).1.freq = freq ∧
    (c.get dt).1.exact1 = expLin freq (c.get dt).1.dtOld ∧
    (c.get dt).1.exact2 = expLin freq ((c.get dt).1.dtOld / 2) := by
  simp only [Coefs.get, h1, if_true]
  by_cases hd : c.dtOld = dt
  · rcases h3 with h3 | ⟨h3, h4⟩
    · exact absurd (hd.symm.trans h3) hdt
    · simp only [hd, ne_eq, not_true_eq_false, if_false]
      rw [hd] at h3 h4
      exact ⟨h3, h1, h2, h3, h4⟩
  · simp only [ne_eq, hd, not_false_eq_true, if_true]
    refine ⟨?_, by simp [Coefs.compute, h1], by simp [Coefs.compute, h2], ?_, ?_⟩
    · funext i; simp [Coefs.compute, expLin, h2]
    · funext i; simp [Coefs.compute, expLin, h2]
    · funext i; simp [Coefs.compute, expLin, h2]; congr 1; ring

/-- **C05** (USE_CFL) With vanishing nonlinear tendencies, after any non-empty sequence of
steps with any non-zero increments and any schemes, every kept mode has been multiplied by
exactly `exp(-f · Σ dt)` and every truncated mode is zero. -/
theorem C05_linear_exact (freq g1 g2 : Arr ι) (dt0 : ℝ) (mask : ι → Bool) (h : Heap ι)
    (l : List (StepIn ι)) (hl : l ≠ []) (hdt : ∀ x ∈ l, x.dt ≠ 0) (i : ι) :
    (steps (fun _ _ => 0) mask l ⟨h, Coefs.init freq true dt0 g1 g2⟩).heap .state i
      = if mask i then 0
        else Complex.exp (-((l.map StepIn.dt).sum : ℝ) * freq i) * h .state i := by
  have gen : ∀ (l : List (StepIn ι)), (∀ x ∈ l, x.dt ≠ 0) → ∀ (s : TS ι),
      s.coefs.useCFL = true → s.coefs.freq = freq →
      (s.coefs.dtOld = 0 ∨ (s.coefs.exact1 = expLin freq s.coefs.dtOld ∧
        s.coefs.exact2 = expLin freq (s.coefs.dtOld / 2))) →
      (steps (fun _ _ => 0) mask l s).heap .state i
        = if l = [] then s.heap .state i else if mask i then 0
          else Complex.exp (-((l.map StepIn.dt).sum : ℝ) * freq i) * s.heap .state i := by
    intro l
    induction l with
    | nil => intro _ s _ _ _; simp [steps]
    | cons x l ih =>
      intro hx s h1 h2 h3
      obtain ⟨k1, k2, k3, k4, k5⟩ := coefs_get_inv (hx x (by simp)) h1 h2 h3
      have := ih (fun y hy => hx y (by simp [hy]))
        (oneStep x.sc (fun _ _ => 0) mask x.ps x.pa x.pb s x.dt)
        (by simpa [oneStep] using k2) (by simpa [oneStep] using k3)
        (by right; exact ⟨by simpa [oneStep] using k4, by simpa [oneStep] using k5⟩)
      have hstep : (oneStep x.sc (fun _ _ => 0) mask x.ps x.pa x.pb s x.dt).heap .state i
          = if mask i then 0 else s.heap .state i * expLin freq x.dt i := by
        simp [oneStep, dealias, timeStepRK_zero, k1]
      rw [show steps (fun _ _ => 0) mask (x :: l) s = steps (fun _ _ => 0) mask l
        (oneStep x.sc (fun _ _ => 0) mask x.ps x.pa x.pb s x.dt) from rfl, this, hstep]
      cases hm : mask i
      · by_cases hl : l = []
        · subst hl; simp [expLin, mul_comm]
        · simp only [hl, if_false, Bool.false_eq_true, reduceCtorEq, List.map_cons,
            List.sum_cons]
          rw [mul_comm (s.heap .state i), ← mul_assoc]
          congr 1
          rw [expLin, ← Complex.exp_add]
          congr 1
          push_cast; ring
      · simp
  rw [gen l hdt ⟨h, Coefs.init freq true dt0 g1 g2⟩ (by simp [Coefs.init])
    (by simp [Coefs.init]) (by left; simp [Coefs.init]), if_neg hl]

/-- **C05** (fixed increment) The same without CFL condition. -/
theorem C05_linear_exact_fixed_dt (freq g1 g2 : Arr ι) (dt0 : ℝ) (mask : ι → Bool)
    (h : Heap ι) (l : List (StepIn ι)) (hl : l ≠ []) (hdt : ∀ x ∈ l, x.dt = dt0) (i : ι) :
    (steps (fun _ _ => 0) mask l ⟨h, Coefs.init freq false dt0 g1 g2⟩).heap .state i
      = if mask i then 0
        else Complex.exp (-((l.map StepIn.dt).sum : ℝ) * freq i) * h .state i := by
  have hsum : (l.map StepIn.dt).sum = l.length * dt0 := by
    rw [List.map_congr_left hdt]; simp
  rw [hsum]
  have hget : ∀ dt, ((Coefs.init freq false dt0 g1 g2).get dt).1
      = Coefs.init freq false dt0 g1 g2 := by
    intro dt; simp [Coefs.get, Coefs.init, Coefs.compute]
  have hget2 : ∀ dt, ((Coefs.init freq false dt0 g1 g2).get dt).2.1 = expLin freq dt0 := by
    intro dt
    have := C06_coefs_fixed_dt_partial freq g1 g2 dt0 [] dt
    simp only [List.foldl_nil] at this
    rw [this]
  have gen : ∀ (l : List (StepIn ι)) (h : Heap ι),
      (steps (fun _ _ => 0) mask l ⟨h, Coefs.init freq false dt0 g1 g2⟩).heap .state i
        = if l = [] then h .state i else if mask i then 0
          else Complex.exp (-(l.length * dt0 : ℝ) * freq i) * h .state i := by
    intro l
    induction l with
    | nil => intro h; simp [steps]
    | cons x l ih =>
      intro h
      have e1 : oneStep x.sc (fun _ _ => 0) mask x.ps x.pa x.pb
          ⟨h, Coefs.init freq false dt0 g1 g2⟩ x.dt
          = ⟨dealias mask .state (timeStepRK x.sc (fun _ _ => 0) x.dt (expLin freq dt0)
              ((Coefs.init freq false dt0 g1 g2).get x.dt).2.2 x.ps x.pa x.pb h),
              Coefs.init freq false dt0 g1 g2⟩ := by
        simp [oneStep, hget, hget2]
      rw [show steps (fun _ _ => 0) mask (x :: l) ⟨h, Coefs.init freq false dt0 g1 g2⟩
        = steps (fun _ _ => 0) mask l (oneStep x.sc (fun _ _ => 0) mask x.ps x.pa x.pb
          ⟨h, Coefs.init freq false dt0 g1 g2⟩ x.dt) from rfl, e1, ih]
      have hd : dealias mask .state (timeStepRK x.sc (fun _ _ => 0) x.dt (expLin freq dt0)
              ((Coefs.init freq false dt0 g1 g2).get x.dt).2.2 x.ps x.pa x.pb h) .state i
          = if mask i then 0 else h .state i * expLin freq dt0 i := by
        simp [dealias, timeStepRK_zero]
      rw [hd]
      cases hm : mask i
      · by_cases hl : l = []
        · subst hl; simp [expLin, mul_comm]
        · simp only [hl, if_false, Bool.false_eq_true, reduceCtorEq, List.length_cons]
          rw [mul_comm (h .state i), ← mul_assoc]
          congr 1
          rw [expLin, ← Complex.exp_add]
          congr 1
          push_cast; ring
      · simp
  rw [gen, if_neg hl]

/-- **C05** (damping) With `Re f ≥ 0` and non-negative elapsed time no mode grows. -/
theorem C05_no_growth (freq g1 g2 : Arr ι) (dt0 : ℝ) (mask : ι → Bool) (h : Heap ι)
    (l : List (StepIn ι)) (hl : l ≠ []) (hdt : ∀ x ∈ l, 0 < x.dt) (i : ι)
    (hf : 0 ≤ (freq i).re) :
    ‖(steps (fun _ _ => 0) mask l ⟨h, Coefs.init freq true dt0 g1 g2⟩).heap .state i‖
      ≤ ‖h .state i‖ := by
  rw [C05_linear_exact freq g1 g2 dt0 mask h l hl (fun x hx => (hdt x hx).ne')]
  have hs : 0 ≤ (l.map StepIn.dt).sum := by
    apply List.sum_nonneg
    intro d hd
    obtain ⟨x, hx, rfl⟩ := List.mem_map.1 hd
    exact (hdt x hx).le
  split
  · simp
  · rw [norm_mul, Complex.norm_exp]
    have : Real.exp ((-((l.map StepIn.dt).sum : ℝ) * freq i : ℂ)).re ≤ 1 := by
      rw [Real.exp_le_one_iff]
      rw [← Complex.ofReal_neg, Complex.re_ofReal_mul]
      have := mul_nonneg hs hf
      linarith
    calc _ ≤ 1 * ‖h .state i‖ := mul_le_mul_of_nonneg_right this (norm_nonneg _)
      _ = _ := one_mul _

/-! ### Non-vacuity -/

/-- three steps of different schemes and increments: the hypotheses of `C05_linear_exact` and
`C05_no_growth` hold -/
example : let l : List (StepIn Unit) :=
      [⟨.RK4, 1/2, 1, 1, 1⟩, ⟨.RK2_phaseshift, 1/4, 1, 1, 1⟩, ⟨.Euler, 1/8, 1, 1, 1⟩]
    l ≠ [] ∧ (∀ x ∈ l, x.dt ≠ 0) ∧ (∀ x ∈ l, 0 < x.dt) := by
  refine ⟨by simp, ?_, ?_⟩ <;> simp

/-- `C04_rk4_is_classical` on a nonlinear example: `N(s) = s²`, one mode, `f = 0`, `dt = 1`,
`s = 1`: the classical value 1 + (1 + 2·(9/4) + 2·(289/64)... ) is not the Euler value 2 -/
example : euler (fun _ s => s * s) 1 (expLin 0 1) (fun _ => (1 : Arr Unit)) .state
    ≠ rk2 (fun _ s => s * s) 1 (expLin 0 1) (expLin 0 (1/2)) (fun _ => (1 : Arr Unit)) .state := by
  intro h
  have := congrFun h ()
  simp [euler, rk2, tendencies, stepEuler, stepLikeRK2, expLin] at this
  norm_num at this

end

end Verif.Schemes
