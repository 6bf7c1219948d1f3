import Verif.Symmetry.Lemmas
import Mathlib.Tactic.Ring
import Mathlib.Tactic.FieldSimp

/-! # C101: lemmas on the time steps -/

set_option linter.unusedSectionVars false

namespace Verif.Invariants

open Verif.Fourier Verif.Vectors Verif.Energy Verif.Schemes Verif.EndToEnd Verif.Symmetry Finset

noncomputable section

variable {ι : Type*}

/-- A set of arrays which contains the combinations of its elements. -/
structure Subspace (P : Arr ι → Prop) : Prop where
  add : ∀ x y, P x → P y → P (x + y)
  smul : ∀ (a : ℂ) x, P x → P (a • x)

/-- The set is stable when its elements are multiplied and divided by an array. -/
structure Stable (P : Arr ι → Prop) (d : Arr ι) : Prop where
  mul : ∀ x, P x → P (x * d)
  mul' : ∀ x, P x → P (d * x)
  div : ∀ x, P x → P (x / d)

/-- A time step stays in an invariant set. -/
theorem timeStep_stable {P : Arr ι → Prop} (hP : Subspace P) {N : Arr ι → Arr ι} (hN : ∀ x, P x → P (N x)) (sc : Scheme) (dt : ℂ)
    {d d2 ps pa pb : Arr ι} (hd : Stable P d) (hd2 : Stable P d2) (hps : Stable P ps) (hpa : Stable P pa) (hpb : Stable P pb) (h : Heap ι)
    (hs : P (h .state)) : P (timeStepRK sc (fun _ => N) dt d d2 ps pa pb h .state) := by
  cases sc <;>
    simp only [timeStepRK, euler, eulerPhaseshift, eulerPhaseshiftRandom, rk2, rk2Trapezoid, rk2Phaseshift, rk2PhaseshiftRandom,
      rk2PhaseshiftExact, rk4, tendencies, stepEuler, stepLikeRK2, meanWithPhaseshift, mulShift, divInplace, set_same, set_other, ne_eq,
      reduceCtorEq, not_false_eq_true] <;>
    repeat (first | assumption | apply hN | apply hP.add | apply hP.smul | apply hd.mul | apply hd2.mul | apply hd2.mul' | apply hps.mul' | apply hps.div | apply hpa.mul' | apply hpa.div | apply hpb.mul' | apply hpb.div)

/-- A coefficient with a tendency which does not change during the step, and without linear term. -/
theorem timeStep_const {P : Arr ι → Prop} (hP : Subspace P) {N : Arr ι → Arr ι} (hN : ∀ x, P x → P (N x)) (sc : Scheme) (dt : ℂ)
    {d d2 ps pa pb : Arr ι} (hd : Stable P d) (hd2 : Stable P d2) (hps : Stable P ps) (hpa : Stable P pa) (hpb : Stable P pb) (h : Heap ι)
    (hs : P (h .state)) {i : ι} {c : ℂ} (hc : ∀ x, P x → N x i = c) (h1 : d i = 1) (h2 : d2 i = 1) (h3 : ps i = 1) (h4 : pa i = 1)
    (h5 : pb i = 1) : timeStepRK sc (fun _ => N) dt d d2 ps pa pb h .state i = h .state i + dt * c := by
  cases sc <;>
    simp only [timeStepRK, euler, eulerPhaseshift, eulerPhaseshiftRandom, rk2, rk2Trapezoid, rk2Phaseshift, rk2PhaseshiftRandom,
      rk2PhaseshiftExact, rk4, tendencies, stepEuler, stepLikeRK2, meanWithPhaseshift, mulShift, divInplace, set_same, set_other, ne_eq,
      reduceCtorEq, not_false_eq_true, Pi.add_apply, Pi.mul_apply, Pi.smul_apply, Pi.div_apply, smul_eq_mul] <;>
    simp (disch := repeat (first | assumption | apply hN | apply hP.add | apply hP.smul | apply hd.mul | apply hd2.mul | apply hd2.mul' | apply hps.mul' | apply hps.div | apply hpa.mul' | apply hpa.div | apply hpb.mul' | apply hpb.div)) only [hc] <;>
    simp only [h1, h2, h3, h4, h5] <;> ring

/-- A coefficient without tendency. -/
theorem timeStep_zero {P : Arr ι → Prop} (hP : Subspace P) {N : Arr ι → Arr ι} (hN : ∀ x, P x → P (N x)) (sc : Scheme) (dt : ℂ)
    {d d2 ps pa pb : Arr ι} (hd : Stable P d) (hd2 : Stable P d2) (hps : Stable P ps) (hpa : Stable P pa) (hpb : Stable P pb) (h : Heap ι)
    (hs : P (h .state)) {i : ι} (hc : ∀ x, P x → N x i = 0) :
    timeStepRK sc (fun _ => N) dt d d2 ps pa pb h .state i = h .state i * d i := by
  cases sc <;>
    simp only [timeStepRK, euler, eulerPhaseshift, eulerPhaseshiftRandom, rk2, rk2Trapezoid, rk2Phaseshift, rk2PhaseshiftRandom,
      rk2PhaseshiftExact, rk4, tendencies, stepEuler, stepLikeRK2, meanWithPhaseshift, mulShift, divInplace, set_same, set_other, ne_eq,
      reduceCtorEq, not_false_eq_true, Pi.add_apply, Pi.mul_apply, Pi.smul_apply, Pi.div_apply, smul_eq_mul] <;>
    simp (disch := repeat (first | assumption | apply hN | apply hP.add | apply hP.smul | apply hd.mul | apply hd2.mul | apply hd2.mul' | apply hps.mul' | apply hps.div | apply hpa.mul' | apply hpa.div | apply hpb.mul' | apply hpb.div)) only [hc] <;>
    ring

/-- The arrays of coefficients used at each step, when the increments are not zero. -/
theorem coefs_get {f g1 g2 : Arr ι} {cfl : Bool} {project : Arr ι → Arr ι} {sc : Scheme} {N : ℕ → Arr ι → Arr ι} {mask : ι → Bool}
    {ps pa pb : ℕ → Arr ι} {heap : Heap ι} {u0 : Arr ι} {dt : ℕ → ℝ} (hdt : ∀ k, dt k ≠ 0) (hfix : cfl = false → ∀ k, dt k = dt 0) (k : ℕ) :
    let r := (stepping project sc N f mask ps pa pb heap g1 g2 cfl u0 dt k).coefs.get (dt k)
    r.2.1 = (fun i => Complex.exp (-dt k * f i)) ∧ r.2.2 = fun i => Complex.exp (-dt k / 2 * f i) := by
  have inv : ∀ k, let a := (stepping project sc N f mask ps pa pb heap g1 g2 cfl u0 dt k).coefs
      a.freq = f ∧ a.useCFL = cfl ∧ ((cfl = true ∧ a.dtOld = 0) ∨ ((cfl = false → a.dtOld = dt 0) ∧
        a.exact1 = (fun i => Complex.exp (-a.dtOld * f i)) ∧ a.exact2 = fun i => Complex.exp (-a.dtOld / 2 * f i))) := by
    intro k
    induction k with
    | zero => cases cfl <;> simp [stepping, Coefs.init, Coefs.compute]
    | succ k ih =>
      obtain ⟨h1, h2, h3⟩ := ih
      simp only [stepping, oneStep3d, Coefs.get]
      generalize (stepping project sc N f mask ps pa pb heap g1 g2 cfl u0 dt k).coefs = a at *
      subst h1
      rw [h2]
      cases cfl with
      | false =>
        simp only [Bool.false_eq_true, if_false]
        exact ⟨trivial, h2, by simpa using h3⟩
      | true =>
        simp only [if_true]
        by_cases he : a.dtOld = dt k
        · simp only [he, ne_eq, not_true_eq_false, if_false]
          refine ⟨trivial, h2, ?_⟩
          rw [he] at h3
          simpa [he] using h3
        · simp only [ne_eq, he, not_false_eq_true, if_true, Coefs.compute]
          exact ⟨trivial, h2, by simp⟩
  intro r
  obtain ⟨h1, h2, h3⟩ := inv k
  simp only [r, Coefs.get]
  generalize (stepping project sc N f mask ps pa pb heap g1 g2 cfl u0 dt k).coefs = a at *
  subst h1
  rw [h2]
  cases cfl with
  | false =>
    simp only [Bool.false_eq_true, if_false, false_and, false_or, forall_const] at h3 ⊢
    rw [h3.1, ← hfix rfl k] at h3
    exact h3.2
  | true =>
    simp only [if_true]
    by_cases he : a.dtOld = dt k
    · simp only [he, ne_eq, not_true_eq_false, if_false]
      rcases h3 with h | h
      · exact absurd (he ▸ h.2) (hdt k)
      · rw [he] at h
        exact h.2
    · simp only [ne_eq, he, not_false_eq_true, if_true, Coefs.compute]
      exact ⟨trivial, trivial⟩

/-- What a run needs to stay in a set of arrays. -/
structure Kept (P : Arr ι → Prop) (project : Arr ι → Arr ι) (N : ℕ → Arr ι → Arr ι) (f : Arr ι) (mask : ι → Bool) (ps pa pb : ℕ → Arr ι) : Prop where
  sub : Subspace P
  tend : ∀ m x, P x → P (N m x)
  project : ∀ x, P x → P (project x)
  mask : ∀ x, P x → P fun i => if mask i then 0 else x i
  lin : ∀ t : ℂ, Stable P fun i => Complex.exp (t * f i)
  ps : ∀ m, Stable P (ps m)
  pa : ∀ m, Stable P (pa m)
  pb : ∀ m, Stable P (pb m)

variable {P : Arr ι → Prop} {project : Arr ι → Arr ι} {sc : Scheme} {N : ℕ → Arr ι → Arr ι} {f : Arr ι} {mask : ι → Bool}
  {ps pa pb : ℕ → Arr ι} {heap : Heap ι} {g1 g2 : Arr ι} {cfl : Bool} {u0 : Arr ι} {dt : ℕ → ℝ}

theorem stepping_stable (hk : Kept P project N f mask ps pa pb) (h0 : P u0) (hdt : ∀ k, dt k ≠ 0) (hfix : cfl = false → ∀ k, dt k = dt 0) (k : ℕ) :
    P ((stepping project sc N f mask ps pa pb heap g1 g2 cfl u0 dt k).heap .state) := by
  induction k with
  | zero => simpa only [stepping, set_same] using h0
  | succ k ih =>
    obtain ⟨e1, e2⟩ := coefs_get (f := f) (g1 := g1) (g2 := g2) (project := project) (sc := sc) (N := N) (mask := mask) (ps := ps) (pa := pa)
      (pb := pb) (heap := heap) (u0 := u0) hdt hfix k
    simp only [stepping, oneStep3d, Schemes.dealias, set_same, e1, e2]
    exact hk.mask _ (hk.project _ (timeStep_stable hk.sub (hk.tend k) sc _ (hk.lin _) (hk.lin _) (hk.ps k) (hk.pa k) (hk.pb k) _ ih))

/-- A coefficient which has no linear term, with the tendency `c m` at the step `m`, whatever the state. -/
theorem stepping_const (hk : Kept P project N f mask ps pa pb) (h0 : P u0) (hdt : ∀ k, dt k ≠ 0) (hfix : cfl = false → ∀ k, dt k = dt 0)
    {i : ι} {c : ℕ → ℂ} (hc : ∀ m x, P x → N m x i = c m) (hi : f i = 0) (hmask : mask i = false) (hproj : ∀ x, P x → project x i = x i)
    (h3 : ∀ m, ps m i = 1) (h4 : ∀ m, pa m i = 1) (h5 : ∀ m, pb m i = 1) (k : ℕ) :
    (stepping project sc N f mask ps pa pb heap g1 g2 cfl u0 dt k).heap .state i = u0 i + ∑ m ∈ range k, dt m * c m := by
  induction k with
  | zero => simp only [stepping, set_same, range_zero, sum_empty, add_zero]
  | succ k ih =>
    obtain ⟨e1, e2⟩ := coefs_get (f := f) (g1 := g1) (g2 := g2) (project := project) (sc := sc) (N := N) (mask := mask) (ps := ps) (pa := pa)
      (pb := pb) (heap := heap) (u0 := u0) hdt hfix k
    have hs := stepping_stable (sc := sc) (heap := heap) (g1 := g1) (g2 := g2) hk h0 hdt hfix k
    have ht := timeStep_stable hk.sub (hk.tend k) sc (dt k) (hk.lin (-dt k)) (hk.lin (-dt k / 2)) (hk.ps k) (hk.pa k) (hk.pb k) _ hs
    have hv := timeStep_const hk.sub (hk.tend k) sc (dt k) (hk.lin (-dt k)) (hk.lin (-dt k / 2)) (hk.ps k) (hk.pa k) (hk.pb k) _ hs (hc k)
      (by rw [hi, mul_zero, Complex.exp_zero]) (by rw [hi, mul_zero, Complex.exp_zero]) (h3 k) (h4 k) (h5 k)
    simp only [stepping, oneStep3d, Schemes.dealias, set_same, e1, e2, hmask, Bool.false_eq_true, if_false]
    rw [hproj _ ht, hv, ih, sum_range_succ]
    ring

/-- A coefficient without tendency decays with its frequency. -/
theorem stepping_decay (hk : Kept P project N f mask ps pa pb) (h0 : P u0) (hdt : ∀ k, dt k ≠ 0) (hfix : cfl = false → ∀ k, dt k = dt 0)
    {i : ι} (hc : ∀ m x, P x → N m x i = 0) (hmask : mask i = false) (hproj : ∀ x, P x → project x i = x i) (k : ℕ) :
    (stepping project sc N f mask ps pa pb heap g1 g2 cfl u0 dt k).heap .state i
      = u0 i * Complex.exp (-((∑ m ∈ range k, dt m : ℝ) : ℂ) * f i) := by
  induction k with
  | zero => simp [stepping, set_same]
  | succ k ih =>
    obtain ⟨e1, e2⟩ := coefs_get (f := f) (g1 := g1) (g2 := g2) (project := project) (sc := sc) (N := N) (mask := mask) (ps := ps) (pa := pa)
      (pb := pb) (heap := heap) (u0 := u0) hdt hfix k
    have hs := stepping_stable (sc := sc) (heap := heap) (g1 := g1) (g2 := g2) hk h0 hdt hfix k
    have ht := timeStep_stable hk.sub (hk.tend k) sc (dt k) (hk.lin (-dt k)) (hk.lin (-dt k / 2)) (hk.ps k) (hk.pa k) (hk.pb k) _ hs
    have hv := timeStep_zero hk.sub (hk.tend k) sc (dt k) (hk.lin (-dt k)) (hk.lin (-dt k / 2)) (hk.ps k) (hk.pa k) (hk.pb k) _ hs (hc k)
    simp only [stepping, oneStep3d, Schemes.dealias, set_same, e1, e2, hmask, Bool.false_eq_true, if_false]
    rw [hproj _ ht, hv, ih, sum_range_succ, mul_assoc, ← Complex.exp_add]
    congr 2
    push_cast
    ring

end

end Verif.Invariants
