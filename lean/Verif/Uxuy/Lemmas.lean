import Verif.Uxuy.Spec
import Verif.Schemes.Props
import Verif.Energy.Props2d

/-! # C90: the time schemes on states which are images of other states -/

set_option linter.unusedSectionVars false

namespace Verif.Uxuy

open Verif.Fourier Verif.Energy Verif.Galerkin Verif.Schemes Verif.Convergence Verif.EndToEnd Finset

noncomputable section

variable {ι κ : Type*}

/-- Each entry is a multiple of an entry of another array. -/
def lift (c : κ → ℂ) (π : κ → ι) (x : Arr ι) : Arr κ := fun j => c j * x (π j)

theorem lift_add (c : κ → ℂ) (π : κ → ι) (x y : Arr ι) : lift c π (x + y) = lift c π x + lift c π y := by
  funext j; simp only [lift, Pi.add_apply]; ring

theorem lift_smul (c : κ → ℂ) (π : κ → ι) (a : ℂ) (x : Arr ι) : lift c π (a • x) = a • lift c π x := by
  funext j; simp only [lift, Pi.smul_apply, smul_eq_mul]; ring

theorem lift_mul (c : κ → ℂ) (π : κ → ι) (x d : Arr ι) : lift c π (x * d) = lift c π x * (d ∘ π) := by
  funext j; simp only [lift, Pi.mul_apply, Function.comp]; ring

theorem lift_mul' (c : κ → ℂ) (π : κ → ι) (d x : Arr ι) : lift c π (d * x) = (d ∘ π) * lift c π x := by
  funext j; simp only [lift, Pi.mul_apply, Function.comp]; ring

theorem lift_div (c : κ → ℂ) (π : κ → ι) (x d : Arr ι) : lift c π (x / d) = lift c π x / (d ∘ π) := by
  funext j; simp only [lift, Pi.div_apply, Function.comp]; ring

/-- The schemes commute with `lift`. -/
theorem timeStepRK_lift (c : κ → ℂ) (π : κ → ι) {N : Arr ι → Arr ι} {N' : Arr κ → Arr κ} (hN : ∀ x, N' (lift c π x) = lift c π (N x))
    (sc : Scheme) (dt : ℂ) (d d2 ps pa pb : Arr ι) (h : Heap ι) (h' : Heap κ) (hs : h' .state = lift c π (h .state)) :
    timeStepRK sc (fun _ => N') dt (d ∘ π) (d2 ∘ π) (ps ∘ π) (pa ∘ π) (pb ∘ π) h' .state
      = lift c π (timeStepRK sc (fun _ => N) dt d d2 ps pa pb h .state) := by
  have hd := fun x => lift_mul c π x d
  have hd2 := fun x => lift_mul c π x d2
  have hd2' := fun x => lift_mul' c π d2 x
  have hps := fun x => lift_mul' c π ps x
  have hpa := fun x => lift_mul' c π pa x
  have hpb := fun x => lift_mul' c π pb x
  cases sc <;>
    simp only [timeStepRK, euler, eulerPhaseshift, eulerPhaseshiftRandom, rk2, rk2Trapezoid, rk2Phaseshift, rk2PhaseshiftRandom,
      rk2PhaseshiftExact, rk4, tendencies, stepEuler, stepLikeRK2, meanWithPhaseshift, mulShift, divInplace, set_same, set_other, ne_eq,
      reduceCtorEq, not_false_eq_true, hs, lift_add, lift_smul, ← hN, lift_div, hd, hd2, hd2', hps, hpa, hpb]

/-- The caches of coefficients of two time steppings, the second with the frequencies of the first. -/
def CoefsRel (π : κ → ι) (a : Coefs ι) (b : Coefs κ) : Prop :=
  b.freq = a.freq ∘ π ∧ b.dtOld = a.dtOld ∧ b.useCFL = a.useCFL ∧
    ((a.useCFL = true ∧ a.dtOld = 0) ∨ (b.exact1 = a.exact1 ∘ π ∧ b.exact2 = a.exact2 ∘ π))

theorem coefsRel_compute (π : κ → ι) {a : Coefs ι} {b : Coefs κ} (h : CoefsRel π a b) (dt : ℝ) :
    CoefsRel π (a.compute dt) (b.compute dt) := by
  refine ⟨h.1, rfl, h.2.2.1, Or.inr ⟨?_, ?_⟩⟩ <;> · funext j; simp [Coefs.compute, h.1]

theorem coefsRel_init (π : κ → ι) (f : Arr ι) (cfl : Bool) (dt : ℝ) (g1 g2 : Arr ι) (g1' g2' : Arr κ) :
    CoefsRel π (Coefs.init f cfl dt g1 g2) (Coefs.init (f ∘ π) cfl dt g1' g2') := by
  cases cfl
  · refine ⟨rfl, rfl, rfl, Or.inr ⟨?_, ?_⟩⟩ <;> · funext j; simp [Coefs.init, Coefs.compute]
  · exact ⟨rfl, rfl, rfl, Or.inl ⟨rfl, rfl⟩⟩

theorem coefsRel_get (π : κ → ι) {a : Coefs ι} {b : Coefs κ} (h : CoefsRel π a b) {dt : ℝ} (hdt : dt ≠ 0) :
    CoefsRel π (a.get dt).1 (b.get dt).1 ∧ (b.get dt).2.1 = (a.get dt).2.1 ∘ π ∧ (b.get dt).2.2 = (a.get dt).2.2 ∘ π := by
  obtain ⟨h1, h2, h3, h4⟩ := h
  simp only [Coefs.get, h3, h2]
  cases hc : a.useCFL
  · simp only [Bool.false_eq_true, if_false]
    rw [hc] at h4
    simp only [Bool.false_eq_true, false_and, false_or] at h4
    exact ⟨⟨h1, h2, h3, Or.inr h4⟩, h4⟩
  · simp only [if_true]
    by_cases he : a.dtOld = dt
    · simp only [he, ne_eq, not_true_eq_false, if_false]
      have h4' := h4.resolve_left fun h => hdt (by rw [← he]; exact h.2)
      exact ⟨⟨h1, h2, h3, Or.inr h4'⟩, h4'⟩
    · simp only [ne_eq, he, not_false_eq_true, if_true]
      have := coefsRel_compute π (a := a) (b := b) ⟨h1, h2, h3, h4⟩ dt
      refine ⟨this, ?_⟩
      rcases this.2.2.2 with h | h
      · exact absurd h.2 hdt
      · exact h

/-- The simulations commute with `lift`, if the projection leaves the images unchanged. -/
theorem simulation_lift (c : κ → ℂ) (π : κ → ι) {N : Arr ι → Arr ι} {N' : Arr κ → Arr κ} (hN : ∀ x, N' (lift c π x) = lift c π (N x))
    {project : Arr κ → Arr κ} (hp : ∀ x, project (lift c π x) = lift c π x) (sc : Scheme) (f : Arr ι) (mask : ι → Bool)
    (ps pa pb : ℕ → Arr ι) (heap : Heap ι) (heap' : Heap κ) (g1 g2 : Arr ι) (g1' g2' : Arr κ) (cfl : Bool) (u0 : Arr ι) {dt : ℕ → ℝ}
    (hdt : ∀ k, dt k ≠ 0) (k : ℕ) :
    let s := simulation sc N f mask ps pa pb heap g1 g2 cfl u0 dt k
    let s' := simulationUxuy project sc N' (f ∘ π) (mask ∘ π) (fun m => ps m ∘ π) (fun m => pa m ∘ π) (fun m => pb m ∘ π) heap' g1' g2'
      cfl (lift c π u0) dt k
    CoefsRel π s.coefs s'.coefs ∧ s'.heap .state = lift c π (s.heap .state) := by
  induction k with
  | zero =>
    simp only [simulation, simulationUxuy, set_same]
    exact ⟨coefsRel_init π f cfl (dt 0) g1 g2 g1' g2', trivial⟩
  | succ k ih =>
    intro s s'
    obtain ⟨h1, h2⟩ := ih
    obtain ⟨r1, r2, r3⟩ := coefsRel_get π h1 (hdt k)
    refine ⟨r1, ?_⟩
    simp only [s, s', simulation, simulationUxuy, oneStepUxuy, Schemes.oneStep, Schemes.dealias, set_same, r2, r3]
    rw [timeStepRK_lift c π hN sc (dt k) _ _ (ps k) (pa k) (pb k) _ _ h2]
    refine Eq.trans (congrArg project ?_) (hp _)
    funext j
    simp only [Function.comp, lift]
    split <;> simp

/-! ### the velocity of a vorticity -/

/-- The factors between a vorticity and its velocity. -/
def coefVec (G : Finset (Fin 2 → ℤ)) (δ : Fin 2 → ℝ) (i : Fin 2 × G) : ℂ := vecOf δ (fun _ => 1) i.1 i.2.1

theorem vecOf_mul (δ : Fin 2 → ℝ) (rot : Fld (Fin 2)) (v : Fin 2) (k : Fin 2 → ℤ) :
    vecOf δ rot v k = vecOf δ (fun _ => 1) v k * rot k := by
  fin_cases v <;> simp [vecOf, ux2, uy2, Forcing.vecFromRot]

theorem array_vecOf (G : Finset (Fin 2 → ℤ)) (δ : Fin 2 → ℝ) (rot : Fld (Fin 2)) :
    array G (vecOf δ rot) = lift (coefVec G δ) (fun i => ((), i.2)) (array G fun _ : Unit => rot) := by
  funext i
  simp only [array, lift, coefVec]
  exact vecOf_mul δ rot _ _

theorem fields_lift (G : Finset (Fin 2 → ℤ)) (δ : Fin 2 → ℝ) (x : Arr (Unit × G)) :
    fields G (lift (coefVec G δ) (fun i => ((), i.2)) x) = vecOf δ (fields G x ()) := by
  funext v k
  rw [vecOf_mul]
  simp only [fields, lift, coefVec]
  split <;> simp

theorem k2not0_pos (a b : ℝ) : 0 < Forcing.k2not0 a b := by
  unfold Forcing.k2not0
  split
  · positivity
  · rename_i h
    exact lt_of_le_of_ne (by positivity) (Ne.symm h)

theorem k2not0_eq {a b : ℝ} (h : a ^ 2 + b ^ 2 ≠ 0) : Forcing.k2not0 a b = a ^ 2 + b ^ 2 := by
  rw [Forcing.k2not0, if_neg h]

theorem perp_vecOf (δ : Fin 2 → ℝ) (rot : Fld (Fin 2)) : perpOf δ (vecOf δ rot) = vecOf δ rot := by
  funext v k
  have : ((δ 0 * k 0 : ℝ) : ℂ) * ux2 δ rot k + ((δ 1 * k 1 : ℝ) : ℂ) * uy2 δ rot k = 0 := by
    simp only [ux2, uy2, Forcing.vecFromRot]; ring
  fin_cases v <;> simp only [perpOf, vecOf, InitFields.projPerp, this, zero_div, mul_zero, sub_zero]

/-- The vorticity of the velocity of a vorticity: the mean is lost. -/
theorem rot_vecOf (δ : Fin 2 → ℝ) (rot : Fld (Fin 2)) (k : Fin 2 → ℤ) :
    rotOf δ (vecOf δ rot) k = if (δ 0 * k 0 : ℝ) ^ 2 + (δ 1 * k 1) ^ 2 = 0 then 0 else rot k := by
  simp only [rotOf, vecOf, ux2, uy2, Forcing.vecFromRot, Forcing.rotFromVec]
  split
  · rename_i h
    have h0 : (δ 0 * k 0 : ℝ) = 0 := by nlinarith [sq_nonneg (δ 0 * (k 0 : ℝ)), sq_nonneg (δ 1 * (k 1 : ℝ))]
    have h1 : (δ 1 * k 1 : ℝ) = 0 := by nlinarith [sq_nonneg (δ 0 * (k 0 : ℝ)), sq_nonneg (δ 1 * (k 1 : ℝ))]
    rw [h0, h1]; simp
  · rename_i h
    rw [k2not0_eq h]
    generalize (δ 0 * k 0 : ℝ) = a at h ⊢
    generalize (δ 1 * k 1 : ℝ) = b at h ⊢
    have h' : (a : ℂ) ^ 2 + (b : ℂ) ^ 2 ≠ 0 := by exact_mod_cast h
    push_cast
    have e : Complex.I * ((a : ℂ) * (-Complex.I * a / (a ^ 2 + b ^ 2) * rot k) - b * (Complex.I * b / (a ^ 2 + b ^ 2) * rot k))
        = -(Complex.I ^ 2) * (((a : ℂ) ^ 2 + b ^ 2) / (a ^ 2 + b ^ 2)) * rot k := by ring
    rw [e, div_self h', Complex.I_sq]
    ring

theorem deriv_rot_vecOf (δ : Fin 2 → ℝ) (rot : Fld (Fin 2)) (d : Fin 2) :
    Energy.deriv δ d (rotOf δ (vecOf δ rot)) = Energy.deriv δ d rot := by
  funext k
  simp only [Energy.deriv, rot_vecOf]
  split
  · rename_i h
    have h0 : (δ 0 * k 0 : ℝ) = 0 := by nlinarith [sq_nonneg (δ 0 * (k 0 : ℝ)), sq_nonneg (δ 1 * (k 1 : ℝ))]
    have h1 : (δ 1 * k 1 : ℝ) = 0 := by nlinarith [sq_nonneg (δ 0 * (k 0 : ℝ)), sq_nonneg (δ 1 * (k 1 : ℝ))]
    have : (δ d * k d : ℝ) = 0 := by fin_cases d; exacts [h0, h1]
    rw [this]; simp
  · rfl

/-- The tendencies are the velocity of those of ns2d. -/
theorem tend_vecOf (n : Fin 2 → ℕ) (S : Finset (Fin 2 → ℤ)) (δ : Fin 2 → ℝ) (beta : ℝ) (rot : Fld (Fin 2)) :
    tendUxuy n S δ beta (vecOf δ rot) = vecOf δ (ns2d n S δ beta rot) := by
  rw [tendUxuy]
  congr 1
  funext k
  simp only [frotFft, ns2d, deriv_rot_vecOf]
  rfl

theorem onArrays_lift (n : Fin 2 → ℕ) (S G : Finset (Fin 2 → ℤ)) (δ : Fin 2 → ℝ) (beta : ℝ) (F : Fld (Fin 2)) (x : Arr (Unit × G)) :
    onArrays G (forced (vecOf δ F) (tendUxuy n S δ beta)) (lift (coefVec G δ) (fun i => ((), i.2)) x)
      = lift (coefVec G δ) (fun i => ((), i.2)) (onArrays G (forced (fun _ : Unit => F) (tend2d n S δ beta)) x) := by
  rw [onArrays, fields_lift]
  have : forced (vecOf δ F) (tendUxuy n S δ beta) (vecOf δ (fields G x ()))
      = vecOf δ (forced (fun _ : Unit => F) (tend2d n S δ beta) (fields G x) ()) := by
    funext v k
    rw [vecOf_mul δ (forced (fun _ : Unit => F) (tend2d n S δ beta) (fields G x) ())]
    simp only [forced, tend_vecOf, tend2d]
    rw [vecOf_mul, vecOf_mul δ F]
    ring
  rw [this, array_vecOf]
  rfl

theorem project_lift (G : Finset (Fin 2 → ℤ)) (δ : Fin 2 → ℝ) (x : Arr (Unit × G)) :
    projectUxuy G δ (lift (coefVec G δ) (fun i => ((), i.2)) x) = lift (coefVec G δ) (fun i => ((), i.2)) x := by
  rw [projectUxuy, fields_lift, perp_vecOf, array_vecOf]
  congr 1
  funext i
  simp only [array, fields]
  rw [dif_pos i.2.2]

end

end Verif.Uxuy
