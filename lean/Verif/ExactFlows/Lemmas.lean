import Verif.ExactFlows.Spec
import Verif.Invariants.Lemmas
import Verif.Symmetry.Exact
import Verif.Symmetry.Sw1l
import Verif.EndToEnd.LemmasProj
import Verif.Symmetry.PropsNoBuoyancy

/-! # C108: lemmas -/

set_option linter.unusedSectionVars false

namespace Verif.ExactFlows

open Verif.Fourier Verif.Vectors Verif.Energy Verif.Galerkin Verif.Schemes Verif.EndToEnd Verif.Symmetry Verif.Invariants Verif.Convergence Finset

noncomputable section

section runs

variable {D V : Type*} [Fintype D] [DecidableEq D]

/-- A set of fields without nonlinear tendency, stable for the operations done during a step. -/
structure Inert (S G : Finset (D → ℤ)) (project : Arr (V × G) → Arr (V × G)) (tend : (V → Fld D) → V → Fld D) (Q : (V → Fld D) → Prop) :
    Prop where
  add : ∀ u w, Q u → Q w → Q fun v k => u v k + w v k
  mul : ∀ (g : (D → ℤ) → ℂ) u, Q u → Q fun v k => g k * u v k
  out : ∀ u, Q u → ∀ v k, k ∉ S → u v k = 0
  tend : ∀ u, Q u → ∀ v k, tend u v k = 0
  project : ∀ a, Q (fields G a) → project a = a

theorem run_decay {S G : Finset (D → ℤ)} (hG : S ⊆ G) {project : Arr (V × G) → Arr (V × G)} {tend : (V → Fld D) → V → Fld D}
    {Q : (V → Fld D) → Prop} (hQ : Inert S G project tend Q) (δ : D → ℝ) {nu : Dissip.Nu} (hnu : Nu.Ok nu) {c : Numerics D V}
    (hc : TimeSteps c) {u0 : V → Fld D} (h0 : Q u0) (k : ℕ) :
    run S G δ nu project tend c noForce u0 k = decayed δ nu u0 (elapsed c.dt k) := by
  have fadd : ∀ x y : Arr (V × G), fields G (x + y) = fun v k => fields G x v k + fields G y v k := by
    intro x y; funext v k; simp only [fields]; split <;> simp
  have fmul : ∀ (g : (D → ℤ) → ℂ) (x : Arr (V × G)), fields G (fun i => g i.2.1 * x i) = fun v k => g k * fields G x v k := by
    intro g x; funext v k; simp only [fields]; split <;> simp
  have qmul : ∀ (g : (D → ℤ) → ℂ) (x : Arr (V × G)), Q (fields G x) → Q (fields G fun i => g i.2.1 * x i) := by
    intro g x hx; rw [fmul]; exact hQ.mul _ _ hx
  have h00 : Q (fields G (array G u0)) := by
    have : fields G (array G u0) = u0 := by
      refine Symmetry.fields_array G fun v k hk => hQ.out _ h0 v k fun h => hk (hG h)
    rwa [this]
  have fzero : Q (fields G (0 : Arr (V × G))) := by
    have e : (0 : Arr (V × G)) = fun i => (fun _ : D → ℤ => (0 : ℂ)) i.2.1 * array G u0 i := by funext i; simp
    rw [e]
    exact qmul (fun _ => 0) _ h00
  have st : ∀ g : (D → ℤ) → ℂ, Stable (fun a : Arr (V × G) => Q (fields G a)) fun i => g i.2.1 := by
    intro g
    refine ⟨fun x hx => ?_, fun x hx => ?_, fun x hx => ?_⟩
    · have : (x * fun i : V × G => g i.2.1) = fun i => g i.2.1 * x i := by funext i; simp [mul_comm]
      rw [this, fmul]; exact hQ.mul _ _ hx
    · have : ((fun i : V × G => g i.2.1) * x) = fun i => g i.2.1 * x i := rfl
      rw [this, fmul]; exact hQ.mul _ _ hx
    · have : (x / fun i : V × G => g i.2.1) = fun i => (fun k => (g k)⁻¹) i.2.1 * x i := by
        funext i; simp [div_eq_mul_inv, mul_comm]
      rw [this]; exact qmul (fun k => (g k)⁻¹) _ hx
  have hN : ∀ (m : ℕ) (x : Arr (V × G)), Q (fields G x) → onArrays G (forced (noForce m) tend) x = 0 := by
    intro m x hx
    funext i
    simp [onArrays, array, forced, noForce, hQ.tend _ hx]
  have kept : Kept (fun a : Arr (V × G) => Q (fields G a)) project (fun m => onArrays G (forced (noForce m) tend)) (freqDiss G δ nu)
      (truncated G S) (fun m i => c.ps m i.2.1) (fun m i => c.pa m i.2.1) fun m i => c.pb m i.2.1 := by
    refine ⟨⟨fun x y hx hy => ?_, fun a x hx => ?_⟩, fun m x hx => ?_, fun x hx => ?_, fun x hx => ?_, fun t => ?_, fun m => st (c.ps m),
      fun m => st (c.pa m), fun m => st (c.pb m)⟩
    · rw [fadd]; exact hQ.add _ _ hx hy
    · have : a • x = fun i => (fun _ : D → ℤ => a) i.2.1 * x i := by funext i; simp
      rw [this]; exact qmul (fun _ => a) _ hx
    · rw [hN m x hx]; exact fzero
    · rw [hQ.project x hx]; exact hx
    · have : (fun i => if truncated G S i then 0 else x i) = fun i => (fun k => if k ∈ S then (1 : ℂ) else 0) i.2.1 * x i := by
        funext i
        by_cases h : i.2.1 ∈ S <;> simp [truncated, h]
      rw [this]; exact qmul (fun k => if k ∈ S then 1 else 0) _ hx
    · exact st fun k => Complex.exp (t * (Dissip.fd nu (waveSq δ k) : ℂ))
  funext v q
  simp only [run, decayed]
  by_cases hq : q ∈ S
  · rw [fields, dif_pos (hG hq), stepping_decay kept h00 hc.dt hc.fix (fun m x hx => by rw [hN m x hx]; rfl) (by simp [truncated, hq])
      (fun x hx => by rw [hQ.project x hx])]
    simp only [array, freqDiss, fd_eq hnu, elapsed]
    congr 2
    simp only [wavenumberSq, waveSq]
    push_cast
    ring
  · rw [hQ.out _ h0 v q hq, zero_mul]
    exact hQ.out _ (stepping_stable kept h00 hc.dt hc.fix k) v q hq

end runs

/-! ### Two dimensions -/

section two

variable {δ : Fin 2 → ℝ} {A : Set (Fin 2 → ℤ)} {S : Finset (Fin 2 → ℤ)}

theorem wave2 (k : Fin 2 → ℤ) : wavenumberSq δ k = (δ 0 * k 0) ^ 2 + (δ 1 * k 1) ^ 2 := by simp [wavenumberSq, Fin.sum_univ_two]

/-- The advection of the vorticity, with any symmetric weight. -/
theorem pairs_zero (hA : ParallelOrSameLength δ A) {rot : Fld (Fin 2)} (hr : ∀ k, rot k ≠ 0 → k ∈ A) (w : (Fin 2 → ℤ) → (Fin 2 → ℤ) → ℂ)
    (hw : ∀ p q, w p q = w q p) :
    ∑ p ∈ S, ∑ q ∈ S, (ux2 δ rot p * pd δ 0 rot q + uy2 δ rot p * pd δ 1 rot q) * w p q = 0 := by
  set T := fun p q => (ux2 δ rot p * pd δ 0 rot q + uy2 δ rot p * pd δ 1 rot q) * w p q with hT
  have anti : ∀ p q, T p q + T q p = 0 := by
    intro p q
    by_cases hp : rot p = 0
    · simp [hT, ux2, uy2, pd, Forcing.vecFromRot, hp]
    by_cases hq : rot q = 0
    · simp [hT, ux2, uy2, pd, Forcing.vecFromRot, hq]
    simp only [hT, hw q p, ux2, uy2, pd, Forcing.vecFromRot]
    have hI : Complex.I * Complex.I = -1 := Complex.I_mul_I
    rcases hA p (hr p hp) q (hr q hq) with h | h
    · have h' : ((δ 0 * p 0 : ℝ) : ℂ) * ((δ 1 * q 1 : ℝ) : ℂ) = ((δ 1 * p 1 : ℝ) : ℂ) * ((δ 0 * q 0 : ℝ) : ℂ) := by exact_mod_cast h
      generalize ((δ 0 * p 0 : ℝ) : ℂ) = a at *
      generalize ((δ 1 * p 1 : ℝ) : ℂ) = b at *
      generalize ((δ 0 * q 0 : ℝ) : ℂ) = a' at *
      generalize ((δ 1 * q 1 : ℝ) : ℂ) = b' at *
      simp only [div_eq_mul_inv]
      generalize ((Forcing.k2not0 _ _ : ℝ) : ℂ)⁻¹ = x
      generalize ((Forcing.k2not0 _ _ : ℝ) : ℂ)⁻¹ = y
      linear_combination (rot p * rot q * w p q * (x - y)) * h' * (-Complex.I * Complex.I)
    · have hk : Forcing.k2not0 (δ 0 * p 0) (δ 1 * p 1) = Forcing.k2not0 (δ 0 * q 0) (δ 1 * q 1) := by
        rw [wave2, wave2] at h
        simp only [Forcing.k2not0, h]
      rw [hk]
      ring
  have h1 : ∑ p ∈ S, ∑ q ∈ S, T p q = ∑ p ∈ S, ∑ q ∈ S, T q p := sum_comm
  have h2 : ∑ p ∈ S, ∑ q ∈ S, T p q + ∑ p ∈ S, ∑ q ∈ S, T q p = 0 := by
    rw [← sum_add_distrib]
    refine sum_eq_zero fun p _ => ?_
    rw [← sum_add_distrib]
    exact sum_eq_zero fun q _ => anti p q
  rw [← h1, ← two_mul] at h2
  exact (mul_eq_zero.1 h2).resolve_left two_ne_zero

theorem ns2d_zero (hA : ParallelOrSameLength δ A) {rot : Fld (Fin 2)} (hr : ∀ k, rot k ≠ 0 → k ∈ A) (n : Fin 2 → ℕ) (k : Fin 2 → ℤ) :
    ns2d n S δ 0 rot k = 0 := by
  simp only [ns2d]
  split
  · rw [← fftCoef_zero n k]
    congr 1
    funext j
    simp only [computeFrot, if_true, pd_deriv]
    have h := pairs_zero (S := S) hA hr (fun p q => chi n p j * chi n q j) fun p q => mul_comm _ _
    have e : gridVal n S (ux2 δ rot) j * gridVal n S (pd δ 0 rot) j + gridVal n S (uy2 δ rot) j * gridVal n S (pd δ 1 rot) j = 0 := by
      rw [← h]
      simp only [gridVal, sum_mul_sum, ← sum_add_distrib]
      refine sum_congr rfl fun p _ => sum_congr rfl fun q _ => ?_
      ring
    linear_combination -e
  · rfl

theorem advect_pairs_zero (hA : ParallelOrSameLength δ A) {rot : Fld (Fin 2)} (hr : ∀ k, rot k ≠ 0 → k ∈ A) (k : Fin 2 → ℤ) :
    advect S δ ![ux2 δ rot, uy2 δ rot] rot k = 0 := by
  rw [← pairs_zero (S := S) hA hr (fun p q => if p + q = k then 1 else 0) fun p q => by rw [add_comm]]
  simp only [advect, Fin.sum_univ_two, exactProduct, ← sum_add_distrib]
  refine sum_congr rfl fun p _ => sum_congr rfl fun q _ => ?_
  split <;> simp

/-- Fields which depend only on `y`. -/
theorem uy2_layers {rot : Fld (Fin 2)} (hr : ∀ k, rot k ≠ 0 → k 0 = 0) : uy2 δ rot = fun _ => 0 := by
  funext k
  by_cases h : rot k = 0
  · simp [uy2, Forcing.vecFromRot, h]
  · simp [uy2, Forcing.vecFromRot, hr k h]

theorem px_layers {a : Fld (Fin 2)} (ha : ∀ k, a k ≠ 0 → k 0 = 0) : pd δ 0 a = fun _ => 0 := by
  funext k
  by_cases h : a k = 0
  · simp [pd, h]
  · simp [pd, ha k h]

theorem ns2d_layers {rot : Fld (Fin 2)} (hr : ∀ k, rot k ≠ 0 → k 0 = 0) (n : Fin 2 → ℕ) (beta : ℝ) (k : Fin 2 → ℤ) :
    ns2d n S δ beta rot k = 0 := by
  simp only [ns2d, pd_deriv, uy2_layers hr, px_layers hr, Symmetry.gridVal_zero, computeFrot]
  split
  · refine Eq.trans ?_ (fftCoef_zero n k)
    congr 1
    funext j
    simp
  · rfl

theorem strat_layers {rot b : Fld (Fin 2)} (hr : ∀ k, rot k ≠ 0 → k 0 = 0) (hb : ∀ k, b k ≠ 0 → k 0 = 0) (n : Fin 2 → ℕ) (N : ℝ)
    (k : Fin 2 → ℤ) : (ns2dStrat n S δ N rot b).1 k = 0 ∧ (ns2dStrat n S δ N rot b).2 k = 0 := by
  simp only [ns2dStrat, pd_deriv, uy2_layers hr, px_layers hr, px_layers hb, Symmetry.gridVal_zero]
  constructor <;> split <;> simp [fftCoef_zero]

end two

/-! ### Fields which vary in one direction -/

section line

variable {D : Type*} [Fintype D] [DecidableEq D] {δ a : D → ℝ} {S : Finset (D → ℤ)}

theorem line_dot {u : D → Fld D} (hu : Perpendicular a u) {q : D → ℤ} (hq : q ∈ along δ a) (p : D → ℤ) :
    ∑ d, ((δ d * q d : ℝ) : ℂ) * u d p = 0 := by
  obtain ⟨s, hs⟩ := hq
  have h := hu p
  calc ∑ d, ((δ d * q d : ℝ) : ℂ) * u d p = (s : ℂ) * ∑ d, (a d : ℂ) * u d p := by
        rw [mul_sum]
        refine sum_congr rfl fun d _ => ?_
        rw [hs d]; push_cast; ring
    _ = 0 := by rw [h, mul_zero]

theorem advect_line {u : D → Fld D} (hu : Perpendicular a u) {b : Fld D} (hb : ∀ q, b q ≠ 0 → q ∈ along δ a) (k : D → ℤ) :
    advect S δ u b k = 0 := by
  simp only [advect, exactProduct]
  rw [sum_comm]
  refine sum_eq_zero fun p _ => ?_
  rw [sum_comm]
  refine sum_eq_zero fun q _ => ?_
  by_cases h : p + q = k
  · simp only [h, if_true, pd]
    by_cases hq : b q = 0
    · simp [hq]
    · calc ∑ d, u d p * (Complex.I * ((δ d * q d : ℝ) : ℂ) * b q) = Complex.I * b q * ∑ d, ((δ d * q d : ℝ) : ℂ) * u d p := by
            rw [mul_sum]; exact sum_congr rfl fun d _ => by ring
        _ = 0 := by rw [line_dot hu (hb q hq), mul_zero]
  · simp [h]

theorem along_add {p q : D → ℤ} (hp : p ∈ along δ a) (hq : q ∈ along δ a) : p + q ∈ along δ a := by
  obtain ⟨s, hs⟩ := hp
  obtain ⟨t, ht⟩ := hq
  refine ⟨s + t, fun d => ?_⟩
  have h1 := hs d
  have h2 := ht d
  simp only [Pi.add_apply]
  push_cast
  linear_combination h1 + h2

theorem divergence_line {u : D → Fld D} (hu : Perpendicular a u) (hs : ∀ d q, u d q ≠ 0 → q ∈ along δ a) {b : Fld D}
    (hb : ∀ q, b q ≠ 0 → q ∈ along δ a) (k : D → ℤ) :
    ∑ d, Complex.I * ((δ d * k d : ℝ) : ℂ) * exactProduct S (u d) b k = 0 := by
  simp only [exactProduct, mul_sum]
  rw [sum_comm]
  refine sum_eq_zero fun p _ => ?_
  rw [sum_comm]
  refine sum_eq_zero fun q _ => ?_
  by_cases h : p + q = k
  · simp only [h, if_true]
    by_cases hq : b q = 0
    · simp [hq]
    by_cases hp : ∀ d, u d p = 0
    · simp [hp]
    push Not at hp
    obtain ⟨e, he⟩ := hp
    have hk : k ∈ along δ a := h ▸ along_add (hs e p he) (hb q hq)
    calc ∑ d, Complex.I * ((δ d * k d : ℝ) : ℂ) * (u d p * b q) = Complex.I * b q * ∑ d, ((δ d * k d : ℝ) : ℂ) * u d p := by
          rw [mul_sum]; exact sum_congr rfl fun d _ => by ring
      _ = 0 := by rw [line_dot hu hk, mul_zero]
  · simp [h]

end line

end

end Verif.ExactFlows
