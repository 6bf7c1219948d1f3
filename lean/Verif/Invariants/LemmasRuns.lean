import Verif.Invariants.Lemmas
import Verif.Invariants.Spec
import Verif.Galerkin.Props
import Verif.Galerkin.PropsSw1lMod
import Verif.EndToEnd.ModelMore

/-! # C101: lemmas on the means -/

set_option linter.unusedSectionVars false

namespace Verif.Invariants

open Verif.Fourier Verif.Vectors Verif.Energy Verif.Galerkin Verif.Schemes Verif.EndToEnd Verif.Symmetry Finset

noncomputable section

variable {D V : Type*} [Fintype D] [DecidableEq D]

theorem meanValue_eq {n : D → ℕ} (hn : ∀ d, 0 < n d) {S : Finset (D → ℤ)} (hS : Distinct n S) (h0 : (0 : D → ℤ) ∈ S) (a : Fld D) :
    meanValue n S a = a 0 := by
  rw [← fft_grid hn hS a h0]
  simp [meanValue, fftCoef, div_eq_mul_inv, mul_comm, chi]

/-- The advection by a flow without divergence has no mean. -/
theorem advect_mean (S : Finset (D → ℤ)) (δ : D → ℝ) {u : D → Fld D} (hdiv : ∀ k ∈ S, ∑ d, pd δ d (u d) k = 0) (a : Fld D) :
    advect S δ u a 0 = 0 := by
  have h : ∀ d, exactProduct S (u d) (pd δ d a) 0 = -exactProduct S (pd δ d (u d)) a 0 := by
    intro d
    have := exact_leibniz S δ d (u d) a 0
    simp only [Pi.zero_apply, Int.cast_zero, mul_zero, Complex.ofReal_zero, zero_mul] at this
    linear_combination -this
  rw [advect, sum_congr rfl fun d _ => h d, sum_neg_distrib, neg_eq_zero]
  simp only [exactProduct]
  rw [sum_comm]
  refine sum_eq_zero fun p hp => ?_
  rw [sum_comm]
  refine sum_eq_zero fun q _ => ?_
  by_cases e : p + q = 0
  · simp only [e, if_true, ← sum_mul, hdiv p hp, zero_mul]
  · simp [e]

/-- All arrays. -/
theorem kept_all {ι : Type*} (project : Arr ι → Arr ι) (N : ℕ → Arr ι → Arr ι) (f : Arr ι) (mask : ι → Bool) (ps pa pb : ℕ → Arr ι) :
    Kept (fun _ => True) project N f mask ps pa pb :=
  ⟨⟨fun _ _ _ _ => trivial, fun _ _ _ => trivial⟩, fun _ _ _ => trivial, fun _ _ => trivial, fun _ _ => trivial,
    fun _ => ⟨fun _ _ => trivial, fun _ _ => trivial, fun _ _ => trivial⟩, fun _ => ⟨fun _ _ => trivial, fun _ _ => trivial, fun _ _ => trivial⟩,
    fun _ => ⟨fun _ _ => trivial, fun _ _ => trivial, fun _ _ => trivial⟩, fun _ => ⟨fun _ _ => trivial, fun _ _ => trivial, fun _ _ => trivial⟩⟩

/-- A condition on the coefficients of each mode which contains the combinations: `Q k` for the mode `k` of `S`. -/
def Modes (G S : Finset (D → ℤ)) (Q : (D → ℤ) → (V → ℂ) → Prop) (x : Arr (V × G)) : Prop :=
  ∀ k ∈ S, Q k fun v => fields G x v k

structure Linear (Q : (V → ℂ) → Prop) : Prop where
  add : ∀ x y, Q x → Q y → Q (x + y)
  smul : ∀ (a : ℂ) x, Q x → Q (a • x)

theorem modes_stable {G S : Finset (D → ℤ)} {Q : (D → ℤ) → (V → ℂ) → Prop} (hQ : ∀ k, Linear (Q k)) (g : (D → ℤ) → ℂ) :
    Stable (Modes G S Q) fun i : V × G => g i.2.1 := by
  have e : ∀ x : Arr (V × G), Modes G S Q x → ∀ h : (D → ℤ) → ℂ, Modes G S Q fun i : V × G => h i.2.1 * x i := by
    intro x hx h k hk
    have := (hQ k).smul (h k) _ (hx k hk)
    have e : (fun v => fields G (fun i : V × G => h i.2.1 * x i) v k) = h k • fun v => fields G x v k := by
      funext v
      simp only [fields, Pi.smul_apply, smul_eq_mul]
      split <;> simp
    rw [e]
    exact this
  refine ⟨fun x hx => ?_, fun x hx => e x hx g, fun x hx => ?_⟩
  · have := e x hx g
    convert this using 1
    funext i
    simp [mul_comm]
  · have := e x hx fun k => (g k)⁻¹
    convert this using 1
    funext i
    simp [div_eq_mul_inv, mul_comm]

theorem modes_subspace {G S : Finset (D → ℤ)} {Q : (D → ℤ) → (V → ℂ) → Prop} (hQ : ∀ k, Linear (Q k)) : Subspace (Modes (V := V) G S Q) := by
  constructor
  · intro x y hx hy k hk
    have := (hQ k).add _ _ (hx k hk) (hy k hk)
    have e : (fun v => fields G (x + y) v k) = (fun v => fields G x v k) + fun v => fields G y v k := by
      funext v
      simp only [fields, Pi.add_apply]
      split <;> simp
    rw [e]
    exact this
  · intro a x hx k hk
    have := (hQ k).smul a _ (hx k hk)
    have e : (fun v => fields G (a • x) v k) = a • fun v => fields G x v k := by
      funext v
      simp only [fields, Pi.smul_apply]
      split <;> simp
    rw [e]
    exact this

/-- A condition on the coefficients of each mode is kept by a run, if the tendencies and the projection keep it. -/
theorem kept_modes {G S : Finset (D → ℤ)} {Q : (D → ℤ) → (V → ℂ) → Prop} (hQ : ∀ k, Linear (Q k)) (δ : D → ℝ) (nu : Dissip.Nu)
    {project : Arr (V × G) → Arr (V × G)} (hp : ∀ x, Modes G S Q x → Modes G S Q (project x)) {tend : (V → Fld D) → V → Fld D}
    (ht : ∀ x, Modes G S Q x → Modes G S Q (onArrays G tend x)) {F : ℕ → V → Fld D} (hF : ∀ m, Modes G S Q (array G (F m)))
    (c : Numerics D V) :
    Kept (Modes G S Q) project (fun m => onArrays G (forced (F m) tend)) (freqDiss G δ nu) (truncated G S) (fun m i => c.ps m i.2.1)
      (fun m i => c.pa m i.2.1) (fun m i => c.pb m i.2.1) where
  sub := modes_subspace hQ
  tend m x hx := (modes_subspace hQ).add _ _ (ht x hx) (hF m)
  project := hp
  mask x hx k hk := by
    have e : (fun v => fields G (fun i => if truncated G S i then 0 else x i) v k) = fun v => fields G x v k := by
      funext v
      simp [fields, truncated, hk]
    rw [e]
    exact hx k hk
  lin t := modes_stable hQ fun k => Complex.exp (t * (Dissip.fd nu (waveSq δ k) : ℂ))
  ps m := modes_stable hQ (c.ps m)
  pa m := modes_stable hQ (c.pa m)
  pb m := modes_stable hQ (c.pb m)

theorem fd_mean (nu : Dissip.Nu) (δ : D → ℝ) : Dissip.fd nu (waveSq δ 0) = 0 := by
  have : waveSq δ 0 = 0 := by simp [waveSq]
  rw [this]
  simp [Dissip.fd]

/-- The mean of a variable along a run. -/
theorem run_mean {n : D → ℕ} (hn : ∀ d, 0 < n d) {S G : Finset (D → ℤ)} (hS : Distinct n S) (h0 : (0 : D → ℤ) ∈ S) (hG : S ⊆ G) {δ : D → ℝ}
    {nu : Dissip.Nu} {project : Arr (V × G) → Arr (V × G)} {tend : (V → Fld D) → V → Fld D} {c : Numerics D V} (hc : Proper c)
    {F : ℕ → V → Fld D} {P : Arr (V × G) → Prop}
    (hk : Kept P project (fun m => onArrays G (forced (F m) tend)) (freqDiss G δ nu) (truncated G S) (fun m i => c.ps m i.2.1)
      (fun m i => c.pa m i.2.1) (fun m i => c.pb m i.2.1)) {u0 : V → Fld D} (hu : P (array G u0)) {v : V}
    (ht : ∀ x, P x → tend (fields G x) v 0 = 0) (hp : ∀ x, P x → project x (v, ⟨0, hG h0⟩) = x (v, ⟨0, hG h0⟩)) :
    MeanFollowsForce n S c.dt F (run S G δ nu project tend c F u0) v := by
  intro k
  simp only [meanValue_eq hn hS h0]
  have e : ∀ k, run S G δ nu project tend c F u0 k v 0 = u0 v 0 + ∑ m ∈ range k, c.dt m * F m v 0 := by
    intro k
    have := stepping_const (sc := c.sc) (heap := fun b i => c.heap b i.1 i.2.1) (g1 := fun i => c.g1 i.1 i.2.1) (g2 := fun i => c.g2 i.1 i.2.1)
      hk hu hc.dt hc.fix (i := (v, ⟨0, hG h0⟩)) (c := fun m => F m v 0)
      (fun m x hx => by simp only [onArrays, array, forced, ht x hx, zero_add])
      (by simp only [freqDiss, fd_mean, Complex.ofReal_zero]) (by simp [truncated, h0]) hp hc.ps hc.pa hc.pb k
    simpa only [run, fields, hG h0, dif_pos, array] using this
  rw [e k, e 0]
  simp

/-- The variables without tendency of the mean, whatever the state. -/
theorem run_mean_all {n : D → ℕ} (hn : ∀ d, 0 < n d) {S G : Finset (D → ℤ)} (hS : Distinct n S) (h0 : (0 : D → ℤ) ∈ S) (hG : S ⊆ G) {δ : D → ℝ}
    {nu : Dissip.Nu} {tend : (V → Fld D) → V → Fld D} {c : Numerics D V} (hc : Proper c) {F : ℕ → V → Fld D} {u0 : V → Fld D} {v : V}
    (ht : ∀ u, tend u v 0 = 0) : MeanFollowsForce n S c.dt F (run S G δ nu id tend c F u0) v :=
  run_mean hn hS h0 hG hc (kept_all _ _ _ _ _ _ _) trivial (fun _ _ => ht _) fun _ _ => rfl

end

end Verif.Invariants
