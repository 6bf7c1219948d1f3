import Verif.SpectBudget.Spec
import Verif.Galerkin.Lemmas
import Verif.Energy.Props2d
import Verif.Vectors.Props
import Mathlib.Analysis.Calculus.Deriv.Mul
import Mathlib.Analysis.Complex.RealDeriv

namespace Verif.SpectBudget

open Verif.Fourier Verif.Energy Verif.Vectors Verif.Galerkin Finset

set_option linter.unusedSectionVars false

noncomputable section

theorem half_deriv {g : ℝ → ℂ} {g' : ℂ} {t : ℝ} (h : HasDerivAt g g' t) :
    HasDerivAt (fun s => half (g s)) ((starRingEnd ℂ) (g t) * g').re t := by
  have hre : HasDerivAt (fun s => (g s).re) g'.re t := by
    exact Complex.reCLM.hasFDerivAt.comp_hasDerivAt t h
  have him : HasDerivAt (fun s => (g s).im) g'.im t := by
    exact Complex.imCLM.hasFDerivAt.comp_hasDerivAt t h
  have h2 := ((hre.mul hre).add (him.mul him)).div_const 2
  have e : (fun s => half (g s)) = fun s => ((g s).re * (g s).re + (g s).im * (g s).im) / 2 := by
    funext s
    rw [half, ← Complex.normSq_eq_norm_sq, Complex.normSq_apply]
  rw [e]
  have e2 : ((starRingEnd ℂ) (g t) * g').re
      = (g'.re * (g t).re + (g t).re * g'.re + (g'.im * (g t).im + (g t).im * g'.im)) / 2 := by
    simp only [Complex.mul_re, Complex.conj_re, Complex.conj_im]
    ring
  rw [e2]
  exact h2

/-! ### 2D -/

section D2

variable {S : Finset (Fin 2 → ℤ)} {δ : Fin 2 → ℝ}

/-- The curl of the advection of the velocity is the advection of the vorticity. -/
theorem curl_advect {rot ux uy : Fld (Fin 2)} (hu : Velocity2 S δ rot ux uy) (k : Fin 2 → ℤ) :
    Complex.I * ((δ 0 * k 0 : ℝ) : ℂ) * advect S δ ![ux, uy] uy k
      - Complex.I * ((δ 1 * k 1 : ℝ) : ℂ) * advect S δ ![ux, uy] ux k
      = advect S δ ![ux, uy] rot k := by
  have hcomm : ∀ a : Fld (Fin 2), pd δ 0 (pd δ 1 a) = pd δ 1 (pd δ 0 a) := by
    intro a; funext q; simp only [pd]; ring
  -- gradients of the vorticity
  have hg : ∀ d, ∀ q ∈ S, pd δ d rot q = pd δ d (pd δ 0 uy) q - pd δ d (pd δ 1 ux) q := by
    intro d q hq
    by_cases h0 : q = 0
    · subst h0; simp [pd]
    · have h := hu.rot q hq h0
      have e : pd δ d rot q = Complex.I * ((δ d * q d : ℝ) : ℂ) * rot q := rfl
      rw [e, ← h]
      simp only [pd]; ring
  -- incompressibility
  have hz : ∀ a : Fld (Fin 2), exactProduct S (pd δ 0 ux) a k + exactProduct S (pd δ 1 uy) a k = 0 := by
    intro a
    rw [← exact_add_left]
    simp only [exactProduct]
    refine sum_eq_zero fun q hq => sum_eq_zero fun r _ => ?_
    split
    · rw [hu.div q hq, zero_mul]
    · rfl
  simp only [advect, Fin.sum_univ_two, Matrix.cons_val_zero, Matrix.cons_val_one]
  rw [exact_congr (fun _ _ => rfl) (hg 0), exact_congr (fun _ _ => rfl) (hg 1), exact_sub_right,
    exact_sub_right]
  have l1 := exact_leibniz S δ 0 ux (pd δ 0 uy) k
  have l2 := exact_leibniz S δ 0 uy (pd δ 1 uy) k
  have l3 := exact_leibniz S δ 1 ux (pd δ 0 ux) k
  have l4 := exact_leibniz S δ 1 uy (pd δ 1 ux) k
  have z1 := hz (pd δ 0 uy)
  have z2 := hz (pd δ 1 ux)
  rw [exact_comm S (pd δ 0 uy) (pd δ 1 uy)] at l2
  rw [exact_comm S (pd δ 1 ux) (pd δ 0 ux)] at l3
  rw [hcomm uy] at l2
  rw [← hcomm ux] at l3
  linear_combination l1 + l2 - l3 - l4 + z1 - z2

theorem fnl_eq {n : Fin 2 → ℕ} (hn : ∀ d, 0 < n d) (hS : NoAlias n S) (hδ : ∀ d, δ d ≠ 0)
    {rot ux uy : Fld (Fin 2)} (hu : Velocity2 S δ rot ux uy) (a : Fld (Fin 2)) {k : Fin 2 → ℤ}
    (hk : k ∈ S) : fnl n S δ rot a k = -advect S δ ![ux, uy] a k := by
  rw [fnl, if_pos hk]
  have e : ∀ j, -gridVal n S (ux2 δ rot) j * gridVal n S (Energy.deriv δ 0 a) j
      - gridVal n S (uy2 δ rot) j * gridVal n S (Energy.deriv δ 1 a) j
      = -(gridVal n S (ux2 δ rot) j * gridVal n S (Energy.deriv δ 0 a) j
        + gridVal n S (uy2 δ rot) j * gridVal n S (Energy.deriv δ 1 a) j) := fun j => by ring
  rw [fft_congr n e, fft_neg, fft_add, fft_prod hn hS _ _ hk, fft_prod hn hS _ _ hk]
  simp only [advect, Fin.sum_univ_two, Matrix.cons_val_zero, Matrix.cons_val_one, pd_deriv]
  rw [exact_congr (fun k hk => (velocity_unique hδ hu hk).1) (fun _ _ => rfl),
    exact_congr (fun k hk => (velocity_unique hδ hu hk).2) (fun _ _ => rfl)]

theorem sym_eq (a F : ℂ) : sym a F = innerProd a F := by
  simp only [sym, innerProd, Complex.add_re, Complex.mul_re, Complex.conj_re, Complex.conj_im]
  ring

theorem transferE_eq (n : Fin 2 → ℕ) (rot : Fld (Fin 2)) (k : Fin 2 → ℤ) :
    transferE n S δ rot k = transferEKu n S δ rot k + transferEKv n S δ rot k := by
  simp only [transferE, transferEKu, transferEKv, innerProd, Complex.add_re, Complex.mul_re,
    Complex.conj_re, Complex.conj_im]
  ring

theorem frot_eq (n : Fin 2 → ℕ) (beta : ℝ) (rot : Fld (Fin 2)) (k : Fin 2 → ℤ) :
    frot n S δ beta rot k = ns2d n S δ beta rot k := by
  simp only [frot, ns2d]
  split
  · refine fft_congr n (fun j => ?_) k
    simp only [computeFrot]
    split
    · rename_i h; rw [h]; push_cast; ring
    · rfl
  · rfl

theorem k2_ne (hδ : ∀ d, δ d ≠ 0) {k : Fin 2 → ℤ} (hk : k ≠ 0) :
    (δ 0 * k 0) ^ 2 + (δ 1 * k 1) ^ 2 ≠ 0 := by
  intro h
  apply hk
  have h0 : δ 0 * k 0 = 0 := by nlinarith [sq_nonneg (δ 0 * k 0), sq_nonneg (δ 1 * k 1)]
  have h1 : δ 1 * k 1 = 0 := by nlinarith [sq_nonneg (δ 0 * k 0), sq_nonneg (δ 1 * k 1)]
  have h0' := (mul_eq_zero.mp h0).resolve_left (hδ 0)
  have h1' := (mul_eq_zero.mp h1).resolve_left (hδ 1)
  funext d
  fin_cases d
  · exact_mod_cast h0'
  · exact_mod_cast h1'

/-- Velocity of a mode. -/
theorem vel_mode (δ : Fin 2 → ℝ) (rot : Fld (Fin 2)) (k : Fin 2 → ℤ) :
    ux2 δ rot k = Complex.I * ((δ 1 * k 1 : ℝ) : ℂ) * psi δ rot k ∧
      uy2 δ rot k = -(Complex.I * ((δ 0 * k 0 : ℝ) : ℂ) * psi δ rot k) := by
  refine ⟨?_, ?_⟩
  · rw [ux2_psi]; rfl
  · rw [uy2_psi]; rfl

/-- Rate of change of the energy of a mode whose vorticity has the tendency `-u·∇ζ + ∂x g`. -/
theorem energy_rate {n : Fin 2 → ℕ} (hn : ∀ d, 0 < n d) (hS : NoAlias n S) (hδ : ∀ d, δ d ≠ 0)
    {rot ux uy : ℝ → Fld (Fin 2)} (hu : ∀ s, Velocity2 S δ (rot s) (ux s) (uy s)) {T : Fld (Fin 2)}
    {σ : (Fin 2 → ℤ) → ℝ} {t : ℝ} (hev : Evolves S rot T σ t) {k : Fin 2 → ℤ} (hk : k ∈ S) (g : ℂ)
    (hT : T k = -advect S δ ![ux t, uy t] (rot t) k + Complex.I * ((δ 0 * k 0 : ℝ) : ℂ) * g) :
    HasDerivAt (fun s => half (ux s k) + half (uy s k))
      (transferE n S δ (rot t) k + innerProd (uy t k) g
        - σ k * (‖ux t k‖ ^ 2 + ‖uy t k‖ ^ 2)) t := by
  set A : ℝ := δ 0 * k 0 with hA
  set B : ℝ := δ 1 * k 1 with hB
  set q : ℝ := 1 / Forcing.k2not0 A B with hq
  have hx : ∀ s, ux s k = Complex.I * (B : ℂ) * q * rot s k := by
    intro s
    rw [← (velocity_unique hδ (hu s) hk).1, (vel_mode δ (rot s) k).1, psi]
    ring
  have hy : ∀ s, uy s k = -(Complex.I * (A : ℂ) * q * rot s k) := by
    intro s
    rw [← (velocity_unique hδ (hu s) hk).2, (vel_mode δ (rot s) k).2, psi]
    ring
  have d := hev k hk
  have dx : HasDerivAt (fun s => ux s k) (Complex.I * (B : ℂ) * q * (T k - σ k * rot t k)) t := by
    simp only [hx]; exact d.const_mul _
  have dy : HasDerivAt (fun s => uy s k) (-(Complex.I * (A : ℂ) * q * (T k - σ k * rot t k))) t := by
    simp only [hy]; exact (d.const_mul _).fun_neg
  refine ((half_deriv dx).fun_add (half_deriv dy)).congr_deriv ?_
  have hc := curl_advect (hu t) k
  rw [← hA, ← hB] at hc
  set T0 := advect S δ ![ux t, uy t] (rot t) k
  set Fx := advect S δ ![ux t, uy t] (ux t) k
  set Fy := advect S δ ![ux t, uy t] (uy t) k
  have eFx : fnl n S δ (rot t) (ux2 δ (rot t)) k = -Fx := by
    rw [fnl_eq hn hS hδ (hu t) _ hk]
    simp only [advect, Fin.sum_univ_two, Fx, Matrix.cons_val_zero, Matrix.cons_val_one]
    congr 2 <;> refine exact_congr (fun _ _ => rfl) (fun r hr => ?_) k <;>
      simp only [pd, (velocity_unique hδ (hu t) hr).1]
  have eFy : fnl n S δ (rot t) (uy2 δ (rot t)) k = -Fy := by
    rw [fnl_eq hn hS hδ (hu t) _ hk]
    simp only [advect, Fin.sum_univ_two, Fy, Matrix.cons_val_zero, Matrix.cons_val_one]
    congr 2 <;> refine exact_congr (fun _ _ => rfl) (fun r hr => ?_) k <;>
      simp only [pd, (velocity_unique hδ (hu t) hr).2]
  have hE : transferE n S δ (rot t) k
      = ((starRingEnd ℂ) (ux t k) * -Fx + (starRingEnd ℂ) (uy t k) * -Fy).re := by
    rw [transferE_eq, transferEKu, transferEKv, eFx, eFy, (velocity_unique hδ (hu t) hk).1,
      (velocity_unique hδ (hu t) hk).2, innerProd, innerProd, Complex.add_re]
  have hns : ∀ z : ℂ, ‖z‖ ^ 2 = ((starRingEnd ℂ) z * z).re := by
    intro z
    rw [← Complex.normSq_eq_norm_sq, Complex.normSq_apply]
    simp only [Complex.mul_re, Complex.conj_re, Complex.conj_im]; ring
  have hσ : ∀ z : ℂ, σ k * z.re = ((σ k : ℂ) * z).re := by intro z; simp
  rw [hE, hns, hns, innerProd, mul_add, hσ, hσ, ← Complex.add_re, ← Complex.add_re, ← Complex.add_re,
    ← Complex.sub_re]
  congr 1
  rw [hT, hx t, hy t]
  simp only [map_mul, map_neg, Complex.conj_I, Complex.conj_ofReal]
  have hI : Complex.I ^ 2 = -1 := Complex.I_sq
  set r := rot t k
  set rb := (starRingEnd ℂ) r
  by_cases h0 : A ^ 2 + B ^ 2 = 0
  · have hA0 : A = 0 := by nlinarith [sq_nonneg A, sq_nonneg B]
    have hB0 : B = 0 := by nlinarith [sq_nonneg A, sq_nonneg B]
    rw [hA0, hB0]; simp
  · have hq1 : ((A : ℂ) ^ 2 + (B : ℂ) ^ 2) * (q : ℂ) = 1 := by
      have : (A ^ 2 + B ^ 2) * q = 1 := by
        rw [hq, Forcing.k2not0, if_neg h0]; field_simp
      exact_mod_cast this
    have hI4 : Complex.I ^ 2 = -1 := hI
    linear_combination (q * rb * (-T0 + Complex.I * A * g)) * hq1
      - ((A : ℂ) ^ 2 + B ^ 2) * q ^ 2 * rb * (-T0 + Complex.I * A * g) * hI
      + q * rb * hc

theorem jac_fnl (n : Fin 2 → ℕ) (rot a : Fld (Fin 2)) {k : Fin 2 → ℤ} (hk : k ∈ S) :
    fnl n S δ rot a k = fftCoef n (jac n S δ (psi δ rot) a) k := by
  rw [fnl, if_pos hk]
  refine fft_congr n (fun j => ?_) k
  rw [uy2_grid, ux2_psi]; simp only [jac]; ring

theorem sum_fnl {n : Fin 2 → ℕ} (hn : ∀ d, 0 < n d) (hS : TriadExact n S) (rot : Fld (Fin 2))
    {a : Fld (Fin 2)} (ha : RealOn S a) : ∑ k ∈ S, innerProd (a k) (fnl n S δ rot a k) = 0 := by
  have h := parseval_real n (jac n S δ (psi δ rot) a) ha
  rw [jac_self hn hS] at h
  have h2 := congrArg Complex.re h
  rw [Complex.re_sum] at h2
  rw [← Complex.zero_re, ← h2]
  refine sum_congr rfl fun k hk => ?_
  rw [jac_fnl n rot a hk, innerProd, mul_comm]

theorem ux2_real {rot : Fld (Fin 2)} (h : RealOn S rot) : RealOn S (ux2 δ rot) := by
  rw [ux2_psi]; exact (psi_real h δ).deriv δ 1

theorem uy2_real {rot : Fld (Fin 2)} (h : RealOn S rot) : RealOn S (uy2 δ rot) := by
  intro k hk
  have := (psi_real h δ).deriv δ 0 k hk
  refine ⟨this.1, ?_⟩
  rw [uy2_psi, uy2_psi, this.2, map_neg]

theorem triad_of_noAlias {D : Type*} [Fintype D] [DecidableEq D] {n : D → ℕ} {S : Finset (D → ℤ)}
    (hS : NoAlias n S) {a : Fld D} (ha : RealOn S a) : TriadExact n S := by
  intro p hp q hq m hm h d
  have e := hS.sum p hp q hq (-m) (ha m hm).1 (fun d => by
    have := h d
    simpa [sub_neg_eq_add] using this)
  have := congrFun e d
  simp only [Pi.add_apply, Pi.neg_apply] at this
  omega

end D2

/-! ### 3D -/

theorem lamb_coriolis {n : Fin 3 → ℕ} (hn : ∀ d, 0 < n d) {S : Finset (Fin 3 → ℤ)} (hD : Distinct n S)
    (δ : Fin 3 → ℝ) (f : Option ℝ) (v : (Fin 3 → ℤ) → V3) {k : Fin 3 → ℤ} (hk : k ∈ S) :
    lamb n S δ f v k = add (lamb n S δ none v k)
      ⟨((f.getD 0 : ℝ) : ℂ) * (v k).y, -(((f.getD 0 : ℝ) : ℂ) * (v k).x), 0⟩ := by
  have hz : ∀ g : Option ℝ, ∀ j : Pt n, gridVal n (insert 0 S) (fun k => (omegaFft δ g v k).z) j
      = gridVal n S (fun k => (curl (wave3 δ k) (v k)).z) j + ((g.getD 0 : ℝ) : ℂ) := by
    intro g
    exact grid_insert_zero (fun k => rfl) (by simp [curl, wave3])
  have hx : ∀ g : Option ℝ, ∀ j : Pt n, gridVal n (insert 0 S) (fun k => (omegaFft δ g v k).x) j
      = gridVal n (insert 0 S) (fun k => (omegaFft δ none v k).x) j := fun _ _ => rfl
  have hy : ∀ g : Option ℝ, ∀ j : Pt n, gridVal n (insert 0 S) (fun k => (omegaFft δ g v k).y) j
      = gridVal n (insert 0 S) (fun k => (omegaFft δ none v k).y) j := fun _ _ => rfl
  ext
  · show fftCoef n _ k = fftCoef n _ k + _
    rw [← fft_grid hn hD (fun k => (v k).y) hk, ← fft_mul, ← fft_add]
    refine fft_congr n (fun j => ?_) k
    simp only [cross, gridVec]
    rw [hz f, hz none, hy f]
    simp only [Option.getD_none, Complex.ofReal_zero]
    ring
  · show fftCoef n _ k = fftCoef n _ k + _
    rw [← fft_grid hn hD (fun k => (v k).x) hk, ← fft_mul, ← fft_neg, ← fft_add]
    refine fft_congr n (fun j => ?_) k
    simp only [cross, gridVec]
    rw [hz f, hz none, hx f]
    simp only [Option.getD_none, Complex.ofReal_zero]
    ring
  · show fftCoef n _ k = fftCoef n _ k + _
    rw [add_zero]
    rfl

theorem coriolis_work {n : Fin 3 → ℕ} (hn : ∀ d, 0 < n d) {S : Finset (Fin 3 → ℤ)}
    (hD : Distinct n S) (δ : Fin 3 → ℝ) (f : Option ℝ) (v : (Fin 3 → ℤ) → V3) {k : Fin 3 → ℤ}
    (hk : k ∈ S) : (inner (lamb n S δ f v k) (v k)).re = (inner (lamb n S δ none v k) (v k)).re := by
  rw [lamb_coriolis hn hD δ f v hk]
  simp only [inner, add, Complex.add_re, Complex.mul_re, Complex.conj_re, Complex.conj_im,
    Complex.add_im, Complex.mul_im, Complex.ofReal_re, Complex.ofReal_im, Complex.neg_re,
    Complex.neg_im]
  simp only [Complex.zero_re, Complex.zero_im]
  ring

theorem fixed_vz {p : Projection} {noVz : Bool} {k : K3} {v : V3} {b : Option ℂ}
    (hv : projectState p noVz k ⟨v, b⟩ = ⟨v, b⟩) (h : noVz ∧ |k.z| = 0) : v.z = 0 := by
  have h1 : projectState p noVz k ⟨v, b⟩
      = ⟨⟨(projector p k v).x, (projector p k v).y, 0⟩, b.map fun _ => 0⟩ := by
    simp only [projectState, if_pos h]
  rw [h1] at hv
  have h2 : (⟨(projector p k v).x, (projector p k v).y, 0⟩ : V3) = v := by injection hv
  exact (congrArg V3.z h2).symm

theorem projector_inner {p : Projection} {noVz : Bool} {k : K3} {v : V3} {b : Option ℂ}
    (hv : projectState p noVz k ⟨v, b⟩ = ⟨v, b⟩) (F : V3) :
    inner (projector p k F) v = inner F v := by
  have h := projectState_inner hv F none
  by_cases h0 : noVz ∧ |k.z| = 0
  · have hz := fixed_vz hv h0
    rw [← h]
    simp only [projectState, if_pos h0, inner, hz, map_zero, mul_zero]
  · simp only [projectState, if_neg h0] at h
    exact h

theorem transferK_eq (n : Fin 3 → ℕ) (S : Finset (Fin 3 → ℤ)) (δ : Fin 3 → ℝ) (p : Projection)
    (v : (Fin 3 → ℤ) → V3) (k : Fin 3 → ℤ) :
    transferKh n S δ p v k + transferKz n S δ p v k = (inner (force3 n S δ p v k) (v k)).re := by
  simp only [transferKh, transferKz, innerProd, inner, Complex.add_re]
  simp only [mul_comm]

theorem energy3_deriv {S : Finset (Fin 3 → ℤ)} {v : ℝ → (Fin 3 → ℤ) → V3} {T : (Fin 3 → ℤ) → V3}
    {σ : (Fin 3 → ℤ) → ℝ} {t : ℝ} (h : EvolvesV S v T σ t) {k : Fin 3 → ℤ} (hk : k ∈ S) :
    HasDerivAt (fun s => energy3 (v s k))
      ((inner (T k) (v t k)).re - σ k * (‖(v t k).x‖ ^ 2 + ‖(v t k).y‖ ^ 2 + ‖(v t k).z‖ ^ 2)) t := by
  refine (((half_deriv (h.1 k hk)).fun_add (half_deriv (h.2.1 k hk))).fun_add
    (half_deriv (h.2.2 k hk))).congr_deriv ?_
  simp only [← Complex.normSq_eq_norm_sq, Complex.normSq_apply, inner, Complex.add_re, Complex.mul_re,
    Complex.conj_re, Complex.conj_im, Complex.sub_re, Complex.sub_im, Complex.mul_im,
    Complex.ofReal_re, Complex.ofReal_im]
  ring

/-! ### bins -/

theorem cumsumFrom_length (l : List ℝ) : ∀ s, (cumsumFrom s l).length = l.length := by
  induction l with
  | nil => intro s; rfl
  | cons x l ih => intro s; simp [cumsumFrom, ih]

theorem cumsumFrom_get (l : List ℝ) : ∀ (s : ℝ) (i : ℕ), i < l.length →
    (cumsumFrom s l)[i]? = some (s + (l.take (i + 1)).sum) := by
  induction l with
  | nil => intro s i h; simp at h
  | cons x l ih =>
    intro s i h
    cases i with
    | zero => simp [cumsumFrom]
    | succ i =>
      have hi : i < l.length := by simpa using h
      simp only [cumsumFrom, List.getElem?_cons_succ, List.take_succ_cons, List.sum_cons]
      rw [ih _ _ hi, add_assoc]

theorem cumsum_get (l : List ℝ) {i : ℕ} (h : i < l.length) :
    (cumsum l)[i]? = some (l.take (i + 1)).sum := by
  rw [cumsum, cumsumFrom_get l 0 i h, zero_add]

theorem sum_map_range (f : ℕ → ℝ) (m : ℕ) : ((List.range m).map f).sum = ∑ i ∈ range m, f i := by
  induction m with
  | zero => simp
  | succ m ih => rw [List.range_succ, List.map_append, List.sum_append, ih, sum_range_succ]; simp

theorem take_map_range (f : ℕ → ℝ) {i m : ℕ} (h : i ≤ m) :
    (((List.range m).map f).take i).sum = ∑ j ∈ range i, f j := by
  rw [← List.map_take, List.take_range, min_eq_left h, sum_map_range]

end

end Verif.SpectBudget
