import Verif.Galerkin.Spec
import Verif.Energy.Props2d

/-! # Lemmas for C57 -/

set_option linter.unusedSectionVars false

namespace Verif.Galerkin

open Verif.Fourier Verif.Energy Verif.Vectors Finset

noncomputable section

variable {D : Type*} [Fintype D] [DecidableEq D]

theorem pd_deriv (δ : D → ℝ) (d : D) (a : Fld D) : Energy.deriv δ d a = pd δ d a := rfl

theorem noAlias_of_small (n : D → ℕ) (S : Finset (D → ℤ)) (h : ∀ k ∈ S, ∀ d, 3 * |k d| < n d) :
    NoAlias n S :=
  ⟨fun p hp q hq k hk => eq_of_seen_small n p q k fun d => ⟨h p hp d, h q hq d, h k hk d⟩,
    (C37_truncation n S h).2⟩

/-! ### the transform is linear -/

theorem fft_add (n : D → ℕ) (x y : Pt n → ℂ) (k : D → ℤ) :
    fftCoef n (fun j => x j + y j) k = fftCoef n x k + fftCoef n y k := by
  simp only [fftCoef, add_mul, sum_add_distrib, add_div]

theorem fft_mul (n : D → ℕ) (c : ℂ) (x : Pt n → ℂ) (k : D → ℤ) :
    fftCoef n (fun j => c * x j) k = c * fftCoef n x k := by
  simp only [fftCoef, mul_assoc, ← mul_sum, mul_div_assoc]

theorem fft_neg (n : D → ℕ) (x : Pt n → ℂ) (k : D → ℤ) :
    fftCoef n (fun j => -x j) k = -fftCoef n x k := by
  have := fft_mul n (-1) x k
  simpa using this

theorem fft_sub (n : D → ℕ) (x y : Pt n → ℂ) (k : D → ℤ) :
    fftCoef n (fun j => x j - y j) k = fftCoef n x k - fftCoef n y k := by
  have := fft_add n x (fun j => -y j) k
  rw [fft_neg] at this
  simpa [sub_eq_add_neg] using this

theorem fft_congr (n : D → ℕ) {x y : Pt n → ℂ} (h : ∀ j, x j = y j) (k : D → ℤ) :
    fftCoef n x k = fftCoef n y k := by rw [funext h]

theorem fft_prod {n : D → ℕ} (hn : ∀ d, 0 < n d) {S : Finset (D → ℤ)} (h : NoAlias n S)
    (u v : Fld D) {k : D → ℤ} (hk : k ∈ S) :
    fftCoef n (fun j => gridVal n S u j * gridVal n S v j) k = exactProduct S u v k :=
  gridProduct_eq_exact n hn S u v k fun p hp q hq => h.sum p hp q hq k hk

/-! ### algebra of exact products -/

theorem exact_congr {S : Finset (D → ℤ)} {u u' v v' : Fld D} (hu : ∀ k ∈ S, u k = u' k)
    (hv : ∀ k ∈ S, v k = v' k) (k : D → ℤ) : exactProduct S u v k = exactProduct S u' v' k := by
  simp only [exactProduct]
  exact sum_congr rfl fun p hp => sum_congr rfl fun q hq => by rw [hu p hp, hv q hq]

theorem exact_comm (S : Finset (D → ℤ)) (u v : Fld D) (k : D → ℤ) :
    exactProduct S u v k = exactProduct S v u k := by
  simp only [exactProduct]
  rw [sum_comm]
  exact sum_congr rfl fun p _ => sum_congr rfl fun q _ => by rw [add_comm q p, mul_comm]

theorem exact_add_left (S : Finset (D → ℤ)) (u u' v : Fld D) (k : D → ℤ) :
    exactProduct S (fun p => u p + u' p) v k = exactProduct S u v k + exactProduct S u' v k := by
  simp only [exactProduct, ← sum_add_distrib]
  exact sum_congr rfl fun p _ => sum_congr rfl fun q _ => by split <;> ring

theorem exact_add_right (S : Finset (D → ℤ)) (u v v' : Fld D) (k : D → ℤ) :
    exactProduct S u (fun p => v p + v' p) k = exactProduct S u v k + exactProduct S u v' k := by
  rw [exact_comm, exact_add_left, exact_comm S v, exact_comm S v']

theorem exact_mul_right (S : Finset (D → ℤ)) (u v : Fld D) (c : ℂ) (k : D → ℤ) :
    exactProduct S u (fun p => c * v p) k = c * exactProduct S u v k := by
  simp only [exactProduct, mul_sum]
  exact sum_congr rfl fun p _ => sum_congr rfl fun q _ => by split <;> ring

theorem exact_sub_right (S : Finset (D → ℤ)) (u v v' : Fld D) (k : D → ℤ) :
    exactProduct S u (fun p => v p - v' p) k = exactProduct S u v k - exactProduct S u v' k := by
  simp only [exactProduct, ← sum_sub_distrib]
  exact sum_congr rfl fun p _ => sum_congr rfl fun q _ => by split <;> ring

/-- `∂_d (u v) = ∂_d u v + u ∂_d v`. -/
theorem exact_leibniz (S : Finset (D → ℤ)) (δ : D → ℝ) (d : D) (u v : Fld D) (k : D → ℤ) :
    Complex.I * ((δ d * k d : ℝ) : ℂ) * exactProduct S u v k
      = exactProduct S (pd δ d u) v k + exactProduct S u (pd δ d v) k := by
  simp only [exactProduct, mul_sum, ← sum_add_distrib]
  refine sum_congr rfl fun p _ => sum_congr rfl fun q _ => ?_
  split
  · rename_i h
    rw [← h]
    simp only [pd, Pi.add_apply]; push_cast; ring
  · ring

theorem exact_half (S : Finset (D → ℤ)) (δ : D → ℝ) (d : D) (u : Fld D) (k : D → ℤ) :
    exactProduct S u (pd δ d u) k
      = Complex.I * ((δ d * k d : ℝ) : ℂ) * (1 / 2 * exactProduct S u u k) := by
  have h := exact_leibniz S δ d u u k
  rw [exact_comm S (pd δ d u)] at h
  linear_combination (-1 / 2 : ℂ) * h

/-! ### 2D velocity -/


theorem velocity_unique {S : Finset (Fin 2 → ℤ)} {δ : Fin 2 → ℝ} (hδ : ∀ d, δ d ≠ 0)
    {rot ux uy : Fld (Fin 2)} (h : Velocity2 S δ rot ux uy) {k : Fin 2 → ℤ}
    (hk : k ∈ S) : ux2 δ rot k = ux k ∧ uy2 δ rot k = uy k := by
  by_cases h0 : k = 0
  · subst h0
    simp [ux2, uy2, Forcing.vecFromRot, h.mean]
  · have hd := h.div k hk
    have hr := h.rot k hk h0
    have hne : (δ 0 * k 0) ^ 2 + (δ 1 * k 1) ^ 2 ≠ 0 := by
      intro e
      apply h0
      have e0 : δ 0 * k 0 = 0 := by nlinarith [sq_nonneg (δ 0 * (k 0 : ℝ)), sq_nonneg (δ 1 * (k 1 : ℝ))]
      have e1 : δ 1 * k 1 = 0 := by nlinarith [sq_nonneg (δ 0 * (k 0 : ℝ)), sq_nonneg (δ 1 * (k 1 : ℝ))]
      have e0' : k 0 = 0 := by exact_mod_cast (mul_eq_zero.1 e0).resolve_left (hδ 0)
      have e1' : k 1 = 0 := by exact_mod_cast (mul_eq_zero.1 e1).resolve_left (hδ 1)
      funext d
      fin_cases d
      · exact e0'
      · exact e1'
    simp only [pd] at hd hr
    simp only [ux2, uy2, Forcing.vecFromRot, Forcing.k2not0, if_neg hne]
    set A : ℝ := δ 0 * k 0
    set B : ℝ := δ 1 * k 1
    have hneC : (A : ℂ) ^ 2 + (B : ℂ) ^ 2 ≠ 0 := by exact_mod_cast hne
    have hI : Complex.I ^ 2 = -1 := Complex.I_sq
    have hc : ((A ^ 2 + B ^ 2 : ℝ) : ℂ) = (A : ℂ) ^ 2 + (B : ℂ) ^ 2 := by push_cast; rfl
    rw [hc]
    constructor
    · rw [div_mul_eq_mul_div, div_eq_iff hneC]
      linear_combination (-(Complex.I * B)) * hr + Complex.I * A * hd - ((A : ℂ) ^ 2 + B ^ 2) * ux k * hI
    · rw [div_mul_eq_mul_div, div_eq_iff hneC]
      linear_combination (Complex.I * A) * hr + Complex.I * B * hd - ((A : ℂ) ^ 2 + B ^ 2) * uy k * hI

/-! ### 3D -/

theorem grid_insert_zero {n : D → ℕ} {S : Finset (D → ℤ)} {w w' : Fld D} {c : ℂ}
    (h : ∀ k, w k = w' k + if k = 0 then c else 0) (h0 : w' 0 = 0) (j : Pt n) :
    gridVal n (insert 0 S) w j = gridVal n S w' j + c := by
  have e1 : ∀ T : Finset (D → ℤ), gridVal n T w j
      = gridVal n T w' j + ∑ k ∈ T, if k = 0 then c else 0 := by
    intro T
    simp only [gridVal, ← sum_add_distrib]
    refine sum_congr rfl fun k _ => ?_
    rw [h k]
    split
    · rename_i e; subst e; simp [h0, chi]
    · simp
  rw [e1, sum_ite_eq' (insert 0 S) (0 : D → ℤ) (fun _ => c), if_pos (mem_insert_self _ _)]
  congr 1
  by_cases hS : (0 : D → ℤ) ∈ S
  · rw [insert_eq_of_mem hS]
  · simp [gridVal, sum_insert hS, h0]

theorem projector_linear (p : Projection) (k : K3) (v w : V3) :
    projector p k (add v w) = add (projector p k v) (projector p k w) := by
  cases p <;> ext <;>
    simp only [projector, perpk, toroidal, poloidal, kradial, add] <;> ring

/-- The projections remove gradients. -/
theorem projector_grad (p : Projection) (k : K3) (a : ℂ) :
    projector p k ⟨Complex.I * k.x * a, Complex.I * k.y * a, Complex.I * k.z * a⟩ = zero := by
  have key : ∀ w, inner (projector p k ⟨Complex.I * k.x * a, Complex.I * k.y * a,
      Complex.I * k.z * a⟩) w = 0 := by
    intro w
    rw [projector_selfadjoint]
    have h := congrArg (starRingEnd ℂ) (projected_manifold p k w).1
    simp only [kdot, map_add, map_mul, Complex.conj_ofReal, map_zero] at h
    simp only [inner]
    linear_combination Complex.I * a * h
  ext
  · simpa [inner, zero] using key ⟨1, 0, 0⟩
  · simpa [inner, zero] using key ⟨0, 1, 0⟩
  · simpa [inner, zero] using key ⟨0, 0, 1⟩

theorem lamb_eq_half {n : Fin 3 → ℕ} (hn : ∀ d, 0 < n d) {S : Finset (Fin 3 → ℤ)} (h : NoAlias n S)
    (δ : Fin 3 → ℝ) (f : Option ℝ) (v : (Fin 3 → ℤ) → V3) {k : Fin 3 → ℤ} (hk : k ∈ S) :
    let a := 1 / 2 * (exactProduct S (comp v 0) (comp v 0) k + exactProduct S (comp v 1) (comp v 1) k
      + exactProduct S (comp v 2) (comp v 2) k)
    lamb n S δ f v k
      = add (navierStokes S δ (f.getD 0) v k)
        ⟨Complex.I * (wave3 δ k).x * a, Complex.I * (wave3 δ k).y * a,
          Complex.I * (wave3 δ k).z * a⟩ := by
  intro a
  set X := comp v 0 with hX
  set Y := comp v 1 with hY
  set Z := comp v 2 with hZ
  have gx : ∀ j, gridVal n (insert 0 S) (fun k => (omegaFft δ f v k).x) j
      = gridVal n S (fun k => pd δ 1 Z k - pd δ 2 Y k) j + 0 :=
    grid_insert_zero (fun k => by
      simp only [omegaFft, curl, wave3, pd, hY, hZ, comp]; push_cast; simp; ring) (by simp [pd])
  have gy : ∀ j, gridVal n (insert 0 S) (fun k => (omegaFft δ f v k).y) j
      = gridVal n S (fun k => pd δ 2 X k - pd δ 0 Z k) j + 0 :=
    grid_insert_zero (fun k => by
      simp only [omegaFft, curl, wave3, pd, hX, hZ, comp]; push_cast; simp; ring) (by simp [pd])
  have gz : ∀ j, gridVal n (insert 0 S) (fun k => (omegaFft δ f v k).z) j
      = gridVal n S (fun k => pd δ 0 Y k - pd δ 1 X k) j + ((f.getD 0 : ℝ) : ℂ) :=
    grid_insert_zero (fun k => by
      simp only [omegaFft, curl, wave3, pd, hX, hY, comp]; push_cast; ring) (by simp [pd])
  have lx : (lamb n S δ f v k).x
      = exactProduct S Y (fun k => pd δ 0 Y k - pd δ 1 X k) k + (f.getD 0 : ℝ) * Y k
        - exactProduct S Z (fun k => pd δ 2 X k - pd δ 0 Z k) k := by
    show fftCoef n (fun j => (cross (gridVec n S v j) (gridVec n (insert 0 S) (omegaFft δ f v) j)).x) k
      = _
    rw [← fft_prod hn h _ _ hk, ← fft_prod hn h _ _ hk, ← fft_grid hn h.distinct Y hk, ← fft_mul,
      ← fft_add, ← fft_sub]
    refine fft_congr n (fun j => ?_) k
    simp only [cross, gridVec]
    rw [gy, gz]
    show gridVal n S Y j * _ - gridVal n S Z j * _ = _
    ring
  have ly : (lamb n S δ f v k).y
      = exactProduct S Z (fun k => pd δ 1 Z k - pd δ 2 Y k) k
        - exactProduct S X (fun k => pd δ 0 Y k - pd δ 1 X k) k - (f.getD 0 : ℝ) * X k := by
    show fftCoef n (fun j => (cross (gridVec n S v j) (gridVec n (insert 0 S) (omegaFft δ f v) j)).y) k
      = _
    rw [← fft_prod hn h _ _ hk, ← fft_prod hn h _ _ hk, ← fft_grid hn h.distinct X hk, ← fft_mul,
      ← fft_sub, ← fft_sub]
    refine fft_congr n (fun j => ?_) k
    simp only [cross, gridVec]
    rw [gx, gz]
    show gridVal n S Z j * _ - gridVal n S X j * _ = _
    ring
  have lz : (lamb n S δ f v k).z
      = exactProduct S X (fun k => pd δ 2 X k - pd δ 0 Z k) k
        - exactProduct S Y (fun k => pd δ 1 Z k - pd δ 2 Y k) k := by
    show fftCoef n (fun j => (cross (gridVec n S v j) (gridVec n (insert 0 S) (omegaFft δ f v) j)).z) k
      = _
    rw [← fft_prod hn h _ _ hk, ← fft_prod hn h _ _ hk, ← fft_sub]
    refine fft_congr n (fun j => ?_) k
    simp only [cross, gridVec]
    rw [gx, gy]
    show gridVal n S X j * _ - gridVal n S Y j * _ = _
    ring
  have ha : a = 1 / 2 * (exactProduct S X X k + exactProduct S Y Y k + exactProduct S Z Z k) := rfl
  rw [ha]
  ext
  · rw [lx]
    simp only [exact_sub_right, add, navierStokes, advect, Fin.sum_univ_three, wave3]
    rw [← hX, ← hY, ← hZ]
    have hy : (v k).y = Y k := rfl
    rw [hy]
    linear_combination exact_half S δ 0 X k + exact_half S δ 0 Y k + exact_half S δ 0 Z k
  · rw [ly]
    simp only [exact_sub_right, add, navierStokes, advect, Fin.sum_univ_three, wave3]
    rw [← hX, ← hY, ← hZ]
    have hx : (v k).x = X k := rfl
    rw [hx]
    linear_combination exact_half S δ 1 X k + exact_half S δ 1 Y k + exact_half S δ 1 Z k
  · rw [lz]
    simp only [exact_sub_right, add, navierStokes, advect, Fin.sum_univ_three, wave3]
    rw [← hX, ← hY, ← hZ]
    linear_combination exact_half S δ 2 X k + exact_half S δ 2 Y k + exact_half S δ 2 Z k

theorem lamb_eq {n : Fin 3 → ℕ} (hn : ∀ d, 0 < n d) {S : Finset (Fin 3 → ℤ)} (h : NoAlias n S)
    (δ : Fin 3 → ℝ) (f : Option ℝ) (v : (Fin 3 → ℤ) → V3) {k : Fin 3 → ℤ} (hk : k ∈ S) :
    ∃ a : ℂ, lamb n S δ f v k
      = add (navierStokes S δ (f.getD 0) v k)
        ⟨Complex.I * (wave3 δ k).x * a, Complex.I * (wave3 δ k).y * a,
          Complex.I * (wave3 δ k).z * a⟩ :=
  ⟨_, lamb_eq_half hn h δ f v hk⟩

end

end Verif.Galerkin
