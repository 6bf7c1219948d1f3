import Verif.Energy.Props

/-!
# C38: the nonlinear terms of the 2D solvers conserve energy and enstrophy
-/

namespace Verif.Energy

open Verif.Fourier Verif.Vectors Finset

noncomputable section

/-- Inverse of the Laplacian of the vorticity, up to the sign. -/
def psi (δ : Fin 2 → ℝ) (rot : Fld (Fin 2)) : Fld (Fin 2) := fun k =>
  ((1 / Forcing.k2not0 (δ 0 * k 0) (δ 1 * k 1) : ℝ) : ℂ) * rot k

theorem psi_real {S : Finset (Fin 2 → ℤ)} {rot : Fld (Fin 2)} (h : RealOn S rot) (δ : Fin 2 → ℝ) :
    RealOn S (psi δ rot) := by
  refine h.mul (fun k => 1 / Forcing.k2not0 (δ 0 * k 0) (δ 1 * k 1)) fun k => ?_
  simp [Forcing.k2not0]

theorem ux2_psi (δ : Fin 2 → ℝ) (rot : Fld (Fin 2)) : ux2 δ rot = deriv δ 1 (psi δ rot) := by
  funext k
  simp only [ux2, deriv, psi, Forcing.vecFromRot]
  push_cast
  ring

theorem uy2_psi (δ : Fin 2 → ℝ) (rot : Fld (Fin 2)) (k : Fin 2 → ℤ) :
    uy2 δ rot k = -deriv δ 0 (psi δ rot) k := by
  simp only [uy2, deriv, psi, Forcing.vecFromRot]
  push_cast
  ring

theorem grid_neg {D : Type*} [Fintype D] [DecidableEq D] (n : D → ℕ) (S : Finset (D → ℤ))
    (u : Fld D) (j : Pt n) : gridVal n S (fun k => -u k) j = -gridVal n S u j := by
  simp [gridVal]

theorem uy2_grid (n : Fin 2 → ℕ) (S : Finset (Fin 2 → ℤ)) (δ : Fin 2 → ℝ) (rot : Fld (Fin 2))
    (j : Pt n) : gridVal n S (uy2 δ rot) j = -gridVal n S (deriv δ 0 (psi δ rot)) j := by
  rw [← grid_neg, funext (uy2_psi δ rot)]

theorem deriv_comm {D : Type*} (δ : D → ℝ) (d d' : D) (u : Fld D) :
    deriv δ d (deriv δ d' u) = deriv δ d' (deriv δ d u) := by
  funext k; simp only [deriv]; ring

/-- `J(ψ, a) = ∂x ψ ∂y a - ∂y ψ ∂x a` on the grid; `-u·∇a` for the velocities of `psi`. -/
def jac (n : Fin 2 → ℕ) (S : Finset (Fin 2 → ℤ)) (δ : Fin 2 → ℝ) (p a : Fld (Fin 2)) (j : Pt n) : ℂ :=
  gridVal n S (deriv δ 0 p) j * gridVal n S (deriv δ 1 a) j
    - gridVal n S (deriv δ 1 p) j * gridVal n S (deriv δ 0 a) j

theorem jac_work {n : Fin 2 → ℕ} (hn : ∀ d, 0 < n d) {S : Finset (Fin 2 → ℤ)} (hS : TriadExact n S)
    (δ : Fin 2 → ℝ) (p a c : Fld (Fin 2)) :
    gmean n (fun j => jac n S δ p a j * gridVal n S c j)
      = -gmean n (fun j => jac n S δ p c j * gridVal n S a j) := by
  have l1 := leibniz hn hS δ 1 (deriv δ 0 p) a c
  have l2 := leibniz hn hS δ 0 (deriv δ 1 p) a c
  rw [deriv_comm δ 1 0] at l1
  have e1 : gmean n (fun j => jac n S δ p a j * gridVal n S c j)
      = gmean n (fun j => gridVal n S (deriv δ 0 p) j * gridVal n S (deriv δ 1 a) j * gridVal n S c j)
        - gmean n (fun j => gridVal n S (deriv δ 1 p) j * gridVal n S (deriv δ 0 a) j
            * gridVal n S c j) := by
    rw [← gmean_sub]; exact gmean_congr n fun j => by simp only [jac]; ring
  have e2 : gmean n (fun j => jac n S δ p c j * gridVal n S a j)
      = gmean n (fun j => gridVal n S (deriv δ 0 p) j * gridVal n S a j * gridVal n S (deriv δ 1 c) j)
        - gmean n (fun j => gridVal n S (deriv δ 1 p) j * gridVal n S a j
            * gridVal n S (deriv δ 0 c) j) := by
    rw [← gmean_sub]; exact gmean_congr n fun j => by simp only [jac]; ring
  rw [e1, e2]
  linear_combination l1 - l2

theorem jac_self {n : Fin 2 → ℕ} (hn : ∀ d, 0 < n d) {S : Finset (Fin 2 → ℤ)} (hS : TriadExact n S)
    (δ : Fin 2 → ℝ) (p a : Fld (Fin 2)) :
    gmean n (fun j => jac n S δ p a j * gridVal n S a j) = 0 := by
  have := jac_work hn hS δ p a a
  linear_combination (1 / 2 : ℂ) * this

theorem jac_psi {n : Fin 2 → ℕ} (hn : ∀ d, 0 < n d) {S : Finset (Fin 2 → ℤ)} (hS : TriadExact n S)
    (δ : Fin 2 → ℝ) (p a : Fld (Fin 2)) :
    gmean n (fun j => jac n S δ p a j * gridVal n S p j) = 0 := by
  rw [jac_work hn hS δ p a p, neg_eq_zero]
  have : ∀ j, jac n S δ p p j * gridVal n S a j = 0 := fun j => by simp only [jac]; ring
  simp only [this, gmean, sum_const_zero, zero_div]

/-- The tendency with the stream function: advection and beta term. -/
theorem ns2d_eq {n : Fin 2 → ℕ} (hn : ∀ d, 0 < n d) {S : Finset (Fin 2 → ℤ)} (hD : Distinct n S)
    (δ : Fin 2 → ℝ) (beta : ℝ) (rot : Fld (Fin 2)) {k : Fin 2 → ℤ} (hk : k ∈ S) :
    ns2d n S δ beta rot k = fftCoef n (jac n S δ (psi δ rot) rot) k
      + beta * deriv δ 0 (psi δ rot) k := by
  have e : ∀ j, computeFrot (gridVal n S (ux2 δ rot) j) (gridVal n S (uy2 δ rot) j)
      (gridVal n S (deriv δ 0 rot) j) (gridVal n S (deriv δ 1 rot) j) beta
      = jac n S δ (psi δ rot) rot j + beta * gridVal n S (deriv δ 0 (psi δ rot)) j := by
    intro j
    rw [uy2_grid, ux2_psi]
    simp only [computeFrot, jac]
    split
    · rename_i h; rw [h]; push_cast; ring
    · ring
  rw [ns2d, if_pos hk]
  simp only [e]
  have : fftCoef n (fun j => jac n S δ (psi δ rot) rot j
      + beta * gridVal n S (deriv δ 0 (psi δ rot)) j) k
      = fftCoef n (jac n S δ (psi δ rot) rot) k
        + beta * fftCoef n (gridVal n S (deriv δ 0 (psi δ rot))) k := by
    simp only [fftCoef, add_mul, sum_add_distrib, add_div, mul_assoc, ← mul_sum, mul_div_assoc]
  rw [this, fft_grid hn hD _ hk]

/-- C38: enstrophy. -/
theorem C38_enstrophy {n : Fin 2 → ℕ} (hn : ∀ d, 0 < n d) {S : Finset (Fin 2 → ℤ)}
    (hS : TriadExact n S) (hD : Distinct n S) (δ : Fin 2 → ℝ) (beta : ℝ) (rot : Fld (Fin 2))
    (hreal : RealOn S rot) : rate S rot (ns2d n S δ beta rot) = 0 := by
  have h1 : ∀ k ∈ S, (ns2d n S δ beta rot k * (starRingEnd ℂ) (rot k)).re
      = (fftCoef n (jac n S δ (psi δ rot) rot) k * (starRingEnd ℂ) (rot k)).re := by
    intro k hk
    rw [ns2d_eq hn hD δ beta rot hk, add_mul, Complex.add_re]
    have : ((beta : ℂ) * deriv δ 0 (psi δ rot) k * (starRingEnd ℂ) (rot k)).re = 0 := by
      simp only [deriv, psi, Complex.mul_re, Complex.mul_im, Complex.I_re, Complex.I_im,
        Complex.ofReal_re, Complex.ofReal_im, Complex.conj_re, Complex.conj_im]
      ring
    rw [this, add_zero]
  rw [rate, sum_congr rfl h1, ← Complex.re_sum, parseval_real n _ hreal, jac_self hn hS,
    Complex.zero_re]

/-- C38: the mean vorticity does not change. -/
theorem C38_mean_vorticity {n : Fin 2 → ℕ} (hn : ∀ d, 0 < n d) {S : Finset (Fin 2 → ℤ)}
    (hS : TriadExact n S) (hD : Distinct n S) (δ : Fin 2 → ℝ) (beta : ℝ) (rot : Fld (Fin 2)) :
    ns2d n S δ beta rot 0 = 0 := by
  by_cases h0 : (0 : Fin 2 → ℤ) ∈ S
  · rw [ns2d_eq hn hD δ beta rot h0]
    -- pair with the constant field
    set one : Fld (Fin 2) := fun k => if k = 0 then 1 else 0 with hone
    have hg : ∀ j, gridVal n S one j = 1 := by
      intro j
      simp only [gridVal, hone, ite_mul, zero_mul, one_mul]
      rw [sum_ite_eq' S 0, if_pos h0]
      simp [chi]
    have hj := jac_work hn hS δ (psi δ rot) rot one
    have hz : ∀ d, gridVal n S (deriv δ d one) = fun _ => 0 := by
      intro d; funext j
      refine sum_eq_zero fun k _ => ?_
      simp only [deriv, hone]
      split
      · rename_i h; simp [h]
      · simp
    have hr : gmean n (fun j => jac n S δ (psi δ rot) one j * gridVal n S rot j) = 0 := by
      have : ∀ j, jac n S δ (psi δ rot) one j * gridVal n S rot j = 0 := fun j => by
        simp only [jac, hz]; ring
      simp only [this, gmean, sum_const_zero, zero_div]
    rw [hr, neg_zero] at hj
    have hf : fftCoef n (jac n S δ (psi δ rot) rot) 0 = 0 := by
      rw [← hj]
      simp only [fftCoef, gmean, hg]
      simp [chi]
    rw [hf]; simp [deriv]
  · simp [ns2d, h0]

/-- C38: energy. -/
theorem C38_energy {n : Fin 2 → ℕ} (hn : ∀ d, 0 < n d) {S : Finset (Fin 2 → ℤ)}
    (hS : TriadExact n S) (hD : Distinct n S) {δ : Fin 2 → ℝ} (hδ : ∀ d, δ d ≠ 0) (beta : ℝ)
    (rot : Fld (Fin 2)) (hreal : RealOn S rot) :
    rateEnergy2 S δ rot (ns2d n S δ beta rot) = 0 := by
  have hk2 : ∀ k : Fin 2 → ℤ, k ≠ 0 →
      Forcing.k2not0 (δ 0 * k 0) (δ 1 * k 1) = (δ 0 * k 0) ^ 2 + (δ 1 * k 1) ^ 2 := by
    intro k hk
    rw [Forcing.k2not0, if_neg]
    intro h
    apply hk
    have h0 : δ 0 * k 0 = 0 := by nlinarith [sq_nonneg (δ 0 * (k 0 : ℝ)), sq_nonneg (δ 1 * (k 1 : ℝ))]
    have h1 : δ 1 * k 1 = 0 := by nlinarith [sq_nonneg (δ 0 * (k 0 : ℝ)), sq_nonneg (δ 1 * (k 1 : ℝ))]
    have h0' : k 0 = 0 := by exact_mod_cast (mul_eq_zero.1 h0).resolve_left (hδ 0)
    have h1' : k 1 = 0 := by exact_mod_cast (mul_eq_zero.1 h1).resolve_left (hδ 1)
    funext d
    fin_cases d
    · exact h0'
    · exact h1'
  have h1 : rateEnergy2 S δ rot (ns2d n S δ beta rot)
      = ∑ k ∈ S, (ns2d n S δ beta rot k * (starRingEnd ℂ) (psi δ rot k)).re := by
    rw [rateEnergy2, sum_filter]
    refine sum_congr rfl fun k _ => ?_
    split
    · rename_i hk
      rw [psi, hk2 k hk, map_mul, Complex.conj_ofReal, mul_left_comm, Complex.re_ofReal_mul]
      ring
    · rename_i hk
      push Not at hk
      rw [hk, C38_mean_vorticity hn hS hD]; simp
  have h2 : ∀ k ∈ S, (ns2d n S δ beta rot k * (starRingEnd ℂ) (psi δ rot k)).re
      = (fftCoef n (jac n S δ (psi δ rot) rot) k * (starRingEnd ℂ) (psi δ rot k)).re := by
    intro k hk
    rw [ns2d_eq hn hD δ beta rot hk, add_mul, Complex.add_re]
    have : ((beta : ℂ) * deriv δ 0 (psi δ rot) k * (starRingEnd ℂ) (psi δ rot k)).re = 0 := by
      simp only [deriv, Complex.mul_re, Complex.mul_im, Complex.I_re, Complex.I_im,
        Complex.ofReal_re, Complex.ofReal_im, Complex.conj_re, Complex.conj_im]
      ring
    rw [this, add_zero]
  rw [h1, sum_congr rfl h2, ← Complex.re_sum, parseval_real n _ (psi_real hreal δ), jac_psi hn hS,
    Complex.zero_re]

/-- C38 with the default truncation: `coef_dealiasing <= 2/3` in a domain whose x direction has the
smallest largest wavenumber (in particular square grids), whatever the sizes. -/
theorem C38_default_truncation {n : Fin 2 → ℕ} (hn : ∀ d, 0 < n d) {δ : Fin 2 → ℝ}
    (hδ : ∀ d, 0 < δ d) (hiso : ∀ d, δ 0 * n 0 ≤ δ d * n d) {coef : ℝ} (hc0 : 0 ≤ coef)
    (hc : coef ≤ 2 / 3) {S : Finset (Fin 2 → ℤ)} (hkept : ∀ k ∈ S, keptSpherical δ n 0 coef k)
    (beta : ℝ) (rot : Fld (Fin 2)) (hreal : RealOn S rot) :
    rate S rot (ns2d n S δ beta rot) = 0 ∧ rateEnergy2 S δ rot (ns2d n S δ beta rot) = 0 := by
  obtain ⟨h1, h2⟩ := C37_truncation n S fun k hk d =>
    spherical_bound δ n 0 coef hδ hc0 hc hiso k (hkept k hk) d
  exact ⟨C38_enstrophy hn h1 h2 δ beta rot hreal,
    C38_energy hn h1 h2 (fun d => (hδ d).ne') beta rot hreal⟩

/-- C40: the tendencies of ns2d.strat conserve the sum of the kinetic and of the potential energy. -/
theorem C40_energy {n : Fin 2 → ℕ} (hn : ∀ d, 0 < n d) {S : Finset (Fin 2 → ℤ)}
    (hS : TriadExact n S) (hD : Distinct n S) {δ : Fin 2 → ℝ} (hδ : ∀ d, δ d ≠ 0) {N : ℝ} (hN : N ≠ 0)
    (rot b : Fld (Fin 2)) (hreal : RealOn S rot) (hb : RealOn S b) :
    rateEnergy2 S δ rot (ns2dStrat n S δ N rot b).1 + rate S b (ns2dStrat n S δ N rot b).2 / N ^ 2
      = 0 := by
  -- the nonlinear part of the vorticity equation is the one of ns2d
  have hrot : ∀ k ∈ S, (ns2dStrat n S δ N rot b).1 k = ns2d n S δ 0 rot k + deriv δ 0 b k := by
    intro k hk
    simp only [ns2dStrat, ns2d, if_pos hk, computeFrot, if_true]
  have hbk : ∀ k ∈ S, (ns2dStrat n S δ N rot b).2 k
      = fftCoef n (jac n S δ (psi δ rot) b) k + N ^ 2 * deriv δ 0 (psi δ rot) k := by
    intro k hk
    simp only [ns2dStrat, if_pos hk]
    rw [← fft_grid hn hD (deriv δ 0 (psi δ rot)) hk]
    have e : ∀ j, -gridVal n S (ux2 δ rot) j * gridVal n S (deriv δ 0 b) j
        - gridVal n S (uy2 δ rot) j * gridVal n S (deriv δ 1 b) j - N ^ 2 * gridVal n S (uy2 δ rot) j
        = jac n S δ (psi δ rot) b j + N ^ 2 * gridVal n S (deriv δ 0 (psi δ rot)) j := by
      intro j
      rw [uy2_grid, ux2_psi]; simp only [jac]; ring
    simp only [e]
    simp only [fftCoef, add_mul, sum_add_distrib, add_div, mul_assoc, ← mul_sum, mul_div_assoc]
  have h1 : rateEnergy2 S δ rot (ns2dStrat n S δ N rot b).1
      = rateEnergy2 S δ rot (ns2d n S δ 0 rot)
        + ∑ k ∈ S, (deriv δ 0 b k * (starRingEnd ℂ) (psi δ rot k)).re := by
    simp only [rateEnergy2, sum_filter]
    rw [← sum_add_distrib]
    refine sum_congr rfl fun k hk => ?_
    rw [hrot k hk]
    split
    · rename_i hk0
      have hk2 : Forcing.k2not0 (δ 0 * k 0) (δ 1 * k 1) = (δ 0 * k 0) ^ 2 + (δ 1 * k 1) ^ 2 := by
        rw [Forcing.k2not0, if_neg]
        intro h
        apply hk0
        have h0 : δ 0 * k 0 = 0 := by
          nlinarith [sq_nonneg (δ 0 * (k 0 : ℝ)), sq_nonneg (δ 1 * (k 1 : ℝ))]
        have h1 : δ 1 * k 1 = 0 := by
          nlinarith [sq_nonneg (δ 0 * (k 0 : ℝ)), sq_nonneg (δ 1 * (k 1 : ℝ))]
        have h0' : k 0 = 0 := by exact_mod_cast (mul_eq_zero.1 h0).resolve_left (hδ 0)
        have h1' : k 1 = 0 := by exact_mod_cast (mul_eq_zero.1 h1).resolve_left (hδ 1)
        funext d
        fin_cases d
        · exact h0'
        · exact h1'
      rw [psi, hk2, map_mul, Complex.conj_ofReal, mul_left_comm, Complex.re_ofReal_mul, add_mul,
        Complex.add_re]
      ring
    · rename_i hk0
      push Not at hk0
      rw [hk0]; simp [deriv]
  have h2 : rate S b (ns2dStrat n S δ N rot b).2
      = ∑ k ∈ S, (N ^ 2 * deriv δ 0 (psi δ rot) k * (starRingEnd ℂ) (b k)).re := by
    have : ∀ k ∈ S, ((ns2dStrat n S δ N rot b).2 k * (starRingEnd ℂ) (b k)).re
        = (fftCoef n (jac n S δ (psi δ rot) b) k * (starRingEnd ℂ) (b k)).re
          + (N ^ 2 * deriv δ 0 (psi δ rot) k * (starRingEnd ℂ) (b k)).re := by
      intro k hk
      rw [hbk k hk, add_mul, Complex.add_re]
    rw [rate, sum_congr rfl this, sum_add_distrib, ← Complex.re_sum, parseval_real n _ hb,
      jac_self hn hS, Complex.zero_re, zero_add]
  rw [h1, h2, C38_energy hn hS hD hδ 0 rot hreal, zero_add, sum_div, ← sum_add_distrib]
  refine sum_eq_zero fun k _ => ?_
  have e : (N ^ 2 * deriv δ 0 (psi δ rot) k * (starRingEnd ℂ) (b k)).re / N ^ 2
      = (deriv δ 0 (psi δ rot) k * (starRingEnd ℂ) (b k)).re := by
    have h3 : ((N : ℂ) ^ 2) = ((N ^ 2 : ℝ) : ℂ) := by push_cast; rfl
    rw [h3, mul_assoc, Complex.re_ofReal_mul]
    field_simp
  rw [e]
  simp only [deriv, Complex.mul_re, Complex.mul_im, Complex.I_re, Complex.I_im,
    Complex.ofReal_re, Complex.ofReal_im, Complex.conj_re, Complex.conj_im]
  ring

/-- A state meeting the hypotheses: six modes on a 4 x 4 grid. -/
example :
    let S : Finset (Fin 2 → ℤ) := {![1, 0], ![-1, 0], ![0, 1], ![0, -1], ![1, 1], ![-1, -1]}
    RealOn S (fun k => 1 + Complex.I * (k 0 : ℂ)) ∧ ∀ k ∈ S, ∀ d, 3 * |k d| < ((fun _ => 4 : Fin 2 → ℕ) d : ℤ) := by
  intro S
  refine ⟨fun k hk => ⟨?_, by simp⟩, by decide⟩
  revert k; decide

end

end Verif.Energy
