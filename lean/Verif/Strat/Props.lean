import Verif.Strat.Model
import Verif.Forcing.Lemmas
import Mathlib.Analysis.Calculus.MeanValue
import Mathlib.Analysis.SpecialFunctions.ExpDeriv
import Mathlib.Analysis.SpecialFunctions.Complex.Analytic
import Mathlib.Analysis.Calculus.Deriv.Pow
import Mathlib.Analysis.Complex.RealDeriv

/-!
# C40: the modes `ap` and `am` of ns2d.strat are internal waves
-/

set_option linter.unusedSectionVars false

namespace Verif.Strat

open Verif.Fourier Verif.Energy Verif.Forcing Finset

noncomputable section

/-- The frequency of the internal waves of wavenumber `(kx, ky)`. -/
def waveFreq (N kx ky : ℝ) : ℝ := N * kx / √(kx ^ 2 + ky ^ 2)

/-- All the modes of the fields are parallel to `c`: the fields are plane waves, functions of
`c 0 * x + c 1 * y`. -/
def PlaneWaves (δ : Fin 2 → ℝ) (c : Fin 2 → ℝ) (rot b : Fld (Fin 2)) : Prop :=
  ∀ k, (rot k ≠ 0 ∨ b k ≠ 0) → ∃ m : ℝ, ∀ d, δ d * k d = m * c d

/-- `(rot, b)` evolves according to the (inviscid, unforced) solver. -/
def Solves (n : Fin 2 → ℕ) (S : Finset (Fin 2 → ℤ)) (δ : Fin 2 → ℝ) (N : ℝ)
    (rot b : ℝ → Fld (Fin 2)) : Prop :=
  ∀ t, ∀ k, HasDerivAt (fun s => rot s k) ((ns2dStrat n S δ N (rot t) (b t)).1 k) t ∧
    HasDerivAt (fun s => b s k) ((ns2dStrat n S δ N (rot t) (b t)).2 k) t

/-! ### Lemmas -/

theorem k2not0_pos (kx ky : ℝ) : 0 < k2not0 kx ky := by
  unfold k2not0
  split
  · norm_num
  · rename_i h; exact lt_of_le_of_ne (by positivity) (Ne.symm h)

theorem dispersion_eq (δ : Fin 2 → ℝ) (N : ℝ) (k : Fin 2 → ℤ) :
    dispersion δ N k = waveFreq N (δ 0 * k 0) (δ 1 * k 1) := by
  unfold dispersion waveFreq k2not0
  split
  · rename_i h
    have : δ 0 * (k 0 : ℝ) = 0 := by nlinarith [sq_nonneg (δ 0 * (k 0 : ℝ)), sq_nonneg (δ 1 * (k 1 : ℝ))]
    rw [this]; simp
  · ring

theorem strat_eq {n : Fin 2 → ℕ} (hn : ∀ d, 0 < n d) {S : Finset (Fin 2 → ℤ)} (hD : Distinct n S)
    (δ : Fin 2 → ℝ) (N : ℝ) (rot b : Fld (Fin 2)) {k : Fin 2 → ℤ} (hk : k ∈ S) :
    (ns2dStrat n S δ N rot b).1 k = fftCoef n (jac n S δ (psi δ rot) rot) k + deriv δ 0 b k ∧
    (ns2dStrat n S δ N rot b).2 k
      = fftCoef n (jac n S δ (psi δ rot) b) k + N ^ 2 * deriv δ 0 (psi δ rot) k := by
  have e : ∀ (a : Fld (Fin 2)) j, -gridVal n S (ux2 δ rot) j * gridVal n S (deriv δ 0 a) j
      - gridVal n S (uy2 δ rot) j * gridVal n S (deriv δ 1 a) j = jac n S δ (psi δ rot) a j := by
    intro a j
    rw [uy2_grid, ux2_psi]; simp only [jac]; ring
  constructor
  · simp only [ns2dStrat, if_pos hk, e]
  · simp only [ns2dStrat, if_pos hk, e]
    have e2 : ∀ j, jac n S δ (psi δ rot) b j - N ^ 2 * gridVal n S (uy2 δ rot) j
        = jac n S δ (psi δ rot) b j + N ^ 2 * gridVal n S (deriv δ 0 (psi δ rot)) j := by
      intro j; rw [uy2_grid]; ring
    simp only [e2]
    have : fftCoef n (fun j => jac n S δ (psi δ rot) b j
        + N ^ 2 * gridVal n S (deriv δ 0 (psi δ rot)) j) k
        = fftCoef n (jac n S δ (psi δ rot) b) k
          + N ^ 2 * fftCoef n (gridVal n S (deriv δ 0 (psi δ rot))) k := by
      simp only [fftCoef, add_mul, sum_add_distrib, add_div, mul_assoc, ← mul_sum, mul_div_assoc]
    rw [this, fft_grid hn hD _ hk]

theorem omega_sq (N kx ky : ℝ) :
    (N * kx / √(k2not0 kx ky)) ^ 2 = N ^ 2 * kx ^ 2 / k2not0 kx ky := by
  rw [div_pow, Real.sq_sqrt (k2not0_pos kx ky).le, mul_pow]

/-- The linear terms in terms of the modes. -/
theorem ap_linear (N kx ky : ℝ) (rot b : ℂ) :
    apFrom N kx ky (Complex.I * kx * b) (N ^ 2 * (Complex.I * kx * ((1 / k2not0 kx ky : ℝ) * rot)))
      = -Complex.I * (N * kx / √(k2not0 kx ky) : ℝ) * apFrom N kx ky rot b := by
  have h : (((N * kx / √(k2not0 kx ky) : ℝ) : ℂ)) ^ 2 = N ^ 2 * kx ^ 2 / (k2not0 kx ky : ℝ) := by
    rw [← Complex.ofReal_pow, omega_sq]; push_cast; ring
  have hI := Complex.I_sq
  simp only [apFrom, vecFromRot]
  generalize ((N * kx / √(k2not0 kx ky) : ℝ) : ℂ) = w at h ⊢
  push_cast
  have e : (Complex.I : ℂ) ^ 2 * w ^ 2 * b = Complex.I ^ 2 * (N ^ 2 * kx ^ 2 / (k2not0 kx ky : ℝ)) * b := by
    rw [h]
  linear_combination e

theorem am_linear (N kx ky : ℝ) (rot b : ℂ) :
    amFrom N kx ky (Complex.I * kx * b) (N ^ 2 * (Complex.I * kx * ((1 / k2not0 kx ky : ℝ) * rot)))
      = Complex.I * (N * kx / √(k2not0 kx ky) : ℝ) * amFrom N kx ky rot b := by
  have h : (((N * kx / √(k2not0 kx ky) : ℝ) : ℂ)) ^ 2 = N ^ 2 * kx ^ 2 / (k2not0 kx ky : ℝ) := by
    rw [← Complex.ofReal_pow, omega_sq]; push_cast; ring
  simp only [amFrom, vecFromRot]
  generalize ((N * kx / √(k2not0 kx ky) : ℝ) : ℂ) = w at h ⊢
  push_cast
  have e : (Complex.I : ℂ) ^ 2 * w ^ 2 * b = Complex.I ^ 2 * (N ^ 2 * kx ^ 2 / (k2not0 kx ky : ℝ)) * b := by
    rw [h]
  linear_combination e

theorem jac_smul (n : Fin 2 → ℕ) (S : Finset (Fin 2 → ℤ)) (δ : Fin 2 → ℝ) (rot a : Fld (Fin 2))
    (e : ℂ) (k : Fin 2 → ℤ) :
    fftCoef n (jac n S δ (psi δ fun p => e * rot p) fun p => e * a p) k
      = e ^ 2 * fftCoef n (jac n S δ (psi δ rot) a) k := by
  have h1 : ∀ d (u : Fld (Fin 2)) j, gridVal n S (deriv δ d fun p => e * u p) j
      = e * gridVal n S (deriv δ d u) j := by
    intro d u j
    simp only [gridVal, Energy.deriv, mul_sum]
    exact sum_congr rfl fun p _ => by ring
  have h2 : (psi δ fun p => e * rot p) = fun p => e * psi δ rot p := by
    funext p; simp only [psi]; ring
  have h3 : ∀ j, jac n S δ (psi δ fun p => e * rot p) (fun p => e * a p) j
      = e ^ 2 * jac n S δ (psi δ rot) a j := by
    intro j; rw [h2]; simp only [jac, h1]; ring
  simp only [fftCoef, h3, mul_assoc, ← mul_sum, mul_div_assoc]

theorem apFrom_lin (N kx ky : ℝ) (e a b c d : ℂ) :
    apFrom N kx ky (e ^ 2 * a + e * b) (e ^ 2 * c + e * d)
      = e ^ 2 * apFrom N kx ky a c + e * apFrom N kx ky b d := by
  simp only [apFrom, vecFromRot]; ring

theorem amFrom_lin (N kx ky : ℝ) (e a b c d : ℂ) :
    amFrom N kx ky (e ^ 2 * a + e * b) (e ^ 2 * c + e * d)
      = e ^ 2 * amFrom N kx ky a c + e * amFrom N kx ky b d := by
  simp only [amFrom, vecFromRot]; ring

theorem hasDeriv_quad (A B : ℂ) :
    HasDerivAt (fun e : ℝ => (e : ℂ) ^ 2 * A + e * B) B 0 := by
  have h : HasDerivAt (fun e : ℝ => (e : ℂ)) 1 0 := Complex.ofRealCLM.hasDerivAt
  exact (((h.fun_pow 2).mul_const A).fun_add (h.mul_const B)).congr_deriv (by simp)

/-! ### Theorems -/

/-- C40: the linear evolution of the modes. The linear part (derivative with respect to the amplitude of
the state) of the tendency of `ap` is `-i ω ap`, the one of `am` is `i ω am`, with the frequency `ω` of
the internal waves, which is also the value of `compute_dispersion_relation`. -/
theorem C40_eigenmodes {n : Fin 2 → ℕ} (hn : ∀ d, 0 < n d) {S : Finset (Fin 2 → ℤ)}
    (hD : Distinct n S) (δ : Fin 2 → ℝ) (N : ℝ) (rot b : Fld (Fin 2)) {k : Fin 2 → ℤ} (hk : k ∈ S) :
    HasDerivAt (fun e : ℝ =>
        let T := ns2dStrat n S δ N (fun p => e * rot p) (fun p => e * b p)
        apFft δ N T.1 T.2 k)
      (-Complex.I * waveFreq N (δ 0 * k 0) (δ 1 * k 1) * apFft δ N rot b k) 0 ∧
    HasDerivAt (fun e : ℝ =>
        let T := ns2dStrat n S δ N (fun p => e * rot p) (fun p => e * b p)
        amFft δ N T.1 T.2 k)
      (Complex.I * waveFreq N (δ 0 * k 0) (δ 1 * k 1) * amFft δ N rot b k) 0 ∧
    dispersion δ N k = waveFreq N (δ 0 * k 0) (δ 1 * k 1) := by
  have hT : ∀ e : ℝ, (ns2dStrat n S δ N (fun p => e * rot p) (fun p => e * b p)).1 k
        = (e : ℂ) ^ 2 * fftCoef n (jac n S δ (psi δ rot) rot) k
          + e * (Complex.I * (δ 0 * k 0 : ℝ) * b k) ∧
      (ns2dStrat n S δ N (fun p => e * rot p) (fun p => e * b p)).2 k
        = (e : ℂ) ^ 2 * fftCoef n (jac n S δ (psi δ rot) b) k
          + e * (N ^ 2 * (Complex.I * (δ 0 * k 0 : ℝ) *
            ((1 / k2not0 (δ 0 * k 0) (δ 1 * k 1) : ℝ) * rot k))) := by
    intro e
    obtain ⟨h1, h2⟩ := strat_eq hn hD δ N (fun p => e * rot p) (fun p => e * b p) hk
    rw [h1, h2, jac_smul, jac_smul]
    refine ⟨?_, ?_⟩ <;> simp only [Energy.deriv, psi] <;> ring
  have hw : (N * (δ 0 * k 0) / √(k2not0 (δ 0 * k 0) (δ 1 * k 1)) : ℝ)
      = waveFreq N (δ 0 * k 0) (δ 1 * k 1) := by
    rw [← dispersion_eq, dispersion]; ring
  refine ⟨?_, ?_, dispersion_eq δ N k⟩
  · simp only [apFft, hT, apFrom_lin, ap_linear, hw]
    exact hasDeriv_quad _ _
  · simp only [amFft, hT, amFrom_lin, am_linear, hw]
    exact hasDeriv_quad _ _

theorem plane_jac {n : Fin 2 → ℕ} {S : Finset (Fin 2 → ℤ)} {δ c : Fin 2 → ℝ} {rot a : Fld (Fin 2)}
    (h1 : ∀ k, rot k ≠ 0 → ∃ m : ℝ, ∀ d, δ d * k d = m * c d)
    (h2 : ∀ k, a k ≠ 0 → ∃ m : ℝ, ∀ d, δ d * k d = m * c d) (k : Fin 2 → ℤ) :
    fftCoef n (jac n S δ (psi δ rot) a) k = 0 := by
  have key : ∀ u : Fld (Fin 2), (∀ k, u k ≠ 0 → ∃ m : ℝ, ∀ d, δ d * k d = m * c d) →
      ∃ g : Pt n → ℂ, ∀ d j, gridVal n S (deriv δ d u) j = c d * g j := by
    intro u hu
    choose! m hm using hu
    refine ⟨fun j => ∑ p ∈ S, Complex.I * (m p) * u p * chi n p j, fun d j => ?_⟩
    simp only [gridVal, Energy.deriv, mul_sum]
    refine sum_congr rfl fun p _ => ?_
    by_cases hp : u p = 0
    · simp [hp]
    · rw [hm p hp d]; push_cast; ring
  obtain ⟨g, hg⟩ := key (psi δ rot) (fun k hk => h1 k (by
    intro h; exact hk (by simp [psi, h])))
  obtain ⟨g', hg'⟩ := key a h2
  have : ∀ j, jac n S δ (psi δ rot) a j = 0 := by
    intro j; simp only [jac, hg, hg']; ring
  simp [fftCoef, this]

/-- C40: for plane waves, whatever their amplitude, the whole (nonlinear) tendency is the linear one. -/
theorem C40_plane_wave_tendency {n : Fin 2 → ℕ} (hn : ∀ d, 0 < n d) {S : Finset (Fin 2 → ℤ)}
    (hD : Distinct n S) (δ : Fin 2 → ℝ) (N : ℝ) {c : Fin 2 → ℝ} {rot b : Fld (Fin 2)}
    (hp : PlaneWaves δ c rot b) {k : Fin 2 → ℤ} (hk : k ∈ S) :
    let T := ns2dStrat n S δ N rot b
    apFft δ N T.1 T.2 k = -Complex.I * waveFreq N (δ 0 * k 0) (δ 1 * k 1) * apFft δ N rot b k ∧
    amFft δ N T.1 T.2 k = Complex.I * waveFreq N (δ 0 * k 0) (δ 1 * k 1) * amFft δ N rot b k := by
  intro T
  obtain ⟨h1, h2⟩ := strat_eq hn hD δ N rot b hk
  rw [plane_jac (fun k hk => hp k (.inl hk)) (fun k hk => hp k (.inl hk)), zero_add] at h1
  rw [plane_jac (fun k hk => hp k (.inl hk)) (fun k hk => hp k (.inr hk)), zero_add] at h2
  have hw : (N * (δ 0 * k 0) / √(k2not0 (δ 0 * k 0) (δ 1 * k 1)) : ℝ)
      = waveFreq N (δ 0 * k 0) (δ 1 * k 1) := by
    rw [← dispersion_eq, dispersion]; ring
  have e1 := ap_linear N (δ 0 * k 0) (δ 1 * k 1) (rot k) (b k)
  have e2 := am_linear N (δ 0 * k 0) (δ 1 * k 1) (rot k) (b k)
  rw [hw] at e1 e2
  refine ⟨?_, ?_⟩
  · rw [apFft, apFft, ← e1, h1, h2]; simp only [Energy.deriv, psi]
  · rw [amFft, amFft, ← e2, h1, h2]; simp only [Energy.deriv, psi]

theorem apFrom_hasDeriv {N kx ky : ℝ} {r b : ℝ → ℂ} {r' b' : ℂ} {t : ℝ} (hr : HasDerivAt r r' t)
    (hb : HasDerivAt b b' t) :
    HasDerivAt (fun s => apFrom N kx ky (r s) (b s)) (apFrom N kx ky r' b') t := by
  simp only [apFrom, vecFromRot]
  exact ((hr.const_mul _).const_mul _).fun_add (hb.const_mul _)

theorem amFrom_hasDeriv {N kx ky : ℝ} {r b : ℝ → ℂ} {r' b' : ℂ} {t : ℝ} (hr : HasDerivAt r r' t)
    (hb : HasDerivAt b b' t) :
    HasDerivAt (fun s => amFrom N kx ky (r s) (b s)) (amFrom N kx ky r' b') t := by
  simp only [amFrom, vecFromRot]
  exact ((hr.const_mul _).const_mul _).fun_sub (hb.const_mul _)

theorem exp_hasDeriv (z : ℂ) (t : ℝ) :
    HasDerivAt (fun s : ℝ => Complex.exp (z * s)) (Complex.exp (z * t) * z) t := by
  have h : HasDerivAt (fun s : ℝ => (s : ℂ)) 1 t := Complex.ofRealCLM.hasDerivAt
  have := (h.const_mul z)
  exact this.cexp.congr_deriv (by ring)

theorem linear_ode {a : ℝ → ℂ} {z : ℂ} (h : ∀ t, HasDerivAt a (z * a t) t) (t : ℝ) :
    a t = Complex.exp (z * t) * a 0 := by
  have h1 : ∀ t, HasDerivAt (fun s : ℝ => Complex.exp (-z * s) * a s) 0 t := fun t =>
    ((exp_hasDeriv (-z) t).fun_mul (h t)).congr_deriv (by ring)
  have h2 := is_const_of_deriv_eq_zero (fun t => (h1 t).differentiableAt) (fun t => (h1 t).deriv) t 0
  simp only [Complex.ofReal_zero, mul_zero, Complex.exp_zero, one_mul] at h2
  rw [← h2, ← mul_assoc, ← Complex.exp_add]
  simp

/-- C40: along any solution of the equations solved by ns2d.strat made of plane waves, `ap` is multiplied
by `exp(-i ω t)` and `am` by `exp(i ω t)`. -/
theorem C40_evolution {n : Fin 2 → ℕ} (hn : ∀ d, 0 < n d) {S : Finset (Fin 2 → ℤ)}
    (hD : Distinct n S) (δ : Fin 2 → ℝ) (N : ℝ) {c : Fin 2 → ℝ} {rot b : ℝ → Fld (Fin 2)}
    (hsol : Solves n S δ N rot b) (hp : ∀ t, PlaneWaves δ c (rot t) (b t)) {k : Fin 2 → ℤ}
    (hk : k ∈ S) (t : ℝ) :
    apFft δ N (rot t) (b t) k
      = Complex.exp (-Complex.I * waveFreq N (δ 0 * k 0) (δ 1 * k 1) * t) * apFft δ N (rot 0) (b 0) k ∧
    amFft δ N (rot t) (b t) k
      = Complex.exp (Complex.I * waveFreq N (δ 0 * k 0) (δ 1 * k 1) * t) * amFft δ N (rot 0) (b 0) k := by
  constructor
  · refine linear_ode (a := fun s => apFft δ N (rot s) (b s) k) (fun s => ?_) t
    rw [← (C40_plane_wave_tendency hn hD δ N (hp s) hk).1]
    exact apFrom_hasDeriv (hsol s k).1 (hsol s k).2
  · refine linear_ode (a := fun s => amFft δ N (rot s) (b s) k) (fun s => ?_) t
    rw [← (C40_plane_wave_tendency hn hD δ N (hp s) hk).2]
    exact amFrom_hasDeriv (hsol s k).1 (hsol s k).2

theorem ap_of_rotbFromAp {N kx ky : ℝ} (hN : N ≠ 0) (hx : kx ≠ 0) (a : ℂ) :
    apFrom N kx ky (rotbFromAp N kx ky a).1 (rotbFromAp N kx ky a).2 = a ∧
    amFrom N kx ky (rotbFromAp N kx ky a).1 (rotbFromAp N kx ky a).2 = 0 := by
  have hk : kx ^ 2 + ky ^ 2 ≠ 0 := by positivity
  have hs0 : √(kx ^ 2 + ky ^ 2) ≠ 0 := by positivity
  have hN' : (N : ℂ) ≠ 0 := by exact_mod_cast hN
  have hx' : (kx : ℂ) ≠ 0 := by exact_mod_cast hx
  have hk' : (kx : ℂ) ^ 2 + (ky : ℂ) ^ 2 ≠ 0 := by exact_mod_cast hk
  have hs' : ((√(kx ^ 2 + ky ^ 2) : ℝ) : ℂ) ≠ 0 := by exact_mod_cast hs0
  rw [rotbFromAp_ne hx]
  simp only [apFrom, amFrom, vecFromRot, k2not0, if_neg hk]
  push_cast
  generalize ((√(kx ^ 2 + ky ^ 2) : ℝ) : ℂ) = s at hs'
  have hI := Complex.I_sq
  constructor
  · field_simp
    linear_combination (-2 * a) * hI
  · field_simp
    linear_combination (0 : ℂ) * hI

theorem rotbFromAm_ne {N kx ky : ℝ} (hx : kx ≠ 0) (f : ℂ) :
    rotbFromAm N kx ky f = ((rotbFromAp N kx ky f).1, -(rotbFromAp N kx ky f).2) := by
  simp only [rotbFromAm, rotbFromAp, if_pos hx, mul_neg]

theorem am_of_rotbFromAm {N kx ky : ℝ} (hN : N ≠ 0) (hx : kx ≠ 0) (a : ℂ) :
    amFrom N kx ky (rotbFromAm N kx ky a).1 (rotbFromAm N kx ky a).2 = a ∧
    apFrom N kx ky (rotbFromAm N kx ky a).1 (rotbFromAm N kx ky a).2 = 0 := by
  obtain ⟨h1, h2⟩ := ap_of_rotbFromAp (ky := ky) hN hx a
  rw [rotbFromAm_ne hx]
  simp only [apFrom, amFrom] at h1 h2 ⊢
  constructor
  · linear_combination h1
  · linear_combination h2

/-- C40: initialisation from `ap` (from `am`): for the kept modes with `kx ≠ 0`, the mode `ap` (`am`) of
the state is the given one and the other one is zero. The modes with `kx = 0` (no wave: the frequency is
zero) and the truncated modes are set to zero. -/
theorem C40_init {S : Finset (Fin 2 → ℤ)} {δ : Fin 2 → ℝ} (hδ : δ 0 ≠ 0) {N : ℝ} (hN : N ≠ 0)
    (a : Fld (Fin 2)) (k : Fin 2 → ℤ) :
    let sp := initFromAp S δ N a
    let sm := initFromAm S δ N a
    (k ∈ S → k 0 ≠ 0 → apFft δ N sp.1 sp.2 k = a k ∧ amFft δ N sm.1 sm.2 k = a k) ∧
    amFft δ N sp.1 sp.2 k = 0 ∧ apFft δ N sm.1 sm.2 k = 0 ∧
    (k ∉ S ∨ k 0 = 0 → sp.1 k = 0 ∧ sp.2 k = 0 ∧ sm.1 k = 0 ∧ sm.2 k = 0) := by
  intro sp sm
  have hz : k ∉ S ∨ k 0 = 0 → sp.1 k = 0 ∧ sp.2 k = 0 ∧ sm.1 k = 0 ∧ sm.2 k = 0 := by
    rintro (h | h)
    · simp only [sp, sm, initFromAp, initFromAm, if_neg h, and_self]
    · simp [sp, sm, initFromAp, initFromAm, rotbFromAp, rotbFromAm, rotFromVec, h]
  have hx : k 0 ≠ 0 → δ 0 * (k 0 : ℝ) ≠ 0 := fun h => mul_ne_zero hδ (by exact_mod_cast h)
  by_cases hk : k ∈ S ∧ k 0 ≠ 0
  · obtain ⟨h1, h2⟩ := ap_of_rotbFromAp (ky := δ 1 * (k 1 : ℝ)) hN (hx hk.2) (a k)
    obtain ⟨h3, h4⟩ := am_of_rotbFromAm (ky := δ 1 * (k 1 : ℝ)) hN (hx hk.2) (a k)
    refine ⟨fun _ _ => ⟨?_, ?_⟩, ?_, ?_, hz⟩ <;>
      simp only [apFft, amFft, sp, sm, initFromAp, initFromAm, if_pos hk.1, h1, h2, h3, h4]
  · have hk' : k ∉ S ∨ k 0 = 0 := by tauto
    obtain ⟨z1, z2, z3, z4⟩ := hz hk'
    refine ⟨fun h1 h2 => absurd ⟨h1, h2⟩ hk, ?_, ?_, hz⟩
    · simp [amFft, z1, z2, amFrom, vecFromRot]
    · simp [apFft, z3, z4, apFrom, vecFromRot]

theorem state_of_modes {N kx ky : ℝ} (hN : N ≠ 0) (hx : kx ≠ 0) {r b r' b' : ℂ}
    (h1 : apFrom N kx ky r b = apFrom N kx ky r' b') (h2 : amFrom N kx ky r b = amFrom N kx ky r' b') :
    r = r' ∧ b = b' := by
  have hN' : (N : ℂ) ≠ 0 := by exact_mod_cast hN
  have hx' : (kx : ℂ) ≠ 0 := by exact_mod_cast hx
  have hk : ((k2not0 kx ky : ℝ) : ℂ) ≠ 0 := by exact_mod_cast (k2not0_pos kx ky).ne'
  have hs : ((√(k2not0 kx ky) : ℝ) : ℂ) ≠ 0 := by
    exact_mod_cast (Real.sqrt_pos.mpr (k2not0_pos kx ky)).ne'
  simp only [apFrom, amFrom, vecFromRot] at h1 h2
  push_cast at h1 h2
  have e1 : (N : ℂ) ^ 2 * (-Complex.I * kx / (k2not0 kx ky : ℝ)) * r
      = (N : ℂ) ^ 2 * (-Complex.I * kx / (k2not0 kx ky : ℝ)) * r' := by
    linear_combination (h1 + h2) / 2
  have e2 : Complex.I * (N * kx / (√(k2not0 kx ky) : ℝ)) * b
      = Complex.I * (N * kx / (√(k2not0 kx ky) : ℝ)) * b' := by
    linear_combination (h1 - h2) / 2
  constructor
  · exact mul_left_cancel₀ (by
      refine mul_ne_zero (pow_ne_zero _ hN') (div_ne_zero (mul_ne_zero ?_ hx') hk)
      simp) e1
  · exact mul_left_cancel₀ (mul_ne_zero Complex.I_ne_zero
      (div_ne_zero (mul_ne_zero hN' hx') hs)) e2

theorem initAp_plane {S : Finset (Fin 2 → ℤ)} {δ c : Fin 2 → ℝ} {N : ℝ} {a : Fld (Fin 2)}
    (hp : ∀ k, a k ≠ 0 → ∃ m : ℝ, ∀ d, δ d * k d = m * c d) :
    PlaneWaves δ c (initFromAp S δ N a).1 (initFromAp S δ N a).2 := by
  intro k hk
  refine hp k fun h => ?_
  have : rotbFromAp N (δ 0 * k 0) (δ 1 * k 1) 0 = 0 := by
    simp [rotbFromAp, rotFromVec]
  rcases hk with hk | hk <;> exact hk (by simp [initFromAp, h, this])

theorem rotbFromAp_mul (N kx ky : ℝ) (e a : ℂ) :
    rotbFromAp N kx ky (e * a) = (e * (rotbFromAp N kx ky a).1, e * (rotbFromAp N kx ky a).2) := by
  simp only [rotbFromAp, rotFromVec, Prod.mk.injEq]
  refine ⟨by ring, ?_⟩
  split <;> ring

/-- C40: a plane wave initialised from `ap` is, at any time `t`, the state initialised from
`exp(-i ω t) ap`: it is a solution of the nonlinear equations solved by ns2d.strat. -/
theorem C40_wave_solution {n : Fin 2 → ℕ} (hn : ∀ d, 0 < n d) {S : Finset (Fin 2 → ℤ)}
    (hD : Distinct n S) {δ : Fin 2 → ℝ} (hδ : δ 0 ≠ 0) {N : ℝ} (hN : N ≠ 0) {c : Fin 2 → ℝ}
    {a : Fld (Fin 2)} (hp : ∀ k, a k ≠ 0 → ∃ m : ℝ, ∀ d, δ d * k d = m * c d) :
    let at' := fun (t : ℝ) (k : Fin 2 → ℤ) =>
      Complex.exp (-Complex.I * waveFreq N (δ 0 * k 0) (δ 1 * k 1) * t) * a k
    Solves n S δ N (fun t => (initFromAp S δ N (at' t)).1) (fun t => (initFromAp S δ N (at' t)).2) := by
  intro at' t k
  have hpt : ∀ k, at' t k ≠ 0 → ∃ m : ℝ, ∀ d, δ d * k d = m * c d := fun k hk =>
    hp k fun h => hk (by simp [at', h])
  have hpw := initAp_plane (S := S) (N := N) hpt
  by_cases hk : k ∈ S
  · -- the tendency
    have hz : (ns2dStrat n S δ N (initFromAp S δ N (at' t)).1 (initFromAp S δ N (at' t)).2).1 k
          = -Complex.I * waveFreq N (δ 0 * k 0) (δ 1 * k 1) * (initFromAp S δ N (at' t)).1 k ∧
        (ns2dStrat n S δ N (initFromAp S δ N (at' t)).1 (initFromAp S δ N (at' t)).2).2 k
          = -Complex.I * waveFreq N (δ 0 * k 0) (δ 1 * k 1) * (initFromAp S δ N (at' t)).2 k := by
      by_cases hx : k 0 = 0
      · obtain ⟨h1, h2⟩ := strat_eq hn hD δ N (initFromAp S δ N (at' t)).1
          (initFromAp S δ N (at' t)).2 hk
        rw [plane_jac (fun k hk => hpw k (.inl hk)) (fun k hk => hpw k (.inl hk)), zero_add] at h1
        rw [plane_jac (fun k hk => hpw k (.inl hk)) (fun k hk => hpw k (.inr hk)), zero_add] at h2
        rw [h1, h2]
        simp [Energy.deriv, hx, waveFreq]
      · have hx' : δ 0 * (k 0 : ℝ) ≠ 0 := mul_ne_zero hδ (by exact_mod_cast hx)
        obtain ⟨h1, h2⟩ := C40_plane_wave_tendency hn hD δ N hpw hk
        have hi := C40_init (S := S) hδ hN (at' t) k
        simp only [] at hi
        rw [hi.2.1] at h2
        refine state_of_modes (ky := δ 1 * (k 1 : ℝ)) hN hx' ?_ ?_
        · refine h1.trans ?_
          simp only [apFft, apFrom, vecFromRot]; ring
        · refine h2.trans ?_
          have h0 := hi.2.1
          simp only [amFft, amFrom, vecFromRot] at h0 ⊢
          linear_combination -(-Complex.I * waveFreq N (δ 0 * k 0) (δ 1 * k 1)) * h0
    rw [hz.1, hz.2]
    have hd := exp_hasDeriv (-Complex.I * waveFreq N (δ 0 * k 0) (δ 1 * k 1)) t
    simp only [initFromAp, if_pos hk, at', rotbFromAp_mul]
    exact ⟨(hd.mul_const _).congr_deriv (by ring), (hd.mul_const _).congr_deriv (by ring)⟩
  · simp only [initFromAp, if_neg hk, ns2dStrat]
    exact ⟨hasDerivAt_const _ _, hasDerivAt_const _ _⟩

/-- A wave of large amplitude on a 6 x 6 grid. -/
example : ∃ a : Fld (Fin 2), (∃ k, a k ≠ 0) ∧
    ∀ k, a k ≠ 0 → ∃ m : ℝ, ∀ d, (fun _ => 1 : Fin 2 → ℝ) d * k d = m * (![1, 2] : Fin 2 → ℝ) d := by
  refine ⟨fun k => if k = ![1, 2] then 1000 else 0, ⟨![1, 2], by simp⟩, fun k hk => ⟨1, fun d => ?_⟩⟩
  have : k = ![1, 2] := by
    by_contra h; exact hk (if_neg h)
  subst this
  fin_cases d <;> simp

/-! ### `check_energy_conservation` -/

/-- C40: `check_energy_conservation` accepts any state and tendency for which energy is conserved (and
some energy is exchanged), and refuses those for which the energy increases by more than its tolerance. -/
theorem C40_check_partial {S : Finset (Fin 2 → ℤ)} (δ : Fin 2 → ℝ) {N : ℝ}
    (rot b frot fb : Fld (Fin 2)) (hden : ∃ k ∈ S, ptEnergy δ N rot b frot fb k ≠ 0) :
    (∑ k ∈ S, ptEnergy δ N rot b frot fb k = 0 → checkEnergy S δ N rot b frot fb = true) ∧
    ((1e-14 : ℝ) * ∑ k ∈ S, |ptEnergy δ N rot b frot fb k| ≤ ∑ k ∈ S, ptEnergy δ N rot b frot fb k →
      checkEnergy S δ N rot b frot fb = false) := by
  have hpos : 0 < ∑ k ∈ S, |ptEnergy δ N rot b frot fb k| := by
    obtain ⟨k, hk, h⟩ := hden
    exact sum_pos' (fun _ _ => abs_nonneg _) ⟨k, hk, abs_pos.mpr h⟩
  constructor
  · intro h
    simp only [checkEnergy, if_neg hpos.ne', h, zero_div, decide_eq_true_eq]
    norm_num
  · intro h
    simp only [checkEnergy, if_neg hpos.ne', decide_eq_false_iff_not, not_lt]
    rwa [le_div_iff₀ hpos]

/-- C40, finding: `check_energy_conservation` compares the signed ratio with its tolerance: it reports as
conservative any tendency which dissipates energy, whatever the rate (here the damping `-rot`, for every
state with some vorticity). -/
theorem C40_check_violated {S : Finset (Fin 2 → ℤ)} {δ : Fin 2 → ℝ} (N : ℝ) (rot : Fld (Fin 2))
    (hrot : ∃ k ∈ S, k ≠ 0 ∧ rot k ≠ 0) :
    checkEnergy S δ N rot 0 (fun k => -rot k) 0 = true ∧
    ∑ k ∈ S, ptEnergy δ N rot 0 (fun k => -rot k) 0 k
      = -∑ k ∈ S, |ptEnergy δ N rot 0 (fun k => -rot k) 0 k| ∧
    ∑ k ∈ S, ptEnergy δ N rot 0 (fun k => -rot k) 0 k < 0 := by
  have hle : ∀ k, ptEnergy δ N rot 0 (fun k => -rot k) 0 k
      = -(0.5 * (if k = 0 then 0 else 1 / k2not0 (δ 0 * k 0) (δ 1 * k 1)) * ‖rot k‖ ^ 2) := by
    intro k
    simp only [ptEnergy, Pi.zero_apply, mul_zero, Complex.zero_re, add_zero, mul_neg, Complex.neg_re]
    rw [mul_comm ((starRingEnd ℂ) (rot k)), Complex.mul_conj, Complex.ofReal_re, Complex.normSq_eq_norm_sq]
  have hnn : ∀ k, 0 ≤ 0.5 * (if k = 0 then 0 else 1 / k2not0 (δ 0 * k 0) (δ 1 * k 1)) * ‖rot k‖ ^ 2 := by
    intro k
    have := (k2not0_pos (δ 0 * k 0) (δ 1 * k 1)).le
    split <;> positivity
  have habs : ∑ k ∈ S, |ptEnergy δ N rot 0 (fun k => -rot k) 0 k|
      = -∑ k ∈ S, ptEnergy δ N rot 0 (fun k => -rot k) 0 k := by
    rw [← sum_neg_distrib]
    refine sum_congr rfl fun k _ => ?_
    rw [hle, abs_neg, neg_neg, abs_of_nonneg (hnn k)]
  have hpos : 0 < ∑ k ∈ S, |ptEnergy δ N rot 0 (fun k => -rot k) 0 k| := by
    obtain ⟨k, hk, h0, h⟩ := hrot
    refine sum_pos' (fun _ _ => abs_nonneg _) ⟨k, hk, abs_pos.mpr ?_⟩
    rw [hle, if_neg h0]
    have := k2not0_pos (δ 0 * k 0) (δ 1 * k 1)
    have : 0 < ‖rot k‖ := norm_pos_iff.mpr h
    exact (neg_neg_of_pos (by positivity)).ne
  refine ⟨?_, by rw [habs, neg_neg], by linarith⟩
  simp only [checkEnergy, if_neg hpos.ne', decide_eq_true_eq]
  have : ∑ k ∈ S, ptEnergy δ N rot 0 (fun k => -rot k) 0 k / 1
      = -∑ k ∈ S, |ptEnergy δ N rot 0 (fun k => -rot k) 0 k| := by
    simp only [div_one]; rw [habs, neg_neg]
  simp only [div_one] at this
  rw [this, neg_div, div_self hpos.ne']
  norm_num

end

end Verif.Strat
