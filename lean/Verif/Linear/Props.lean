import Verif.Linear.Spec
import Mathlib.Analysis.SpecialFunctions.Trigonometric.Deriv
import Mathlib.Analysis.SpecialFunctions.Complex.LogDeriv
import Mathlib.Tactic.Module

set_option linter.unusedSectionVars false

/-! # C69: the linear solvers and the dimensional units of plate2d -/

namespace Verif.Linear

noncomputable section

open Verif.Schemes

/-! ## ad1d.pseudo_spect -/

/-- **C69.** ad1d.pseudo_spect: after any sequence of steps (any schemes, any increments), the field is the initial one without its
truncated modes, translated by `U T` and with each mode damped by the dissipation: `s(x, T) = s_d(x - U T)`. -/
theorem C69_advection (U Lx : ℝ) (fd : ℕ → ℝ) (g1 g2 : Arr ℕ) (dt0 : ℝ) (mask : ℕ → Bool) (nk : ℕ) (h : Heap ℕ)
    (l : List (StepIn ℕ)) (hl : l ≠ []) (hdt : ∀ x ∈ l, x.dt ≠ 0) (x : ℝ) :
    fieldAt Lx nk ((steps tendenciesZero mask l ⟨h, Coefs.init (ad1dFreq U Lx fd) true dt0 g1 g2⟩).heap .state) x =
      fieldAt Lx nk (fun j => if mask j then 0 else Real.exp (-(duration l * fd j)) * h .state j)
        (x - U * duration l) := by
  have key : ∀ j, (steps tendenciesZero mask l ⟨h, Coefs.init (ad1dFreq U Lx fd) true dt0 g1 g2⟩).heap .state j =
      if mask j then 0 else Complex.exp (-(duration l : ℝ) * ad1dFreq U Lx fd j) * h .state j :=
    fun j => C05_linear_exact _ g1 g2 dt0 mask h l hl hdt j
  generalize duration l = T at key ⊢
  have hexp : ∀ j : ℕ, Complex.exp (-(T : ℂ) * ad1dFreq U Lx fd j) =
      (Real.exp (-(T * fd j)) : ℂ) * Complex.exp (Complex.I * ((2 * Real.pi / Lx * j * (-(U * T)) : ℝ) : ℂ)) := by
    intro j
    rw [Complex.ofReal_exp, ← Complex.exp_add]
    congr 1
    unfold ad1dFreq
    push_cast
    ring
  unfold fieldAt
  congr 1
  · rw [key 0]
    dsimp only
    by_cases hm : mask 0 = true
    · rw [if_pos hm, if_pos hm]
    · rw [if_neg hm, if_neg hm, hexp 0]
      simp
  · congr 1
    refine Finset.sum_congr rfl fun j _ => ?_
    rw [key j]
    dsimp only
    by_cases hm : mask j = true
    · rw [if_pos hm, if_pos hm]; simp
    · rw [if_neg hm, if_neg hm, hexp j]
      congr 1
      have : Complex.exp (Complex.I * ((2 * Real.pi / Lx * j * (x - U * T) : ℝ) : ℂ)) =
          Complex.exp (Complex.I * ((2 * Real.pi / Lx * j * (-(U * T)) : ℝ) : ℂ)) *
            Complex.exp (Complex.I * ((2 * Real.pi / Lx * j * x : ℝ) : ℂ)) := by
        rw [← Complex.exp_add]
        congr 1
        push_cast
        ring
      rw [this]
      ring

/-- The hypotheses of `C69_advection` are met: two steps of a half, with different schemes, move the sum of the first
modes by one period of the domain: the field is the initial one. -/
example (h : Heap ℕ) (x : ℝ) :
    fieldAt 1 3 ((steps tendenciesZero (fun _ => false) [⟨.RK4, 1/2, 1, 1, 1⟩, ⟨.RK2, 1/2, 1, 1, 1⟩]
      ⟨h, Coefs.init (ad1dFreq 1 1 fun _ => 0) true 0 1 1⟩).heap .state) x = fieldAt 1 3 (h .state) (x - 1) := by
  rw [C69_advection 1 1 (fun _ => 0) 1 1 0 (fun _ => false) 3 h _ (by simp) (by simp) x]
  have : duration ([⟨.RK4, 1/2, 1, 1, 1⟩, ⟨.RK2, 1/2, 1, 1, 1⟩] : List (StepIn ℕ)) = 1 := by
    simp [duration]
    norm_num
  rw [this]
  simp

/-! ## waves2d -/

/-- **C69.** What waves2d computes: without dissipation, `f` does not change and each mode of `g` turns. -/
theorem C69_waves_step (f c2 : ℝ) (g1 g2 : Arr (WKey × ℝ × ℝ)) (dt0 : ℝ) (h : Heap (WKey × ℝ × ℝ))
    (l : List (StepIn (WKey × ℝ × ℝ))) (hl : l ≠ []) (hdt : ∀ x ∈ l, x.dt ≠ 0) (k : ℝ × ℝ) :
    (steps tendenciesZero (fun _ => false) l ⟨h, Coefs.init (wavesFreq f c2 fun _ => 0) true dt0 g1 g2⟩).heap .state (.f, k) =
      h .state (.f, k) ∧
    (steps tendenciesZero (fun _ => false) l ⟨h, Coefs.init (wavesFreq f c2 fun _ => 0) true dt0 g1 g2⟩).heap .state (.g, k) =
      Complex.exp (-(Complex.I * (Real.sqrt (f ^ 2 + c2 * (k.1 ^ 2 + k.2 ^ 2)) * duration l : ℝ))) * h .state (.g, k) := by
  have e := C05_linear_exact (wavesFreq f c2 fun _ => 0) g1 g2 dt0 (fun _ => false) h l hl hdt
  constructor
  · have := e (.f, k)
    rw [if_neg (by simp)] at this
    refine this.trans ?_
    simp [wavesFreq, wavesFreqComplex]
  · have := e (.g, k)
    rw [if_neg (by simp)] at this
    refine this.trans ?_
    congr 2
    simp only [wavesFreq, wavesFreqComplex, duration]
    push_cast
    ring

/-- **C69.** The dissipation of waves2d: with the frequency of dissipation `fd` the moduli of both variables decay as
`exp(- fd(k) t)`, whatever the sequence of schemes and time steps. -/
theorem C69_waves_decay (f c2 : ℝ) (fd : ℝ × ℝ → ℝ) (g1 g2 : Arr (WKey × ℝ × ℝ)) (dt0 : ℝ) (h : Heap (WKey × ℝ × ℝ))
    (l : List (StepIn (WKey × ℝ × ℝ))) (hl : l ≠ []) (hdt : ∀ x ∈ l, x.dt ≠ 0) (key : WKey) (k : ℝ × ℝ) :
    ‖(steps tendenciesZero (fun _ => false) l ⟨h, Coefs.init (wavesFreq f c2 fd) true dt0 g1 g2⟩).heap .state (key, k)‖ =
      Real.exp (-(fd k * duration l)) * ‖h .state (key, k)‖ := by
  have e := C05_linear_exact (wavesFreq f c2 fd) g1 g2 dt0 (fun _ => false) h l hl hdt (key, k)
  rw [if_neg (by simp)] at e
  refine (congrArg norm e).trans ?_
  rw [norm_mul, Complex.norm_exp]
  congr 2
  cases key <;> simp [wavesFreq, wavesFreqComplex, duration, mul_comm]

/-- The documented equations have the solution `f = cos(Omega t)`, `g = - Omega sin(Omega t)`. -/
theorem waveEq_cos (Omega : ℝ) :
    WaveEq Omega (fun t => ((Real.cos (Omega * t) : ℝ) : ℂ)) (fun t => ((-(Omega * Real.sin (Omega * t)) : ℝ) : ℂ)) := by
  intro t
  have hl : HasDerivAt (fun t : ℝ => Omega * t) Omega t := by
    simpa using (hasDerivAt_id t).const_mul Omega
  constructor
  · exact ((Real.hasDerivAt_cos (Omega * t)).comp t hl).ofReal_comp.congr_deriv (by push_cast; ring)
  · exact (((Real.hasDerivAt_sin (Omega * t)).comp t hl).const_mul Omega).neg.ofReal_comp.congr_deriv
      (by push_cast; ring)

/-- **C69 (finding).** waves2d does not solve its documented equations: for `f = 1`, `g = 0` in a mode with `Omega ≠ 0`, the solution
is `f = cos(Omega t)`, but after any sequence of steps `f` is still 1 and `g` still 0: the values are not the ones of a
solution, unless `cos(Omega T) = 1`. -/
theorem C69_waves_violated (f c2 : ℝ) (g1 g2 : Arr (WKey × ℝ × ℝ)) (dt0 : ℝ) (h : Heap (WKey × ℝ × ℝ))
    (l : List (StepIn (WKey × ℝ × ℝ))) (hl : l ≠ []) (hdt : ∀ x ∈ l, x.dt ≠ 0) (k : ℝ × ℝ)
    (hf : h .state (.f, k) = 1) (hg : h .state (.g, k) = 0)
    (hT : Real.cos (Real.sqrt (f ^ 2 + c2 * (k.1 ^ 2 + k.2 ^ 2)) * duration l) ≠ 1) :
    ∃ F G : ℝ → ℂ, WaveEq (Real.sqrt (f ^ 2 + c2 * (k.1 ^ 2 + k.2 ^ 2))) F G ∧
      F 0 = h .state (.f, k) ∧ G 0 = h .state (.g, k) ∧
      (steps tendenciesZero (fun _ => false) l ⟨h, Coefs.init (wavesFreq f c2 fun _ => 0) true dt0 g1 g2⟩).heap
        .state (.f, k) ≠ F (duration l) := by
  refine ⟨_, _, waveEq_cos _, by simp [hf], by simp [hg], ?_⟩
  rw [(C69_waves_step f c2 g1 g2 dt0 h l hl hdt k).1, hf]
  intro hc
  exact hT (by exact_mod_cast hc.symm)

/-- The hypotheses of `C69_waves_violated` are met: `c = 1`, `f = 0`, the mode (0, pi), one step of one. -/
example : Real.cos (Real.sqrt ((0 : ℝ) ^ 2 + 1 * ((0 : ℝ) ^ 2 + Real.pi ^ 2)) *
    duration ([⟨.RK4, 1, 1, 1, 1⟩] : List (StepIn (WKey × ℝ × ℝ)))) ≠ 1 := by
  have h0 : Real.sqrt ((0 : ℝ) ^ 2 + 1 * ((0 : ℝ) ^ 2 + Real.pi ^ 2)) = Real.pi := by
    rw [show (0 : ℝ) ^ 2 + 1 * ((0 : ℝ) ^ 2 + Real.pi ^ 2) = Real.pi ^ 2 by ring, Real.sqrt_sq Real.pi_pos.le]
  have h1 : duration ([⟨.RK4, 1, 1, 1, 1⟩] : List (StepIn (WKey × ℝ × ℝ))) = 1 := by simp [duration]
  rw [h0, h1]
  norm_num

/-- **C69 (finding).** waves2d does not keep the symmetry of the transforms of real fields: the modes `(0, ky)` and `(0, -ky)` are both
stored; if they are conjugate before a step, they are not after it, unless the mode is zero or
`sin(Omega T) = 0`. -/
theorem C69_waves_hermitian_violated (f c2 : ℝ) (g1 g2 : Arr (WKey × ℝ × ℝ)) (dt0 : ℝ) (h : Heap (WKey × ℝ × ℝ))
    (l : List (StepIn (WKey × ℝ × ℝ))) (hl : l ≠ []) (hdt : ∀ x ∈ l, x.dt ≠ 0) (ky : ℝ)
    (hs : h .state (.g, 0, -ky) = (starRingEnd ℂ) (h .state (.g, 0, ky))) (hg : h .state (.g, 0, ky) ≠ 0)
    (hT : Real.sin (Real.sqrt (f ^ 2 + c2 * ky ^ 2) * duration l) ≠ 0) :
    (steps tendenciesZero (fun _ => false) l ⟨h, Coefs.init (wavesFreq f c2 fun _ => 0) true dt0 g1 g2⟩).heap .state (.g, 0, -ky) ≠
      (starRingEnd ℂ)
        ((steps tendenciesZero (fun _ => false) l ⟨h, Coefs.init (wavesFreq f c2 fun _ => 0) true dt0 g1 g2⟩).heap .state (.g, 0, ky)) := by
  rw [(C69_waves_step f c2 g1 g2 dt0 h l hl hdt (0, -ky)).2, (C69_waves_step f c2 g1 g2 dt0 h l hl hdt (0, ky)).2, hs]
  have e1 : f ^ 2 + c2 * (((0 : ℝ), -ky).1 ^ 2 + ((0 : ℝ), -ky).2 ^ 2) = f ^ 2 + c2 * ky ^ 2 := by simp
  have e2 : f ^ 2 + c2 * (((0 : ℝ), ky).1 ^ 2 + ((0 : ℝ), ky).2 ^ 2) = f ^ 2 + c2 * ky ^ 2 := by simp
  rw [e1, e2, map_mul, ← Complex.exp_conj]
  generalize Real.sqrt (f ^ 2 + c2 * ky ^ 2) * duration l = th at hT
  intro hc
  have hne : (starRingEnd ℂ) (h .state (.g, 0, ky)) ≠ 0 := by simpa using hg
  have h1 := mul_right_cancel₀ hne hc
  have h2 := congrArg Complex.im h1
  have e3 : Complex.exp (-(Complex.I * (th : ℂ))) = Complex.exp (((-th : ℝ) : ℂ) * Complex.I) := by
    congr 1; push_cast; ring
  have e4 : Complex.exp ((starRingEnd ℂ) (-(Complex.I * (th : ℂ)))) = Complex.exp ((th : ℂ) * Complex.I) := by
    congr 1
    simp [Complex.conj_ofReal]
    ring
  rw [e3, e4, Complex.exp_ofReal_mul_I_im, Complex.exp_ofReal_mul_I_im, Real.sin_neg] at h2
  exact hT (by linarith)

/-- The hypotheses of `C69_waves_hermitian_violated` are met. -/
example : Real.sin (Real.sqrt ((0 : ℝ) ^ 2 + 1 * (Real.pi / 2) ^ 2) *
    duration ([⟨.RK4, 1, 1, 1, 1⟩] : List (StepIn (WKey × ℝ × ℝ)))) ≠ 0 := by
  have h0 : Real.sqrt ((0 : ℝ) ^ 2 + 1 * (Real.pi / 2) ^ 2) = Real.pi / 2 := by
    rw [show (0 : ℝ) ^ 2 + 1 * (Real.pi / 2) ^ 2 = (Real.pi / 2) ^ 2 by ring, Real.sqrt_sq (by positivity)]
  have h1 : duration ([⟨.RK4, 1, 1, 1, 1⟩] : List (StepIn (WKey × ℝ × ℝ))) = 1 := by simp [duration]
  rw [h0, h1]
  norm_num

/-! ## the units of plate2d -/

variable (cv : Converter)

/-- A plate: positive coefficient, thickness and length, Poisson modulus less than one. -/
def Converter.Ok : Prop := 0 < cv.C ∧ 0 < cv.h ∧ 0 < cv.L ∧ cv.sigma < 1

theorem tildeT_pos (hc : cv.Ok) : 0 < cv.tildeT := by
  obtain ⟨h1, h2, h3, h4⟩ := hc
  unfold Converter.tildeT
  have := Real.sqrt_pos.mpr h1
  positivity

theorem tildeZ_pos (hc : cv.Ok) : 0 < cv.tildeZ := by
  obtain ⟨h1, h2, h3, h4⟩ := hc
  unfold Converter.tildeZ
  have : 0 < 1 - cv.sigma := by linarith
  have := Real.sqrt_pos.mpr (show 0 < 6 * (1 - cv.sigma) by positivity)
  positivity

theorem tildeNu4_pos (hc : cv.Ok) : 0 < cv.tildeNu4 := by
  have := tildeT_pos cv hc
  have := hc.2.2.1
  unfold Converter.tildeNu4
  positivity

/-- **C69.** The conversions to and from dimensional quantities are inverse of each other. -/
theorem C69_conversions (hc : cv.Ok) (q : ℝ) :
    cv.timeDim (cv.timeAdim q) = q ∧ cv.timeAdim (cv.timeDim q) = q ∧ cv.zDim (cv.zAdim q) = q ∧
    cv.zAdim (cv.zDim q) = q ∧ cv.wDim (cv.wAdim q) = q ∧ cv.wAdim (cv.wDim q) = q ∧
    cv.nu4Dim (cv.nu4Adim q) = q ∧ cv.nu4Adim (cv.nu4Dim q) = q := by
  have h1 := (tildeT_pos cv hc).ne'
  have h2 := (tildeZ_pos cv hc).ne'
  have h3 := (tildeNu4_pos cv hc).ne'
  simp only [Converter.timeDim, Converter.timeAdim, Converter.zDim, Converter.zAdim, Converter.wDim, Converter.wAdim,
    Converter.nu4Dim, Converter.nu4Adim]
  refine ⟨?_, ?_, ?_, ?_, ?_, ?_, ?_, ?_⟩ <;> field_simp

/-- **C69.** The velocity stays the derivative of the displacement: if `w = dz/dt` for the non-dimensional quantities, it is true for
the dimensional ones. -/
theorem C69_velocity (hc : cv.Ok) (z w : ℝ → ℝ) (hw : ∀ t, HasDerivAt z (w t) t) (t : ℝ) :
    HasDerivAt (fun s => cv.zDim (z (cv.timeAdim s))) (cv.wDim (w (cv.timeAdim t))) t := by
  have h1 := (tildeT_pos cv hc).ne'
  have hl : HasDerivAt (fun s : ℝ => cv.timeAdim s) (1 / cv.tildeT) t := by
    simpa [Converter.timeAdim] using (hasDerivAt_id t).div_const cv.tildeT
  refine (((hw (cv.timeAdim t)).comp t hl).mul_const cv.tildeZ).congr_deriv ?_
  simp only [Converter.wDim]
  field_simp

/-- A plate of steel. -/
def exCv : Converter := ⟨648 ^ 2 / 1000 ^ 2, 4 / 10000, 1, 3 / 10⟩

/-- The hypotheses of `C69_conversions` are met. -/
example : exCv.Ok := by
  unfold Converter.Ok exCv
  norm_num

section
variable {F : Type*} [AddCommGroup F] [Module ℝ F] (B : F →ₗ[ℝ] F) (br : F →ₗ[ℝ] F →ₗ[ℝ] F)

/-- **C69 (partial).** For `sigma = 0`, a solution of the non-dimensional equations converted with the converter of a plate
(`C = E h² / (12 rho (1 - sigma²))`) is a solution of the equations of the plate. For other Poisson moduli, see
`C69_units_violated`. -/
theorem C69_units_partial (E rho h L nu4 : ℝ) (hE : 0 < E) (hr : 0 < rho) (hh : 0 < h) (hL : 0 < L) (a w z chi : F)
    (hs : Adim B br nu4 a w z chi) :
    let cv : Converter := ⟨coefC E rho 0 h, h, L, 0⟩
    Dim B br E rho 0 h L (cv.nu4Dim nu4) ((cv.tildeZ / cv.tildeT ^ 2) • a) ((cv.tildeZ / cv.tildeT) • w)
      (cv.tildeZ • z) ((E * h / 2 * cv.tildeZ ^ 2) • chi) := by
  intro cv
  have hC : 0 < coefC E rho 0 h := by unfold coefC; positivity
  have hok : cv.Ok := ⟨hC, hh, hL, by norm_num [cv]⟩
  have hT := tildeT_pos cv hok
  have hZ := tildeZ_pos cv hok
  have eT : cv.tildeT ^ 2 = L ^ 4 / coefC E rho 0 h := by
    simp only [cv, Converter.tildeT, div_pow, Real.sq_sqrt hC.le]
    ring
  have eC : coefC E rho 0 h = E * h ^ 2 / (12 * rho) := by unfold coefC; norm_num
  have eZ : cv.tildeZ ^ 2 = h ^ 2 / 6 := by
    simp only [cv, Converter.tildeZ, div_pow]
    rw [Real.sq_sqrt (by norm_num)]
    norm_num
  have hcv : cv.L = L := rfl
  obtain ⟨h1, h2⟩ := hs
  refine ⟨?_, ?_⟩
  · rw [h1]
    simp only [map_smul, LinearMap.smul_apply, smul_smul, Converter.nu4Dim, Converter.tildeNu4, hcv]
    have c1 : rho * h * (cv.tildeZ / cv.tildeT ^ 2) = E * h ^ 3 / (12 * (1 - 0 ^ 2)) / L ^ 4 * cv.tildeZ := by
      rw [eT, eC]; field_simp; norm_num
    have c2 : rho * h * (cv.tildeZ / cv.tildeT ^ 2) = 1 / L ^ 4 * (E * h / 2 * cv.tildeZ ^ 2 * cv.tildeZ) := by
      rw [eT, eC, eZ]; field_simp; norm_num
    have c3 : rho * h * (cv.tildeZ / cv.tildeT ^ 2) * nu4 =
        rho * h * (nu4 * (L ^ 4 / cv.tildeT)) / L ^ 4 * (cv.tildeZ / cv.tildeT) := by
      field_simp
    match_scalars
    · linear_combination -c1
    · linear_combination c2
    · linear_combination -c3
  · simp only [map_smul, LinearMap.smul_apply, h2]
    match_scalars
    ring

end

/-- The hypotheses of `C69_units_partial` are met, with a nonlinear term. -/
example : Adim (LinearMap.id : ℝ →ₗ[ℝ] ℝ) (LinearMap.mul ℝ ℝ) 3 (-5 : ℝ) 1 1 (-1) := by
  unfold Adim
  simp
  norm_num

/-- **C69 (finding).** For every Poisson modulus which is not zero, the converted solutions are not solutions of the equations of
the plate, whatever the stress function: the unit of displacement uses `6 (1 - sigma)` instead of
`6 (1 - sigma²)`. -/
theorem C69_units_violated (E rho sigma h L : ℝ) (hE : 0 < E) (hr : 0 < rho) (hh : 0 < h) (hL : 0 < L)
    (hs1 : -1 < sigma) (hs2 : sigma < 1) (hs : sigma ≠ 0) :
    let B : ℝ →ₗ[ℝ] ℝ := LinearMap.id
    let br : ℝ →ₗ[ℝ] ℝ →ₗ[ℝ] ℝ := LinearMap.mul ℝ ℝ
    let cv : Converter := ⟨coefC E rho sigma h, h, L, sigma⟩
    Adim B br 0 (-2 : ℝ) 0 1 (-1) ∧
    ∀ chi, ¬ Dim B br E rho sigma h L 0 ((cv.tildeZ / cv.tildeT ^ 2) * (-2)) 0 (cv.zDim 1) chi := by
  intro B br cv
  refine ⟨by simp [Adim, B, br]; norm_num, ?_⟩
  rintro chi ⟨h1, h2⟩
  have hsq : 0 < 1 - sigma ^ 2 := by nlinarith
  have hsq1 : 0 < 1 - sigma := by linarith
  have hC : 0 < coefC E rho sigma h := by unfold coefC; positivity
  have hok : cv.Ok := ⟨hC, hh, hL, hs2⟩
  have hZ := tildeZ_pos cv hok
  have eT : cv.tildeT ^ 2 = L ^ 4 / coefC E rho sigma h := by
    simp only [cv, Converter.tildeT, div_pow, Real.sq_sqrt hC.le]
    ring
  have eZ : cv.tildeZ ^ 2 * (6 * (1 - sigma)) = h ^ 2 := by
    simp only [cv, Converter.tildeZ, div_pow]
    rw [Real.sq_sqrt (by positivity)]
    field_simp
  simp only [B, br, Converter.zDim, one_mul, LinearMap.id_apply, LinearMap.mul_apply', smul_eq_mul, mul_zero,
    sub_zero] at h1 h2
  rw [eT] at h1
  have hchi : chi = -(E * h / 2) * cv.tildeZ ^ 2 := by
    field_simp at h2
    linarith
  rw [hchi] at h1
  unfold coefC at h1
  generalize cv.tildeZ = Z at *
  field_simp at h1
  have h3 : h ^ 2 = 6 * (1 - sigma ^ 2) * Z ^ 2 := by nlinarith
  have h4 : Z ^ 2 * (sigma * (1 - sigma)) = 0 := by linear_combination (-h3 - eZ) / 6
  rcases mul_eq_zero.mp h4 with h5 | h5
  · exact absurd h5 (by positivity)
  · rcases mul_eq_zero.mp h5 with h6 | h6
    · exact hs h6
    · exact hsq1.ne' h6

/-- **C69.** A linear wave of wavenumber `k`, converted, has the frequency `sqrt(C) k²`. -/
theorem C69_dispersion (hc : cv.Ok) (k t : ℝ) :
    cv.zDim (Real.cos ((k * cv.tildeL) ^ 2 * cv.timeAdim t)) = cv.zDim 1 * Real.cos (Real.sqrt cv.C * k ^ 2 * t) := by
  have h1 := (Real.sqrt_pos.mpr hc.1).ne'
  have h2 := hc.2.2.1.ne'
  have : (k * cv.tildeL) ^ 2 * cv.timeAdim t = Real.sqrt cv.C * k ^ 2 * t := by
    simp only [Converter.tildeL, Converter.timeAdim, Converter.tildeT]
    field_simp
  rw [this]
  simp only [Converter.zDim]
  ring

/-- **C69 (finding).** The documented dispersion relation of the coefficient `C` is `omega = C k²`: it is not the one of the converter
unless `C = 1`. -/
theorem C69_dispersion_violated (hc : cv.Ok) (h1 : cv.C ≠ 1) (k : ℝ) (hk : k ≠ 0) :
    Real.sqrt cv.C * k ^ 2 ≠ cv.C * k ^ 2 := by
  intro h
  have h2 := mul_right_cancel₀ (pow_ne_zero 2 hk) h
  have h3 := Real.sq_sqrt hc.1.le
  rw [h2] at h3
  have : cv.C * (cv.C - 1) = 0 := by linear_combination h3
  rcases mul_eq_zero.mp this with h4 | h4
  · exact hc.1.ne' h4
  · exact h1 (by linarith)

end

end Verif.Linear
