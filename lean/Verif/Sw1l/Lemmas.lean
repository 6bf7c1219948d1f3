import Verif.Sw1l.Model

/-! # Lemmas on the shallow-water solvers -/

set_option linter.unusedSectionVars false

namespace Verif.Sw1l

open Verif.Fourier Verif.Energy Verif.Forcing Finset

noncomputable section

/-- The parameters accepted by the solver: positive wavenumber steps and wave speed. -/
def Par.Ok (p : Par) : Prop := (∀ d, p.δ d ≠ 0) ∧ 0 < p.c2

variable {p : Par}

theorem Par.Ok.k2_pos (h : p.Ok) {k : Mode} (hk : k ≠ 0) : 0 < p.k2 k := by
  have : k 0 ≠ 0 ∨ k 1 ≠ 0 := by
    by_contra hc
    push Not at hc
    exact hk (funext fun d => by fin_cases d <;> simp [hc.1, hc.2])
  unfold Par.k2 Par.kx Par.ky
  rcases this with h0 | h1
  · have : p.δ 0 * (k 0 : ℝ) ≠ 0 := mul_ne_zero (h.1 0) (by exact_mod_cast h0)
    positivity
  · have : p.δ 1 * (k 1 : ℝ) ≠ 0 := mul_ne_zero (h.1 1) (by exact_mod_cast h1)
    positivity

theorem Par.Ok.kd2_nonneg (h : p.Ok) : 0 ≤ p.kd2 := by
  have := h.2; unfold Par.kd2; positivity

theorem Par.Ok.k2not0 (h : p.Ok) {k : Mode} (hk : k ≠ 0) : k2not0 (p.kx k) (p.ky k) = p.k2 k := by
  have := (h.k2_pos hk).ne'
  unfold Par.k2 at this
  rw [Forcing.k2not0, if_neg this, Par.k2]

theorem Par.Ok.kappa2not0 (h : p.Ok) {k : Mode} (hk : k ≠ 0) :
    p.kappa2not0 k = p.k2 k + p.kd2 := by rw [Par.kappa2not0, h.k2not0 hk]

theorem Par.Ok.kappaOverIc_ne (h : p.Ok) {k : Mode} (hk : k ≠ 0) : p.kappaOverIc k ≠ 0 := by
  have h1 := h.k2_pos hk
  have h2 := h.kd2_nonneg
  have h3 := h.2
  have : (√((p.k2 k + p.kd2) / p.c2) : ℝ) ≠ 0 := (Real.sqrt_pos.mpr (by positivity)).ne'
  unfold Par.kappaOverIc
  simp [this]

theorem Par.Ok.kappaOverIc_sq (h : p.Ok) (k : Mode) :
    p.c2 * p.kappaOverIc k ^ 2 = -((p.k2 k : ℂ) + p.kd2) := by
  have h1 : 0 ≤ p.k2 k := by unfold Par.k2; positivity
  have h2 := h.kd2_nonneg
  have h3 := h.2
  have h3' : (p.c2 : ℂ) ≠ 0 := by exact_mod_cast h3.ne'
  have hs : ((√((p.k2 k + p.kd2) / p.c2) : ℝ) : ℂ) ^ 2 = ((p.k2 k : ℂ) + p.kd2) / p.c2 := by
    rw [← Complex.ofReal_pow, Real.sq_sqrt (by positivity)]; push_cast; ring
  unfold Par.kappaOverIc
  rw [mul_pow, hs]
  rw [show (-1 * Complex.I) ^ 2 = -1 by rw [mul_pow, Complex.I_sq]; norm_num]
  field_simp

/-- The normal modes of a non-zero wavenumber, whatever `f`. -/
theorem qapam_ne {k : Mode} (hk : k ≠ 0) (u : UEta) :
    qapam p k u = ⟨rotOf p k u.ux u.uy - p.f * u.eta,
      (p.k2 k * u.eta + (p.f / p.c2 : ℝ) * rotOf p k u.ux u.uy
        + p.kappaOverIc k * divOf p k u.ux u.uy) / 2,
      (p.k2 k * u.eta + (p.f / p.c2 : ℝ) * rotOf p k u.ux u.uy
        - p.kappaOverIc k * divOf p k u.ux u.uy) / 2⟩ := by
  simp only [qapam, if_neg hk, rotOf, divOf]
  split
  · congr 1 <;> push_cast <;> ring
  · rename_i h
    have h : p.f = 0 := by simpa using h
    rw [h]
    congr 1 <;> push_cast <;> ring

/-- The primitive variables of a non-zero wavenumber, whatever `f`. -/
theorem uEtaFrom_ne (h : p.Ok) {k : Mode} (hk : k ≠ 0) (s : QA) :
    let K : ℂ := p.k2 k
    let κ2 : ℂ := p.k2 k + p.kd2
    let rot := (K * s.q + p.f * (s.ap + s.am)) / κ2
    let d := (s.ap - s.am) / p.kappaOverIc k
    uEtaFrom p k s = ⟨Complex.I * p.ky k / K * rot - Complex.I * p.kx k / K * d,
      -Complex.I * p.kx k / K * rot - Complex.I * p.ky k / K * d,
      (s.ap + s.am - p.f / p.c2 * s.q) / κ2⟩ := by
  intro K κ2 rot d
  have h1 := h.kappa2not0 hk
  simp only [uEtaFrom, if_neg hk, fromA, fromQ, etaFromA, invLap, divFromApAm, vecFromDiv, vecFromRot,
    h.k2not0 hk, h1]
  have hc2 : (p.c2 : ℂ) ≠ 0 := by exact_mod_cast h.2.ne'
  have hκ : (p.k2 k : ℂ) + p.kd2 ≠ 0 := by
    have h1 := h.k2_pos hk
    have h2 := h.kd2_nonneg
    exact_mod_cast (by positivity : p.k2 k + p.kd2 ≠ 0)
  ext
  · by_cases hf : p.f = 0 <;> simp only [hf, if_true, if_false, rot, d, K, κ2] <;> push_cast <;> ring
  · by_cases hf : p.f = 0 <;> simp only [hf, if_true, if_false, rot, d, K, κ2] <;> push_cast <;> ring
  · by_cases hf : p.f = 0 <;> simp only [hf, if_true, if_false, κ2] <;> push_cast <;> ring

theorem rot_uEtaFrom (h : p.Ok) {k : Mode} (hk : k ≠ 0) (s : QA) :
    rotOf p k (uEtaFrom p k s).ux (uEtaFrom p k s).uy
      = ((p.k2 k : ℂ) * s.q + p.f * (s.ap + s.am)) / (p.k2 k + p.kd2) := by
  have hK : (p.kx k : ℂ) ^ 2 + (p.ky k : ℂ) ^ 2 ≠ 0 := by
    have := (h.k2_pos hk).ne'; unfold Par.k2 at this; exact_mod_cast this
  have e := uEtaFrom_ne h hk s
  simp only [] at e
  rw [e]
  generalize ((p.k2 k : ℂ) * s.q + p.f * (s.ap + s.am)) / (p.k2 k + p.kd2) = r
  generalize (s.ap - s.am) / p.kappaOverIc k = d
  simp only [rotOf, Par.k2]
  push_cast
  field_simp
  ring_nf
  simp only [Complex.I_sq]
  ring

theorem div_uEtaFrom (h : p.Ok) {k : Mode} (hk : k ≠ 0) (s : QA) :
    divOf p k (uEtaFrom p k s).ux (uEtaFrom p k s).uy = (s.ap - s.am) / p.kappaOverIc k := by
  have hK : (p.kx k : ℂ) ^ 2 + (p.ky k : ℂ) ^ 2 ≠ 0 := by
    have := (h.k2_pos hk).ne'; unfold Par.k2 at this; exact_mod_cast this
  have e := uEtaFrom_ne h hk s
  simp only [] at e
  rw [e]
  generalize ((p.k2 k : ℂ) * s.q + p.f * (s.ap + s.am)) / (p.k2 k + p.kd2) = r
  generalize (s.ap - s.am) / p.kappaOverIc k = d
  simp only [divOf, Par.k2]
  push_cast
  field_simp
  ring_nf
  simp only [Complex.I_sq]
  ring

/-- The vorticity and the divergence determine the velocity of a non-zero wavenumber. -/
theorem vel_of_rot_div (h : p.Ok) {k : Mode} (hk : k ≠ 0) (ux uy : ℂ) :
    Complex.I * p.ky k / p.k2 k * rotOf p k ux uy - Complex.I * p.kx k / p.k2 k * divOf p k ux uy = ux ∧
    -Complex.I * p.kx k / p.k2 k * rotOf p k ux uy - Complex.I * p.ky k / p.k2 k * divOf p k ux uy
      = uy := by
  have hK : (p.kx k : ℂ) ^ 2 + (p.ky k : ℂ) ^ 2 ≠ 0 := by
    have := (h.k2_pos hk).ne'; unfold Par.k2 at this; exact_mod_cast this
  simp only [rotOf, divOf, Par.k2]
  push_cast
  constructor <;> (field_simp; ring_nf; simp only [Complex.I_sq]; ring)

end

end Verif.Sw1l
