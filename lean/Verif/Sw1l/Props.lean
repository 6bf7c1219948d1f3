import Verif.Sw1l.Lemmas
import Mathlib.Tactic.NormNum

/-!
# C39, C54, C55, C56: shallow-water solvers
-/

set_option linter.unusedSectionVars false

namespace Verif.Sw1l

open Verif.Fourier Verif.Energy Verif.Forcing Finset

noncomputable section

variable {p : Par}

/-! ### C39: normal modes -/

/-- C39: primitive variables -> normal modes -> primitive variables. -/
theorem C39_roundtrip_uxuyeta (h : p.Ok) {k : Mode} (hk : k ≠ 0) (u : UEta) :
    uEtaFrom p k (qapam p k u) = u := by
  have e := uEtaFrom_ne h hk (qapam p k u)
  simp only [] at e
  rw [e, qapam_ne hk]
  have hK : (p.k2 k : ℂ) ≠ 0 := by exact_mod_cast (h.k2_pos hk).ne'
  have hc2 : (p.c2 : ℂ) ≠ 0 := by exact_mod_cast h.2.ne'
  have hκ : (p.k2 k : ℂ) + p.kd2 ≠ 0 := by
    have h1 := h.k2_pos hk
    have h2 := h.kd2_nonneg
    exact_mod_cast (by positivity : p.k2 k + p.kd2 ≠ 0)
  have hi := h.kappaOverIc_ne hk
  have hrot : ((p.k2 k : ℂ) * (rotOf p k u.ux u.uy - p.f * u.eta)
      + p.f * ((p.k2 k * u.eta + (p.f / p.c2 : ℝ) * rotOf p k u.ux u.uy
        + p.kappaOverIc k * divOf p k u.ux u.uy) / 2
        + (p.k2 k * u.eta + (p.f / p.c2 : ℝ) * rotOf p k u.ux u.uy
        - p.kappaOverIc k * divOf p k u.ux u.uy) / 2)) / (p.k2 k + p.kd2) = rotOf p k u.ux u.uy := by
    rw [div_eq_iff hκ]
    simp only [Par.kd2]; push_cast; field_simp; ring
  have hdiv : ((p.k2 k * u.eta + (p.f / p.c2 : ℝ) * rotOf p k u.ux u.uy
        + p.kappaOverIc k * divOf p k u.ux u.uy) / 2
        - (p.k2 k * u.eta + (p.f / p.c2 : ℝ) * rotOf p k u.ux u.uy
        - p.kappaOverIc k * divOf p k u.ux u.uy) / 2) / p.kappaOverIc k = divOf p k u.ux u.uy := by
    rw [div_eq_iff hi]; ring
  obtain ⟨v1, v2⟩ := vel_of_rot_div h hk u.ux u.uy
  ext
  · simp only [hrot, hdiv]; exact v1
  · simp only [hrot, hdiv]; exact v2
  · simp only []
    rw [div_eq_iff hκ]
    simp only [Par.kd2]; push_cast; field_simp; ring

/-- C39: normal modes -> primitive variables -> normal modes. -/
theorem C39_roundtrip_qapam (h : p.Ok) {k : Mode} (hk : k ≠ 0) (s : QA) :
    qapam p k (uEtaFrom p k s) = s := by
  rw [qapam_ne hk, rot_uEtaFrom h hk, div_uEtaFrom h hk]
  have e := uEtaFrom_ne h hk s
  simp only [] at e
  have e3 : (uEtaFrom p k s).eta = (s.ap + s.am - p.f / p.c2 * s.q) / (p.k2 k + p.kd2) := by rw [e]
  rw [e3]
  have hK : (p.k2 k : ℂ) ≠ 0 := by exact_mod_cast (h.k2_pos hk).ne'
  have hc2 : (p.c2 : ℂ) ≠ 0 := by exact_mod_cast h.2.ne'
  have hκ : (p.k2 k : ℂ) + p.kd2 ≠ 0 := by
    have h1 := h.k2_pos hk
    have h2 := h.kd2_nonneg
    exact_mod_cast (by positivity : p.k2 k + p.kd2 ≠ 0)
  have hi := h.kappaOverIc_ne hk
  have hkd : (p.kd2 : ℂ) = p.f ^ 2 / p.c2 := by simp only [Par.kd2]; push_cast; ring
  have ha : (p.k2 k : ℂ) * ((s.ap + s.am - p.f / p.c2 * s.q) / (p.k2 k + p.kd2))
      + (p.f / p.c2 : ℝ) * ((p.k2 k * s.q + p.f * (s.ap + s.am)) / (p.k2 k + p.kd2)) = s.ap + s.am := by
    rw [hkd] at hκ ⊢
    have hκ' : (p.k2 k : ℂ) * p.c2 + p.f ^ 2 ≠ 0 := by
      intro h0; apply hκ; field_simp; rw [mul_zero]; exact h0
    push_cast
    field_simp
    ring
  have hd : p.kappaOverIc k * ((s.ap - s.am) / p.kappaOverIc k) = s.ap - s.am := by field_simp
  ext
  · simp only []
    rw [hkd] at hκ ⊢
    have hκ' : (p.k2 k : ℂ) * p.c2 + p.f ^ 2 ≠ 0 := by
      intro h0; apply hκ; field_simp; rw [mul_zero]; exact h0
    field_simp
    ring
  · simp only [ha, hd]; ring
  · simp only [ha, hd]; ring

/-- C39: the mean velocity is preserved by the conversions (in both directions, if `q` has no mean). -/
theorem C39_mean (u : UEta) (s : QA) (hq : s.q = 0) :
    (uEtaFrom p 0 (qapam p 0 u)).ux = u.ux ∧ (uEtaFrom p 0 (qapam p 0 u)).uy = u.uy ∧
    qapam p 0 (uEtaFrom p 0 s) = s := by
  simp only [qapam, uEtaFrom, if_true]
  refine ⟨by ring, by ring_nf; simp only [Complex.I_sq]; ring, ?_⟩
  ext
  · exact hq.symm
  · simp only []; ring_nf; simp only [Complex.I_sq]; ring
  · simp only []; ring_nf; simp only [Complex.I_sq]; ring

/-- C39, finding: the mean surface displacement is lost by the conversion to normal modes: it is always
zero after a round trip. -/
theorem C39_mean_eta_violated (u : UEta) : (uEtaFrom p 0 (qapam p 0 u)).eta = 0 := by
  simp [uEtaFrom, qapam, fromA, fromQ, etaFromA, invLap]

/-- C39: a state initialised from the potential vorticity has this potential vorticity, no divergence and
no ageostrophic part; a state initialised from the ageostrophic variable has this ageostrophic variable,
no divergence and no potential vorticity (kept non-zero modes). -/
theorem C39_init_q_a (h : p.Ok) (S : Finset Mode) (q a : Fld (Fin 2)) {k : Mode} (hS : k ∈ S)
    (hk : k ≠ 0) :
    (qOf p k (initQ p S q k) = q k ∧ aOf p k (initQ p S q k) = 0 ∧
      divOf p k (initQ p S q k).ux (initQ p S q k).uy = 0) ∧
    (qOf p k (initA p S a k) = 0 ∧ aOf p k (initA p S a k) = a k ∧
      divOf p k (initA p S a k).ux (initA p S a k).uy = 0) := by
  have hK : (p.k2 k : ℂ) ≠ 0 := by exact_mod_cast (h.k2_pos hk).ne'
  have hc2 : (p.c2 : ℂ) ≠ 0 := by exact_mod_cast h.2.ne'
  have hκ : (p.k2 k : ℂ) + p.kd2 ≠ 0 := by
    have h1 := h.k2_pos hk
    have h2 := h.kd2_nonneg
    exact_mod_cast (by positivity : p.k2 k + p.kd2 ≠ 0)
  have hkd : (p.kd2 : ℂ) = p.f ^ 2 / p.c2 := by simp only [Par.kd2]; push_cast; ring
  have hrot : ∀ r : ℂ, rotOf p k (vecFromRot (p.kx k) (p.ky k) r).1 (vecFromRot (p.kx k) (p.ky k) r).2
      = r := by
    intro r
    simp only [vecFromRot, rotOf, h.k2not0 hk, Par.k2]
    have hK' : (p.kx k : ℂ) ^ 2 + (p.ky k : ℂ) ^ 2 ≠ 0 := by
      have := (h.k2_pos hk).ne'; unfold Par.k2 at this; exact_mod_cast this
    push_cast; field_simp; ring_nf; simp only [Complex.I_sq]; ring
  have hdiv : ∀ r : ℂ, divOf p k (vecFromRot (p.kx k) (p.ky k) r).1 (vecFromRot (p.kx k) (p.ky k) r).2
      = 0 := by
    intro r; simp only [vecFromRot, divOf]; ring
  have hk2 : (p.kappa2not0 k : ℂ) = p.k2 k + p.kd2 := by rw [h.kappa2not0 hk]; push_cast; ring
  have hκ' : (p.k2 k : ℂ) * p.c2 + p.f ^ 2 ≠ 0 := by
    rw [hkd] at hκ; intro h0; apply hκ; field_simp; rw [mul_zero]; exact h0
  refine ⟨⟨?_, ?_, ?_⟩, ?_, ?_, ?_⟩
  · simp only [qOf, initQ, trunc, if_pos hS, hrot, rotFromQ, etaFromQ, invLap, if_neg hk, hk2]
    split
    · rename_i hf
      rw [hkd, hf]; push_cast; field_simp; ring
    · rw [hkd]; push_cast; field_simp; ring
  · simp only [aOf, initQ, trunc, if_pos hS, hrot, rotFromQ, etaFromQ, invLap, if_neg hk, hk2]
    by_cases hf : p.f = 0
    · simp [hf]
    · simp only [hf, ne_eq, not_false_eq_true, if_true, if_false, hkd]; push_cast; ring
  · simp only [initQ, trunc, if_pos hS, hdiv]
  · simp only [qOf, initA, trunc, if_pos hS, fromA, hrot]
    split
    · rename_i hf; rw [hf]; push_cast; ring
    · ring
  · simp only [aOf, initA, trunc, if_pos hS, fromA, hrot, etaFromA, invLap, if_neg hk, hk2]
    by_cases hf : p.f = 0
    · rw [hkd, if_neg (by simpa using hf), hf]; push_cast; field_simp; ring
    · simp only [hf, ne_eq, not_false_eq_true, if_true, if_false, hkd]; push_cast; field_simp
  · simp only [initA, trunc, if_pos hS, fromA, hdiv]

/-- C39: the part of `init_from_qafft` which is the sum of the two initialisations: `ux` and `eta`.
Missing: `uy`, see `C39_init_qa_violated`. -/
theorem C39_init_qa_partial (S : Finset Mode) (q a : Fld (Fin 2)) (k : Mode) :
    (initQA p S q a k).ux = (initQ p S q k).ux + (initA p S a k).ux ∧
    (initQA p S q a k).eta = (initQ p S q k).eta + (initA p S a k).eta := by
  simp only [initQA, initQ, initA, trunc]
  split <;> simp

/-- C39, finding: `init_from_qafft` adds the component `x` of the ageostrophic velocity to the component
`y` of the geostrophic velocity. For every kept wavenumber whose components are not opposite, every `f`
and `c2`, and every `a` non-zero at this wavenumber with `f ≠ 0`, `uy` is not the sum of the two
initialisations. -/
theorem C39_init_qa_violated (h : p.Ok) (hf : p.f ≠ 0) (S : Finset Mode) (q a : Fld (Fin 2)) {k : Mode}
    (hS : k ∈ S) (hk : k ≠ 0) (hxy : p.kx k + p.ky k ≠ 0) (ha : a k ≠ 0) :
    (initQA p S q a k).uy ≠ (initQ p S q k).uy + (initA p S a k).uy := by
  intro hc
  simp only [initQA, initQ, initA, trunc, if_pos hS, fromA, etaFromA, invLap, if_neg hk, if_neg hf,
    vecFromRot, h.k2not0 hk, add_right_inj] at hc
  have hK : (p.k2 k : ℂ) ≠ 0 := by exact_mod_cast (h.k2_pos hk).ne'
  have hκ : (p.kappa2not0 k : ℂ) ≠ 0 := by
    rw [h.kappa2not0 hk]
    have h1 := h.k2_pos hk
    have h2 := h.kd2_nonneg
    exact_mod_cast (by positivity : p.k2 k + p.kd2 ≠ 0)
  have hf' : (p.f : ℂ) ≠ 0 := by exact_mod_cast hf
  have hxy' : (p.kx k : ℂ) + p.ky k ≠ 0 := by exact_mod_cast hxy
  have : Complex.I * ((p.kx k : ℂ) + p.ky k) * (p.f * a k) = 0 := by
    field_simp at hc
    linear_combination (p.f * a k) * Complex.I * hc
  simp [hxy', hf', ha] at this

/-- The hypotheses of `C39_init_qa_violated` hold for the wavenumber (1, 0), `f = 1`, `c2 = 1`. -/
example : ∃ (p : Par) (k : Mode), p.Ok ∧ p.f ≠ 0 ∧ k ≠ 0 ∧ p.kx k + p.ky k ≠ 0 :=
  ⟨⟨fun _ => 1, 1, 1⟩, ![1, 0], ⟨fun _ => one_ne_zero, one_pos⟩, one_ne_zero,
    fun h => by simpa using congrFun h 0, by simp [Par.kx, Par.ky]⟩

/-- C39: the velocity computed by the state of sw1l.exactlin is the one of the normal modes, for every
non-zero wavenumber. Missing: the mean velocity, see `C39_exactlin_mean_violated`. -/
theorem C39_exactlin_velocity_partial {k : Mode} (hk : k ≠ 0) (s : QA) :
    exactlinVelocity p k s = ((uEtaFrom p k s).ux, (uEtaFrom p k s).uy) := by
  simp only [exactlinVelocity, uEtaFrom, if_neg hk, fromA, fromQ, rotFromQ, rotFromA, etaFromA, vecFromRot,
    Prod.mk.injEq]
  constructor <;> ring

/-- C39, finding: the mean velocity computed by the state of sw1l.exactlin is `(ap, am)` and not
`((ap + am) / 2, (am - ap) / (2 i))`: from the mean velocity `(ux, uy)` it gives `(ux + i uy, ux - i uy)`,
which is the mean velocity only if it is zero. -/
theorem C39_exactlin_mean_violated (u : UEta) :
    exactlinVelocity p 0 (qapam p 0 u) = (u.ux + Complex.I * u.uy, u.ux - Complex.I * u.uy) ∧
    (exactlinVelocity p 0 (qapam p 0 u) = (u.ux, u.uy) ↔ u.ux = 0 ∧ u.uy = 0) := by
  have e : exactlinVelocity p 0 (qapam p 0 u) = (u.ux + Complex.I * u.uy, u.ux - Complex.I * u.uy) := by
    simp [exactlinVelocity, qapam]
  refine ⟨e, ?_⟩
  rw [e, Prod.mk.injEq]
  constructor
  · rintro ⟨h1, h2⟩
    have h3 : Complex.I * u.uy = 0 := by linear_combination h1
    have h4 : u.uy = 0 := (mul_eq_zero.mp h3).resolve_left Complex.I_ne_zero
    refine ⟨?_, h4⟩
    rw [h4] at h2; simpa using h2
  · rintro ⟨h1, h2⟩
    simp [h1, h2]

/-- A mean flow of a simulation is in general not zero. -/
example : ∃ u : UEta, ¬(u.ux = 0 ∧ u.uy = 0) := ⟨⟨1, 0, 0⟩, by simp⟩

/-! ### C56: sw1l and sw1l.exactlin -/

theorem qapam_add (k : Mode) (u v : UEta) :
    qapam p k ⟨u.ux + v.ux, u.uy + v.uy, u.eta + v.eta⟩
      = ⟨(qapam p k u).q + (qapam p k v).q, (qapam p k u).ap + (qapam p k v).ap,
          (qapam p k u).am + (qapam p k v).am⟩ := by
  by_cases hk : k = 0
  · subst hk; simp only [qapam, if_true]; ext <;> simp only [] <;> ring
  · simp only [qapam_ne hk, rotOf, divOf]; ext <;> simp only [] <;> ring

/-- Linear terms of the shallow-water equations: Coriolis, pressure and divergence. -/
def linSW (p : Par) (k : Mode) (u : UEta) : UEta :=
  ⟨p.f * u.uy - Complex.I * p.kx k * (p.c2 * u.eta), -p.f * u.ux - Complex.I * p.ky k * (p.c2 * u.eta),
    -divOf p k u.ux u.uy⟩

theorem freq_kappa (h : p.Ok) (k : Mode) :
    (freqComplex p k).ap = -p.c2 * p.kappaOverIc k ∧ (freqComplex p k).am = p.c2 * p.kappaOverIc k := by
  have h1 : 0 ≤ p.k2 k := by unfold Par.k2; positivity
  have h2 := h.kd2_nonneg
  have h3 := h.2
  have e : √(p.f ^ 2 + p.c2 * p.k2 k) = p.c2 * √((p.k2 k + p.kd2) / p.c2) := by
    rw [Real.sqrt_eq_iff_mul_self_eq (by positivity) (by positivity), eq_comm]
    have := Real.mul_self_sqrt (show 0 ≤ (p.k2 k + p.kd2) / p.c2 by positivity)
    calc p.c2 * √((p.k2 k + p.kd2) / p.c2) * (p.c2 * √((p.k2 k + p.kd2) / p.c2))
        = p.c2 ^ 2 * (√((p.k2 k + p.kd2) / p.c2) * √((p.k2 k + p.kd2) / p.c2)) := by ring
      _ = p.f ^ 2 + p.c2 * p.k2 k := by rw [this]; simp only [Par.kd2]; field_simp; ring
  simp only [freqComplex, Par.kappaOverIc, e]
  constructor <;> (push_cast; ring)

/-- C39: the normal modes are the eigenmodes of the linear shallow-water equations, with the frequencies
given by `compute_freq_complex`; for the mean mode (inertial oscillations) if `f` is not negative. -/
theorem C39_eigenmodes (h : p.Ok) (k : Mode) (u : UEta) (hf : k ≠ 0 ∨ 0 ≤ p.f) :
    qapam p k (linSW p k u)
      = ⟨-(freqComplex p k).q * (qapam p k u).q, -(freqComplex p k).ap * (qapam p k u).ap,
          -(freqComplex p k).am * (qapam p k u).am⟩ := by
  have hc2 : (p.c2 : ℂ) ≠ 0 := by exact_mod_cast h.2.ne'
  by_cases hk : k = 0
  · subst hk
    have hf : 0 ≤ p.f := hf.resolve_left (by simp)
    have e : freqComplex p 0 = ⟨0, Complex.I * p.f, -Complex.I * p.f⟩ := by
      simp [freqComplex, Par.k2, Par.kx, Par.ky, Real.sqrt_sq hf]
    rw [e]
    simp only [qapam, if_true, linSW, Par.kx, Par.ky, divOf]
    ext
    · simp
    · simp only [Pi.zero_apply, Int.cast_zero, mul_zero, Complex.ofReal_zero]
      ring_nf; simp only [Complex.I_sq]; ring
    · simp only [Pi.zero_apply, Int.cast_zero, mul_zero, Complex.ofReal_zero]
      ring_nf; simp only [Complex.I_sq]; ring
  · obtain ⟨e1, e2⟩ := freq_kappa h k
    have e0 : (freqComplex p k).q = 0 := rfl
    have hrot : rotOf p k (linSW p k u).ux (linSW p k u).uy = -p.f * divOf p k u.ux u.uy := by
      simp only [rotOf, linSW, divOf]; ring
    have hdiv : divOf p k (linSW p k u).ux (linSW p k u).uy
        = p.c2 * (p.k2 k * u.eta + (p.f / p.c2 : ℝ) * rotOf p k u.ux u.uy) := by
      simp only [rotOf, linSW, divOf, Par.k2]
      push_cast
      field_simp
      ring_nf
      simp only [Complex.I_sq]
      ring
    have hsq := h.kappaOverIc_sq k
    have hkd : (p.kd2 : ℂ) = p.f / p.c2 * p.f := by simp only [Par.kd2]; push_cast; ring
    rw [hkd] at hsq
    rw [qapam_ne hk, qapam_ne hk, e0, e1, e2, hrot, hdiv]
    simp only [linSW]
    push_cast
    ext
    · simp only []; ring
    · simp only []
      linear_combination (-divOf p k u.ux u.uy / 2) * hsq
    · simp only []
      linear_combination (-divOf p k u.ux u.uy / 2) * hsq

/-- C39, finding: for a negative `f` (allowed: only its square enters `kd2`), the frequencies of the mean
mode given by `compute_freq_complex` have the wrong sign: the mean velocity turns in the wrong
direction. -/
theorem C39_inertial_violated (hf : p.f < 0) (u : UEta) :
    (qapam p 0 (linSW p 0 u)).ap = (freqComplex p 0).ap * (qapam p 0 u).ap ∧
    (qapam p 0 (linSW p 0 u)).am = (freqComplex p 0).am * (qapam p 0 u).am ∧
    (u.ux + Complex.I * u.uy ≠ 0 →
      (qapam p 0 (linSW p 0 u)).ap ≠ -(freqComplex p 0).ap * (qapam p 0 u).ap) := by
  have e : freqComplex p 0 = ⟨0, -Complex.I * p.f, Complex.I * p.f⟩ := by
    simp [freqComplex, Par.k2, Par.kx, Par.ky, Real.sqrt_sq_eq_abs, abs_of_neg hf]
  have h1 : (qapam p 0 (linSW p 0 u)).ap = (freqComplex p 0).ap * (qapam p 0 u).ap := by
    rw [e]
    simp only [qapam, if_true, linSW, Par.kx, Par.ky, divOf, Pi.zero_apply, Int.cast_zero, mul_zero,
      Complex.ofReal_zero]
    ring_nf; simp only [Complex.I_sq]; ring
  have h2 : (qapam p 0 (linSW p 0 u)).am = (freqComplex p 0).am * (qapam p 0 u).am := by
    rw [e]
    simp only [qapam, if_true, linSW, Par.kx, Par.ky, divOf, Pi.zero_apply, Int.cast_zero, mul_zero,
      Complex.ofReal_zero]
    ring_nf; simp only [Complex.I_sq]; ring
  refine ⟨h1, h2, fun h0 hc => ?_⟩
  rw [h1] at hc
  have h3 : (freqComplex p 0).ap * (qapam p 0 u).ap = 0 := by linear_combination hc / 2
  rw [e] at h3
  have hf' : (p.f : ℂ) ≠ 0 := by exact_mod_cast hf.ne
  have hq : (qapam p 0 u).ap = u.ux + Complex.I * u.uy := by simp [qapam]
  rw [hq] at h3
  exact (mul_ne_zero (mul_ne_zero (neg_ne_zero.mpr Complex.I_ne_zero) hf') h0) h3

theorem fft_add (n : Fin 2 → ℕ) (a b : Pt n → ℂ) (k : Mode) :
    fftCoef n (fun j => a j + b j) k = fftCoef n a k + fftCoef n b k := by
  simp only [fftCoef, add_mul, sum_add_distrib, add_div]

theorem fft_smul (n : Fin 2 → ℕ) (c : ℂ) (a : Pt n → ℂ) (k : Mode) :
    fftCoef n (fun j => c * a j) k = c * fftCoef n a k := by
  simp only [fftCoef, mul_assoc, ← mul_sum, mul_div_assoc]

/-- The tendency of sw1l: nonlinear terms (as written in sw1l.exactlin) and linear terms. -/
theorem sw1l_eq {n : Fin 2 → ℕ} (hn : ∀ d, 0 < n d) {S : Finset Mode} (hD : Distinct n S)
    (u : Mode → UEta) {k : Mode} (hk : k ∈ S) :
    let N := exactlinN p n S u (fun k => rotOf p k (u k).ux (u k).uy) k
    let L := linSW p k (u k)
    sw1l p n S u k = ⟨N.ux + L.ux, N.uy + L.uy, N.eta + L.eta⟩ := by
  intro N L
  have g1 := fft_grid hn hD (fun k => (u k).ux) hk
  have g2 := fft_grid hn hD (fun k => (u k).uy) hk
  have g3 := fft_grid hn hD (fun k => (u k).eta) hk
  have hr : ∀ r : ℂ, (if p.f ≠ 0 then r + p.f else r) = r + p.f := by
    intro r; split
    · rfl
    · rename_i h; have h : p.f = 0 := by simpa using h
      simp [h]
  have hp : fftCoef n (fun j => p.c2 * gridVal n S (fun k => (u k).eta) j
      + 0.5 * (gridVal n S (fun k => (u k).ux) j ^ 2 + gridVal n S (fun k => (u k).uy) j ^ 2)) k
      = p.c2 * (u k).eta + fftCoef n (fun j => gridVal n S (fun k => (u k).ux) j ^ 2
          + gridVal n S (fun k => (u k).uy) j ^ 2) k / 2 := by
    rw [fft_add, fft_smul, fft_smul, g3]; ring
  have hm : ∀ (c : ℂ) (a b : Pt n → ℂ), fftCoef n (fun j => (a j + c) * b j) k
      = fftCoef n (fun j => a j * b j) k + c * fftCoef n b k := by
    intro c a b
    rw [← fft_smul, ← fft_add]
    exact congrArg (fun F => fftCoef n F k) (funext fun j => by ring)
  have hm' : ∀ (c : ℂ) (a b : Pt n → ℂ), fftCoef n (fun j => -(a j + c) * b j) k
      = fftCoef n (fun j => -a j * b j) k + -c * fftCoef n b k := by
    intro c a b
    rw [← fft_smul, ← fft_add]
    exact congrArg (fun F => fftCoef n F k) (funext fun j => by ring)
  simp only [sw1l, trunc, if_pos hk, hr, hp, hm, hm', g1, g2, N, L, exactlinN, linSW, divOf]
  ext
  · simp only []; ring
  · simp only []; ring
  · simp only []; ring

/-- C56: sw1l.exactlin integrates the same equations as sw1l: the right-hand side of the equation of the
normal modes (nonlinear terms minus frequency times mode) is the conversion to normal modes of the tendency
of sw1l for the same velocity and surface displacement. For every state without mean potential vorticity,
every kept wavenumber, and for the mean mode if `f` is not negative (see `C39_inertial_violated`). -/
theorem C56_exactlin_same_equations (h : p.Ok) {n : Fin 2 → ℕ} (hn : ∀ d, 0 < n d) {S : Finset Mode}
    (hD : Distinct n S) (s : Mode → QA) (hq : (s 0).q = 0) {k : Mode} (hk : k ∈ S)
    (hf : k ≠ 0 ∨ 0 ≤ p.f) :
    exactlinRhs p n S s k = qapam p k (sw1l p n S (fun k => uEtaFrom p k (s k)) k) := by
  have hrot : (fun k => (s k).q + p.f * (uEtaFrom p k (s k)).eta)
      = fun k => rotOf p k (uEtaFrom p k (s k)).ux (uEtaFrom p k (s k)).uy := by
    funext m
    by_cases hm : m = 0
    · subst hm
      simp [rotOf, Par.kx, Par.ky, hq, uEtaFrom, fromA, fromQ, etaFromA, invLap]
    · rw [rot_uEtaFrom h hm]
      have e := uEtaFrom_ne h hm (s m)
      simp only [] at e
      rw [e]
      have hκ : (p.k2 m : ℂ) + p.kd2 ≠ 0 := by
        have h1 := h.k2_pos hm
        have h2 := h.kd2_nonneg
        exact_mod_cast (by positivity : p.k2 m + p.kd2 ≠ 0)
      have hkd : (p.kd2 : ℂ) = p.f ^ 2 / p.c2 := by simp only [Par.kd2]; push_cast; ring
      rw [eq_div_iff hκ, add_mul, mul_assoc, div_mul_cancel₀ _ hκ, hkd]
      ring
  have hs : qapam p k (uEtaFrom p k (s k)) = s k := by
    by_cases hm : k = 0
    · subst hm; exact (C39_mean ⟨0, 0, 0⟩ (s 0) hq).2.2
    · exact C39_roundtrip_qapam h hm (s k)
  have e := sw1l_eq (p := p) hn hD (fun k => uEtaFrom p k (s k)) hk
  simp only [] at e
  rw [e, qapam_add, C39_eigenmodes h k _ hf, hs]
  simp only [exactlinRhs, exactlin, if_pos hk, hrot]
  ext
  · simp only []; ring
  · simp only []; ring
  · simp only []; ring

/-- Parameters, set of modes and state meeting the hypotheses of C56. -/
example : ∃ (p : Par) (n : Fin 2 → ℕ) (S : Finset Mode) (s : Mode → QA), p.Ok ∧ (∀ d, 0 < n d) ∧
    Distinct n S ∧ (s 0).q = 0 ∧ 0 ≤ p.f ∧ 0 ∈ S ∧ ∃ k ∈ S, k ≠ 0 ∧ s k ≠ ⟨0, 0, 0⟩ := by
  refine ⟨⟨fun _ => 1, 1, 20⟩, fun _ => 4, {0, ![1, 0]}, fun k => if k = 0 then ⟨0, 1, 1⟩ else ⟨1, 2, 3⟩,
    ⟨fun _ => one_ne_zero, by norm_num⟩, fun _ => by norm_num, ?_, by simp, zero_le_one, by simp,
    ![1, 0], by simp, fun h => by simpa using congrFun h 0, fun h => ?_⟩
  · intro a ha b hb hab
    simp only [mem_insert, mem_singleton] at ha hb
    rcases ha with rfl | rfl <;> rcases hb with rfl | rfl
    · rfl
    · have := hab 0; revert this; simp
    · have := hab 0; revert this; simp
    · rfl
  · have h0 : (![1, 0] : Mode) ≠ 0 := fun h => by simpa using congrFun h 0
    simp only [if_neg h0] at h
    simpa using congrArg QA.q h

/-- C56: sw1l conserves the mean surface displacement (mass), whatever the state and the truncation. -/
theorem C56_mass (n : Fin 2 → ℕ) (S : Finset Mode) (u : Mode → UEta) : (sw1l p n S u 0).eta = 0 := by
  simp only [sw1l, trunc]
  split
  · simp [divOf, Par.kx, Par.ky]
  · rfl

/-! ### C54: sw1l.modified -/

/-- Rate of change of the quadratic energy `1/2 Σ (|u|² + c2 |eta|²)` when `u` has the tendency `T`. -/
def rateQuadratic (p : Par) (S : Finset Mode) (u T : Mode → UEta) : ℝ :=
  rate S (fun k => (u k).ux) (fun k => (T k).ux) + rate S (fun k => (u k).uy) (fun k => (T k).uy)
    + p.c2 * rate S (fun k => (u k).eta) (fun k => (T k).eta)

/-- C54: the tendencies of sw1l.modified conserve the quadratic energy, for every real state and every
alias-free truncation, and the mean surface displacement. -/
theorem C54_energy {n : Fin 2 → ℕ} (hn : ∀ d, 0 < n d) {S : Finset Mode} (hS : TriadExact n S)
    (hD : Distinct n S) (u : Mode → UEta) (hx : RealOn S fun k => (u k).ux)
    (hy : RealOn S fun k => (u k).uy) (he : RealOn S fun k => (u k).eta) :
    rateQuadratic p S u (modified p n S u) = 0 := by
  set r : Fld (Fin 2) := fun k => rotOf p k (u k).ux (u k).uy with hr
  have hadv : ∀ (a : Fld (Fin 2)) (j : Pt n),
      -gridVal n S (fun k => (vecFromRot (p.kx k) (p.ky k) (r k)).1) j * gridVal n S (deriv p.δ 0 a) j
        - gridVal n S (fun k => (vecFromRot (p.kx k) (p.ky k) (r k)).2) j * gridVal n S (deriv p.δ 1 a) j
      = jac n S p.δ (psi p.δ r) a j := by
    intro a j
    have h1 : (fun k => (vecFromRot (p.kx k) (p.ky k) (r k)).1) = ux2 p.δ r := rfl
    have h2 : (fun k => (vecFromRot (p.kx k) (p.ky k) (r k)).2) = uy2 p.δ r := rfl
    rw [h1, h2, uy2_grid, ux2_psi]; simp only [jac]; ring
  -- the advection does no work
  have hwork : ∀ a : Fld (Fin 2), RealOn S a →
      ∑ k ∈ S, (fftCoef n (jac n S p.δ (psi p.δ r) a) k * (starRingEnd ℂ) (a k)).re = 0 := by
    intro a ha
    rw [← Complex.re_sum, parseval_real n _ ha, jac_self hn hS, Complex.zero_re]
  have g1 : ∀ k ∈ S, fftCoef n (gridVal n S fun k => (u k).ux) k = (u k).ux := fun k hk =>
    fft_grid hn hD (fun k => (u k).ux) hk
  have g2 : ∀ k ∈ S, fftCoef n (gridVal n S fun k => (u k).uy) k = (u k).uy := fun k hk =>
    fft_grid hn hD (fun k => (u k).uy) hk
  have hT : ∀ k ∈ S, modified p n S u k =
      ⟨p.f * (u k).uy + fftCoef n (jac n S p.δ (psi p.δ r) fun k => (u k).ux) k
          - Complex.I * p.kx k * (p.c2 * (u k).eta),
        -p.f * (u k).ux + fftCoef n (jac n S p.δ (psi p.δ r) fun k => (u k).uy) k
          - Complex.I * p.ky k * (p.c2 * (u k).eta),
        fftCoef n (jac n S p.δ (psi p.δ r) fun k => (u k).eta) k - divOf p k (u k).ux (u k).uy⟩ := by
    intro k hk
    simp only [modified, trunc, if_pos hk]
    simp only [hr] at hadv
    simp only [hadv, fft_add, fft_smul, g1 k hk, g2 k hk, hr]
  have hsum : rateQuadratic p S u (modified p n S u) =
      ∑ k ∈ S, (fftCoef n (jac n S p.δ (psi p.δ r) fun k => (u k).ux) k * (starRingEnd ℂ) (u k).ux).re
      + ∑ k ∈ S, (fftCoef n (jac n S p.δ (psi p.δ r) fun k => (u k).uy) k * (starRingEnd ℂ) (u k).uy).re
      + p.c2 * ∑ k ∈ S,
          (fftCoef n (jac n S p.δ (psi p.δ r) fun k => (u k).eta) k * (starRingEnd ℂ) (u k).eta).re := by
    simp only [rateQuadratic, rate, mul_sum, ← sum_add_distrib]
    refine sum_congr rfl fun k hk => ?_
    rw [hT k hk]
    simp only [divOf, add_mul, sub_mul, Complex.add_re, Complex.sub_re, Complex.mul_re, Complex.mul_im,
      Complex.add_im, Complex.I_re, Complex.I_im, Complex.ofReal_re, Complex.ofReal_im,
      Complex.conj_re, Complex.conj_im, Complex.neg_re, Complex.neg_im]
    ring
  rw [hsum, hwork _ hx, hwork _ hy, hwork _ he]
  ring

/-! ### C55: sw1l.onlywaves -/

/-- C55: evaluated on the global state of the simulation (or for `f = 0`), the tendency of sw1l.onlywaves
is the wave part of the tendency of sw1l.exactlin for the same waves without potential vorticity. Missing:
the other states given by the time schemes and negative `f`, see the two findings. -/
theorem C55_onlywaves_partial (n : Fin 2 → ℕ) (S : Finset Mode) (g s : Mode → ℂ × ℂ)
    (hg : p.f = 0 ∨ 0 < p.f ∧ g = s) (k : Mode) :
    onlywaves p n S g s k
      = ((exactlin p n S (fun k => ⟨0, (s k).1, (s k).2⟩) k).ap,
          (exactlin p n S (fun k => ⟨0, (s k).1, (s k).2⟩) k).am) := by
  have hrot : (if p.f > 0 then fun k => rotFromA p k ((g k).1 + (g k).2) else fun _ => (0 : ℂ))
      = fun k => (0 : ℂ) + p.f * (uEtaFrom p k ⟨0, (s k).1, (s k).2⟩).eta := by
    rcases hg with hf | ⟨hf, rfl⟩
    · simp [hf]
    · rw [if_pos hf]
      funext m
      simp only [rotFromA, if_neg hf.ne', uEtaFrom]
      by_cases hm : m = 0
      · simp [hm, etaFromA, invLap, fromA, fromQ]
      · simp [hm, etaFromA, invLap, fromA, fromQ]
  simp only [onlywaves, exactlin, hrot]
  split <;> rfl

/-- The uniform flow `ux = 1` as a state of sw1l.onlywaves. -/
def uniform : Mode → ℂ × ℂ := fun k => if k = 0 then (1, 1) else (0, 0)

theorem uEtaFrom_uniform (k : Mode) :
    uEtaFrom p k ⟨0, (uniform k).1, (uniform k).2⟩ = if k = 0 then ⟨1, 0, 0⟩ else ⟨0, 0, 0⟩ := by
  by_cases hk : k = 0
  · subst hk
    simp only [uniform, uEtaFrom, if_true, fromA, fromQ, etaFromA, invLap]
    ext
    · norm_num
    · simp
    · simp
  · simp only [uniform, if_neg hk, uEtaFrom, fromA, fromQ, etaFromA, invLap, vecFromRot, vecFromDiv,
      divFromApAm]
    ext <;> simp

theorem grid_zero_mode {n : Fin 2 → ℕ} {S : Finset Mode} (h0 : (0 : Mode) ∈ S) (c : ℂ) (j : Pt n) :
    gridVal n S (fun k => if k = 0 then c else 0) j = c := by
  simp only [gridVal, ite_mul, zero_mul]
  rw [sum_ite_eq' S 0, if_pos h0]
  simp [chi]

/-- C55, finding: with `f > 0` the tendency computed by sw1l.onlywaves for a given state depends on the
global state of the simulation: for the uniform flow, it is proportional to the wave `g` present in the
global state, whatever `g`. (The Runge-Kutta schemes evaluate tendencies of intermediate states.) The
tendency of the same uniform flow in sw1l.exactlin is zero. -/
theorem C55_global_state_violated (h : p.Ok) (hf : 0 < p.f) {n : Fin 2 → ℕ} (hn : ∀ d, 0 < n d)
    {S : Finset Mode} (hD : Distinct n S) (h0 : (0 : Mode) ∈ S) {k : Mode} (hk : k ∈ S) (hk0 : k ≠ 0)
    (hky : k 1 = 0) (g : Mode → ℂ × ℂ) :
    (onlywaves p n S g uniform k).1 = -Complex.I * p.kx k *
        (p.f ^ 2 / (2 * p.c2 * (p.k2 k + p.kd2)) : ℝ) * ((g k).1 + (g k).2) ∧
    (exactlin p n S (fun k => ⟨0, (uniform k).1, (uniform k).2⟩) k).ap = 0 := by
  have key : ∀ r : Fld (Fin 2),
      exactlinN p n S (fun k => uEtaFrom p k ⟨0, (uniform k).1, (uniform k).2⟩) r k = ⟨0, -r k, 0⟩ := by
    intro r
    have e1 : ∀ j : Pt n, gridVal n S (fun k => (if k = 0 then (⟨1, 0, 0⟩ : UEta) else ⟨0, 0, 0⟩).ux) j
        = 1 := by
      intro j
      have : (fun k : Mode => (if k = 0 then (⟨1, 0, 0⟩ : UEta) else ⟨0, 0, 0⟩).ux)
          = fun k => if k = 0 then 1 else 0 := by funext m; split <;> rfl
      rw [this, grid_zero_mode h0]
    have e2 : ∀ j : Pt n, gridVal n S (fun k => (if k = 0 then (⟨1, 0, 0⟩ : UEta) else ⟨0, 0, 0⟩).uy) j
        = 0 := by
      intro j
      have : (fun k : Mode => (if k = 0 then (⟨1, 0, 0⟩ : UEta) else ⟨0, 0, 0⟩).uy)
          = fun k => if k = 0 then 0 else 0 := by funext m; split <;> rfl
      rw [this, grid_zero_mode h0]
    have e3 : ∀ j : Pt n, gridVal n S (fun k => (if k = 0 then (⟨1, 0, 0⟩ : UEta) else ⟨0, 0, 0⟩).eta) j
        = 0 := by
      intro j
      have : (fun k : Mode => (if k = 0 then (⟨1, 0, 0⟩ : UEta) else ⟨0, 0, 0⟩).eta)
          = fun k => if k = 0 then 0 else 0 := by funext m; split <;> rfl
      rw [this, grid_zero_mode h0]
    have hc : ∀ c : ℂ, fftCoef n (fun _ => c) k = 0 := by
      intro c
      have h1 := fft_grid hn hD (fun k => if k = 0 then c else 0) hk
      have h2 : gridVal n S (fun k => if k = 0 then c else 0) = fun _ : Pt n => c :=
        funext fun j => grid_zero_mode h0 c j
      rw [h2, if_neg hk0] at h1
      exact h1
    have hr : fftCoef n (fun j => -gridVal n S r j) k = -r k := by
      have h1 := fft_smul n (-1) (gridVal n S r) k
      rw [fft_grid hn hD r hk] at h1
      simpa using h1
    simp only [exactlinN, uEtaFrom_uniform, e1, e2, e3, mul_zero, mul_one, hc, hr, divOf]
    ext <;> simp
  constructor
  · simp only [onlywaves, if_pos hk, if_pos hf, key, qapam_ne hk0, rotOf, divOf, rotFromA, if_neg hf.ne',
      etaFromA, invLap, if_neg hk0, h.kappa2not0 hk0]
    have hy : p.ky k = 0 := by simp [Par.ky, hky]
    rw [hy]
    push_cast
    have hc2 : (p.c2 : ℂ) ≠ 0 := by exact_mod_cast h.2.ne'
    have hκ : (p.k2 k : ℂ) + p.kd2 ≠ 0 := by
      have h1 := h.k2_pos hk0
      have h2 := h.kd2_nonneg
      exact_mod_cast (by positivity : p.k2 k + p.kd2 ≠ 0)
    field_simp
    ring
  · simp only [exactlin, if_pos hk, key, qapam_ne hk0, rotOf, divOf]
    simp [uEtaFrom_uniform, hk0]

/-- The set of modes `0`, `(1, 0)` and `(-1, 0)`. -/
def three : Finset Mode := {0, ![1, 0], ![-1, 0]}

theorem three_distinct : Distinct (fun _ => 4) three := by
  intro a ha b hb hab
  simp only [three, mem_insert, mem_singleton] at ha hb
  have := hab 0
  rcases ha with rfl | rfl | rfl <;> rcases hb with rfl | rfl | rfl <;>
    first | rfl | (exfalso; revert this; simp; try decide)

example : ∃ k ∈ three, k ≠ 0 ∧ k 1 = 0 ∧ (⟨fun _ => 1, 1, 20⟩ : Par).kx k ≠ 0 :=
  ⟨![1, 0], by simp [three], fun h => by simpa using congrFun h 0, rfl, by simp [Par.kx]⟩

/-- A progressive wave. -/
def wave : Mode → ℂ × ℂ := fun k => if k = ![1, 0] then (1, 0) else if k = ![-1, 0] then (0, 1) else (0, 0)

/-- C55, finding: with `f < 0` sw1l.onlywaves drops the vorticity (the waves have the vorticity `f eta`):
even evaluated on the global state of the simulation, its tendency is not the one of sw1l.exactlin. Here
`f = -1`, `c2 = 1`, a real progressive wave on a 4 x 4 grid. -/
theorem C55_negative_f_violated :
    let p : Par := ⟨fun _ => 1, -1, 1⟩
    let n : Fin 2 → ℕ := fun _ => 4
    let u := fun k => uEtaFrom p k ⟨0, (wave k).1, (wave k).2⟩
    RealOn three (fun k => (u k).ux) ∧ RealOn three (fun k => (u k).uy) ∧
      RealOn three (fun k => (u k).eta) ∧
    (onlywaves p n three wave wave 0).1
      ≠ (exactlin p n three (fun k => ⟨0, (wave k).1, (wave k).2⟩) 0).ap := by
  intro p n u
  have hp : p.Ok := ⟨fun _ => one_ne_zero, one_pos⟩
  have n1 : (![1, 0] : Mode) ≠ 0 := fun h => by simpa using congrFun h 0
  have n2 : (![-1, 0] : Mode) ≠ 0 := fun h => by simpa using congrFun h 0
  have n3 : (![-1, 0] : Mode) ≠ ![1, 0] := fun h => by have := congrFun h 0; simp at this
  have n4 : -(![1, 0] : Mode) = ![-1, 0] := by simp
  have n5 : -(![-1, 0] : Mode) = ![1, 0] := by simp
  have hκ1 : p.kappaOverIc ![1, 0] = -1 * Complex.I * (√2 : ℝ) := by
    simp only [Par.kappaOverIc, Par.k2, Par.kx, Par.ky, Par.kd2, p]; norm_num
  have hκ2 : p.kappaOverIc ![-1, 0] = -1 * Complex.I * (√2 : ℝ) := by
    simp only [Par.kappaOverIc, Par.k2, Par.kx, Par.ky, Par.kd2, p]; norm_num
  have hs0 : ((√2 : ℝ) : ℂ) ≠ 0 := by
    exact_mod_cast (Real.sqrt_pos.mpr (by norm_num : (0 : ℝ) < 2)).ne'
  have k1 : p.k2 ![1, 0] = 1 := by simp [Par.k2, Par.kx, Par.ky, p]
  have k2 : p.k2 ![-1, 0] = 1 := by simp [Par.k2, Par.kx, Par.ky, p]
  have kd : p.kd2 = 1 := by simp [Par.kd2, p]
  have u0 : u 0 = ⟨0, 0, 0⟩ := by
    simp only [u, wave, uEtaFrom, if_true, if_neg n1.symm, if_neg n2.symm, fromA, fromQ, etaFromA, invLap]
    ext <;> simp
  have u1 : u ![1, 0] = ⟨1 / (√2 : ℝ), Complex.I / 2, 1 / 2⟩ := by
    have e := uEtaFrom_ne hp n1 ⟨0, (wave ![1, 0]).1, (wave ![1, 0]).2⟩
    simp only [] at e
    simp only [u]
    rw [e, k1, kd, hκ1]
    simp only [wave, if_true, p, Par.kx, Par.ky]
    ext
    · simp
      linear_combination (-((√2 : ℝ) : ℂ)⁻¹) * Complex.I_sq
    · simp; ring
    · simp; ring
  have u2 : u ![-1, 0] = ⟨1 / (√2 : ℝ), -Complex.I / 2, 1 / 2⟩ := by
    have e := uEtaFrom_ne hp n2 ⟨0, (wave ![-1, 0]).1, (wave ![-1, 0]).2⟩
    simp only [] at e
    simp only [u]
    rw [e, k2, kd, hκ2]
    simp only [wave, if_true, if_neg n3, p, Par.kx, Par.ky]
    ext
    · simp
      linear_combination (-((√2 : ℝ) : ℂ)⁻¹) * Complex.I_sq
    · simp; ring
    · simp; ring
  have hmem : ∀ k ∈ three, -k ∈ three := by
    intro k hk
    simp only [three, mem_insert, mem_singleton] at hk ⊢
    rcases hk with rfl | rfl | rfl
    · simp
    · rw [n4]; simp
    · rw [n5]; simp
  have real : ∀ c : UEta → ℂ, c (u 0) = 0 → c (u ![-1, 0]) = (starRingEnd ℂ) (c (u ![1, 0])) →
      RealOn three (fun k => c (u k)) := by
    intro c hc0 hc k hk
    refine ⟨hmem k hk, ?_⟩
    simp only [three, mem_insert, mem_singleton] at hk
    rcases hk with rfl | rfl | rfl
    · simp only [neg_zero, hc0, map_zero]
    · rw [n4]; exact hc
    · rw [n5]; simp only [hc, Complex.conj_conj]
  have rx : RealOn three (fun k => (u k).ux) := real UEta.ux (by rw [u0]) (by
    rw [u1, u2]; simp)
  have ry : RealOn three (fun k => (u k).uy) := real UEta.uy (by rw [u0]) (by
    rw [u1, u2]; simp [Complex.conj_ofNat])
  have re : RealOn three (fun k => (u k).eta) := real UEta.eta (by rw [u0]) (by
    rw [u1, u2]; simp [Complex.conj_ofNat])
  refine ⟨rx, ry, re, fun hc => ?_⟩
  have m0 : (0 : Mode) ∈ three := by simp [three]
  -- the difference is the term of the vorticity
  set r : Fld (Fin 2) := fun k => (0 : ℂ) + p.f * (u k).eta with hr
  have hzero : ∀ j : Pt n, gridVal n three (fun _ => (0 : ℂ)) j = 0 := fun j => by simp [gridVal]
  have hfz : fftCoef n (fun _ => (0 : ℂ)) 0 = 0 := by simp [fftCoef]
  have hpf : ¬ p.f > 0 := by simp only [p]; norm_num
  have hd : fftCoef n (fun j => gridVal n three r j * gridVal n three (fun k => (u k).uy) j) 0
      + 1 * Complex.I * fftCoef n (fun j => -gridVal n three r j * gridVal n three (fun k => (u k).ux) j) 0
      = 0 := by
    simp only [onlywaves, exactlin, if_pos m0, if_neg hpf, qapam, if_true, exactlinN, hzero, zero_mul,
      neg_zero, hfz] at hc
    simp only [u, r] at hc ⊢
    linear_combination -hc
  have hmean : ∀ x : Pt n → ℂ, fftCoef n x 0 = gmean n x := by
    intro x; simp [fftCoef, gmean, chi]
  have hn : ∀ d, 0 < n d := fun _ => by simp [n]
  have g : ∀ (c : UEta → ℂ), RealOn three (fun k => c (u k)) →
      gmean n (fun j => gridVal n three r j * gridVal n three (fun k => c (u k)) j)
        = ∑ k ∈ three, r k * (starRingEnd ℂ) (c (u k)) := by
    intro c hcr
    rw [← parseval_real n _ hcr]
    exact sum_congr rfl fun k hk => by rw [fft_grid hn three_distinct r hk]
  have gx := g UEta.ux rx
  have gy := g UEta.uy ry
  have hneg : gmean n (fun j => -gridVal n three r j * gridVal n three (fun k => (u k).ux) j)
      = -gmean n (fun j => gridVal n three r j * gridVal n three (fun k => (u k).ux) j) := by
    rw [← gmean_neg]; exact gmean_congr n fun j => by ring
  rw [hmean, hmean, hneg, gx, gy] at hd
  simp only [three] at hd
  rw [sum_insert (by simp [n1.symm, n2.symm]), sum_insert (by simp [n3.symm]), sum_singleton,
    sum_insert (by simp [n1.symm, n2.symm]), sum_insert (by simp [n3.symm]), sum_singleton] at hd
  simp only [hr, u0, u1, u2, p] at hd
  simp at hd
  field_simp at hd
  revert hd
  simp
  try norm_num

end

end Verif.Sw1l
