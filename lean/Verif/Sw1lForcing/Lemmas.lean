import Verif.Sw1lForcing.Spec
import Verif.Forcing.Lemmas

/-! # Lemmas on the forcings of sw1l -/

set_option linter.unusedSectionVars false

namespace Verif.Sw1lForcing

open Verif.Sw1l Verif.Forcing Verif.Energy Verif.Fourier Finset

noncomputable section

variable {p : Par} {M S : Finset Mode} {w : Mode → ℝ}

/-- Inner product of the quadratic energy at one mode. -/
def inner (c2 : ℝ) (s F : UEta) : ℝ :=
  ((starRingEnd ℂ) s.ux * F.ux).re + ((starRingEnd ℂ) s.uy * F.uy).re
    + c2 * ((starRingEnd ℂ) s.eta * F.eta).re

theorem normsq_add (u f : ℂ) (dt : ℝ) :
    ‖u + dt * f‖ ^ 2 = ‖u‖ ^ 2 + 2 * dt * ((starRingEnd ℂ) u * f).re + dt ^ 2 * ‖f‖ ^ 2 := by
  rw [← Complex.normSq_eq_norm_sq, ← Complex.normSq_eq_norm_sq, ← Complex.normSq_eq_norm_sq,
    Complex.normSq_apply, Complex.normSq_apply, Complex.normSq_apply]
  simp
  ring

/-- The input is the sum of the power and of half the square of the force times the step. -/
theorem input_eq (M : Finset Mode) (w : Mode → ℝ) (c2 : ℝ) {dt : ℝ} (hdt : dt ≠ 0) (s F : Mode → UEta) :
    input M w c2 dt s F = ∑ k ∈ M, w k * (inner c2 (s k) (F k)
      + dt / 2 * (‖(F k).ux‖ ^ 2 + ‖(F k).uy‖ ^ 2 + c2 * ‖(F k).eta‖ ^ 2)) := by
  unfold input energy
  rw [← Finset.sum_sub_distrib, div_eq_iff hdt, Finset.sum_mul]
  refine Finset.sum_congr rfl fun k _ => ?_
  simp only [kick, inner, normsq_add]
  ring

theorem abUEta_eq (p : Par) (M : Finset Mode) (w : Mode → ℝ) (dt : ℝ) (F s : Mode → UEta) :
    abUEta p M w dt F s = (∑ k ∈ M, w k * (dt / 2 * (‖(F k).ux‖ ^ 2 + ‖(F k).uy‖ ^ 2
      + p.c2 * ‖(F k).eta‖ ^ 2)), ∑ k ∈ M, w k * inner p.c2 (s k) (F k)) := by
  simp only [abUEta, sumM, Finset.mul_sum, ← Finset.sum_add_distrib, inner]
  congr 1
  · refine Finset.sum_congr rfl fun k _ => ?_
    ring
  · refine Finset.sum_congr rfl fun k _ => ?_
    ring

/-- Multiplication of the three components by a real. -/
def smul (c : ℝ) (F : UEta) : UEta := ⟨F.ux * c, F.uy * c, F.eta * c⟩

theorem inner_smul (c2 c : ℝ) (s F : UEta) : inner c2 s (smul c F) = c * inner c2 s F := by
  simp only [inner, smul]
  simp
  ring

theorem input_smul (M : Finset Mode) (w : Mode → ℝ) (p : Par) {dt : ℝ} (hdt : dt ≠ 0) (c : ℝ)
    (s F : Mode → UEta) :
    input M w p.c2 dt s (fun k => smul c (F k))
      = (abUEta p M w dt F s).1 * c ^ 2 + (abUEta p M w dt F s).2 * c := by
  rw [input_eq M w _ hdt, abUEta_eq]
  simp only [Finset.sum_mul, ← Finset.sum_add_distrib]
  refine Finset.sum_congr rfl fun k _ => ?_
  rw [inner_smul]
  simp only [smul, norm_mul, Complex.norm_real, mul_pow, Real.norm_eq_abs, sq_abs]
  ring

theorem fromA_smul (k : Mode) (c : ℝ) (a : ℂ) : fromA p k (a * c) = smul c (fromA p k a) := by
  ext <;> simp only [fromA, etaFromA, invLap, smul, vecFromRot] <;> split_ifs <;> ring

theorem fromQ_smul (k : Mode) (c : ℝ) (a : ℂ) : fromQ p k (a * c) = smul c (fromQ p k a) := by
  ext <;> simp only [fromQ, invLap, smul, vecFromRot] <;> split_ifs <;> ring

theorem fromA_zero (k : Mode) : fromA p k 0 = ⟨0, 0, 0⟩ := by
  ext <;> simp [fromA, etaFromA, invLap, vecFromRot]

theorem fromQ_zero (k : Mode) : fromQ p k 0 = ⟨0, 0, 0⟩ := by
  ext <;> simp [fromQ, invLap, vecFromRot]

theorem initA_region {F : Fld (Fin 2)} (h : Region M S F) {k : Mode} (hk : k ∈ M) :
    initA p S F k = fromA p k (F k) := by
  simp only [initA, trunc]
  split
  · rfl
  · rename_i hS
    have : F k = 0 := by by_contra h0; exact hS (h k hk h0).1
    rw [this, fromA_zero]

theorem initQ_eq (q : Fld (Fin 2)) (k : Mode) (hS : k ∈ S) : initQ p S q k = fromQ p k (q k) := by
  ext <;> simp only [initQ, trunc, if_pos hS, fromQ, rotFromQ, etaFromQ]
  split_ifs <;> push_cast <;> ring

theorem initQ_region {F : Fld (Fin 2)} (h : Region M S F) {k : Mode} (hk : k ∈ M) :
    initQ p S F k = fromQ p k (F k) := by
  by_cases hS : k ∈ S
  · exact initQ_eq F k hS
  · have : F k = 0 := by by_contra h0; exact hS (h k hk h0).1
    rw [this, fromQ_zero]
    simp [initQ, trunc, hS]

theorem conj_rot (k : Mode) (u v : ℂ) : (starRingEnd ℂ) (rotOf p k u v)
    = Complex.I * (p.ky k * (starRingEnd ℂ) u - p.kx k * (starRingEnd ℂ) v) := by
  simp only [rotOf, map_mul, map_sub, Complex.conj_I, Complex.conj_ofReal]
  ring

/-- The inner product with a state made from `a` depends on the state only through its own `a`. -/
theorem inner_fromA (h : p.Ok) {k : Mode} (hk : k ≠ 0) (s : UEta) (a : ℂ) :
    inner p.c2 s (fromA p k a)
      = (p.c2 / p.k2 k * ((starRingEnd ℂ) (aOf p k s) * etaFromA p k a)).re := by
  have hK : (p.k2 k : ℂ) ≠ 0 := by exact_mod_cast (h.k2_pos hk).ne'
  have hc2 : (p.c2 : ℂ) ≠ 0 := by exact_mod_cast h.2.ne'
  have key : ∀ z : ℂ, p.c2 * z.re = ((p.c2 : ℂ) * z).re := by intro z; simp
  unfold inner
  rw [key, ← Complex.add_re, ← Complex.add_re]
  congr 1
  simp only [fromA, aOf, vecFromRot, h.k2not0 hk]
  generalize etaFromA p k a = e
  by_cases hf : p.f = 0
  · simp only [hf, ne_eq, not_true_eq_false, if_false, if_true, map_mul, Complex.conj_ofReal]
    field_simp
    ring
  · simp only [hf, ne_eq, not_false_eq_true, if_false, if_true, map_mul, map_add, Complex.conj_ofReal,
      conj_rot]
    push_cast
    field_simp
    ring

theorem inner_fromQ (h : p.Ok) {k : Mode} (hk : k ≠ 0) (s : UEta) (q : ℂ) :
    inner p.c2 s (fromQ p k q) = ((starRingEnd ℂ) (qOf p k s) * invLap p k q).re := by
  have hK : (p.k2 k : ℂ) ≠ 0 := by exact_mod_cast (h.k2_pos hk).ne'
  have hc2 : (p.c2 : ℂ) ≠ 0 := by exact_mod_cast h.2.ne'
  have key : ∀ z : ℂ, p.c2 * z.re = ((p.c2 : ℂ) * z).re := by intro z; simp
  unfold inner
  rw [key, ← Complex.add_re, ← Complex.add_re]
  congr 1
  simp only [fromQ, qOf, vecFromRot, h.k2not0 hk]
  generalize invLap p k q = e
  by_cases hf : p.f = 0
  · simp only [hf, if_true, map_sub, map_mul, Complex.conj_ofReal, conj_rot]
    push_cast
    field_simp
    ring
  · simp only [hf, if_false, map_sub, map_mul, Complex.conj_ofReal, conj_rot]
    field_simp
    ring

theorem aOf_fromA (h : p.Ok) {k : Mode} (hk : k ≠ 0) (a : ℂ) : aOf p k (fromA p k a) = a := by
  have := (C39_init_q_a h {k} (fun _ => a) (fun _ => a) (mem_singleton_self k) hk).2.2.1
  simpa [initA, trunc] using this

theorem qOf_fromA (h : p.Ok) {k : Mode} (hk : k ≠ 0) (a : ℂ) : qOf p k (fromA p k a) = 0 := by
  have := (C39_init_q_a h {k} (fun _ => a) (fun _ => a) (mem_singleton_self k) hk).2.1
  simpa [initA, trunc] using this

theorem qOf_fromQ (h : p.Ok) {k : Mode} (hk : k ≠ 0) (q : ℂ) : qOf p k (fromQ p k q) = q := by
  have := (C39_init_q_a h {k} (fun _ => q) (fun _ => q) (mem_singleton_self k) hk).1.1
  rwa [initQ_eq _ _ (mem_singleton_self k)] at this

theorem aOf_fromQ (h : p.Ok) {k : Mode} (hk : k ≠ 0) (q : ℂ) : aOf p k (fromQ p k q) = 0 := by
  have := (C39_init_q_a h {k} (fun _ => q) (fun _ => q) (mem_singleton_self k) hk).1.2.1
  rwa [initQ_eq _ _ (mem_singleton_self k)] at this

/-- The coefficients computed with the ageostrophic part of the state are those of the whole state. -/
theorem abWaves_eq (h : p.Ok) (dt : ℝ) {Fa : Fld (Fin 2)} (hF : Region M S Fa) (s : Mode → UEta) :
    abWaves p M w dt Fa (fun k => aOf p k (s k)) = abUEta p M w dt (fun k => fromA p k (Fa k)) s := by
  unfold abWaves
  rw [abUEta_eq, abUEta_eq]
  congr 1
  refine Finset.sum_congr rfl fun k hk => ?_
  by_cases h0 : Fa k = 0
  · simp [h0, fromA_zero, inner]
  · have hk0 := (hF k hk h0).2
    rw [inner_fromA h hk0, inner_fromA h hk0, aOf_fromA h hk0]

theorem abVortices_eq (h : p.Ok) (dt : ℝ) {Fq : Fld (Fin 2)} (hF : Region M S Fq) (s : Mode → UEta) :
    abVortices p M w dt Fq (fun k => qOf p k (s k)) = abUEta p M w dt (fun k => fromQ p k (Fq k)) s := by
  unfold abVortices
  rw [abUEta_eq, abUEta_eq]
  congr 1
  refine Finset.sum_congr rfl fun k hk => ?_
  by_cases h0 : Fq k = 0
  · simp [h0, fromQ_zero, inner]
  · have hk0 := (hF k hk h0).2
    rw [inner_fromQ h hk0, inner_fromQ h hk0, qOf_fromQ h hk0]

theorem norm_ok {which : String} {roots : Option (ℝ × ℝ)} {f g : Fld (Fin 2)}
    (h : normalize2nd which roots f = .ok g) :
    ∃ c, coefNormalization which roots = .ok c ∧ g = scale c f := by
  simp only [normalize2nd] at h
  cases hc : coefNormalization which roots with
  | error e => rw [hc] at h; cases h
  | ok c => rw [hc] at h; cases h; exact ⟨c, rfl, rfl⟩

theorem input_congr {c2 dt : ℝ} {s F G : Mode → UEta} (h : ∀ k ∈ M, F k = G k) :
    input M w c2 dt s F = input M w c2 dt s G := by
  unfold input energy
  congr 2
  refine Finset.sum_congr rfl fun k hk => ?_
  simp only [kick, h k hk]

theorem region_scale {F : Fld (Fin 2)} (h : Region M S F) (c : ℝ) : Region M S (scale c F) := by
  intro k hk h0
  apply h k hk
  intro h1
  exact h0 (by simp [scale, h1])

/-- The sum of two forces with no inner product. -/
theorem input_add (h : p.Ok) {dt : ℝ} (hdt : dt ≠ 0) {Fq Fa : Fld (Fin 2)}
    (ha : Region M S Fa) (s : Mode → UEta) :
    input M w p.c2 dt s (fun k => ⟨(fromQ p k (Fq k)).ux + (fromA p k (Fa k)).ux,
        (fromQ p k (Fq k)).uy + (fromA p k (Fa k)).uy, (fromQ p k (Fq k)).eta + (fromA p k (Fa k)).eta⟩)
      = input M w p.c2 dt s (fun k => fromQ p k (Fq k)) + input M w p.c2 dt s (fun k => fromA p k (Fa k)) := by
  rw [input_eq M w _ hdt, input_eq M w _ hdt, input_eq M w _ hdt, ← Finset.sum_add_distrib]
  refine Finset.sum_congr rfl fun k hk => ?_
  have horth : inner p.c2 (fromQ p k (Fq k)) (fromA p k (Fa k)) = 0 := by
    by_cases h0 : Fa k = 0
    · simp [h0, fromA_zero, inner]
    · have hk0 := (ha k hk h0).2
      rw [inner_fromA h hk0, aOf_fromQ h hk0]
      simp
  have hn : ∀ x y : ℂ, ‖x + y‖ ^ 2 = ‖x‖ ^ 2 + 2 * ((starRingEnd ℂ) x * y).re + ‖y‖ ^ 2 := by
    intro x y
    have := normsq_add x y 1
    simpa using this
  have hi : inner p.c2 (s k) ⟨(fromQ p k (Fq k)).ux + (fromA p k (Fa k)).ux,
        (fromQ p k (Fq k)).uy + (fromA p k (Fa k)).uy, (fromQ p k (Fq k)).eta + (fromA p k (Fa k)).eta⟩
      = inner p.c2 (s k) (fromQ p k (Fq k)) + inner p.c2 (s k) (fromA p k (Fa k)) := by
    simp only [inner, mul_add, Complex.add_re]
    ring
  rw [hi, hn, hn, hn]
  simp only [inner] at horth
  linear_combination (w k * dt) * horth

end

end Verif.Sw1lForcing
