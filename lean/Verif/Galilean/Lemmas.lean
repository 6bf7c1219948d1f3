import Verif.Galilean.Spec
import Verif.EndToEnd.PropsMore
import Verif.EndToEnd.PropsStrat

/-! # C104: lemmas -/

set_option linter.unusedSectionVars false

namespace Verif.Galilean

open Verif.Fourier Verif.Energy Verif.Galerkin Verif.Vectors Verif.EndToEnd Verif.Convergence Finset

noncomputable section

variable {D V : Type*} [Fintype D] [DecidableEq D]

/-- `k · U`. -/
def along (δ U : D → ℝ) (k : D → ℤ) : ℝ := ∑ d, δ d * k d * U d

def phase (δ U : D → ℝ) (t : ℝ) (k : D → ℤ) : ℂ := Complex.exp (-(Complex.I * ((∑ d, δ d * k d * (U d * t) : ℝ) : ℂ)))

def boost (δ U : D → ℝ) (m t : ℝ) (a : Fld D) : Fld D := fun k => phase δ U t k * a k + if k = 0 then (m : ℂ) else 0

theorem moving_eq (δ U : D → ℝ) (m : V → ℝ) (u : ℝ → V → Fld D) (t : ℝ) (v : V) :
    moving δ U m u t v = boost δ U (m v) t (u t v) := rfl

theorem phase_along (δ U : D → ℝ) (t : ℝ) (k : D → ℤ) :
    phase δ U t k = Complex.exp (-(Complex.I * ((along δ U k * t : ℝ) : ℂ))) := by
  simp only [phase, along, sum_mul, mul_assoc]

theorem phase_zero (δ U : D → ℝ) (t : ℝ) : phase δ U t 0 = 1 := by simp [phase]

theorem phase_time_zero (δ U : D → ℝ) (k : D → ℤ) : phase δ U 0 k = 1 := by simp [phase]

theorem phase_add (δ U : D → ℝ) (t : ℝ) (p q : D → ℤ) : phase δ U t (p + q) = phase δ U t p * phase δ U t q := by
  have : along δ U (p + q) = along δ U p + along δ U q := by
    simp only [along, ← sum_add_distrib, Pi.add_apply]
    exact sum_congr rfl fun d _ => by push_cast; ring
  rw [phase_along, phase_along, phase_along, ← Complex.exp_add, this]
  congr 1
  push_cast
  ring

theorem phase_neg (δ U : D → ℝ) (t : ℝ) (k : D → ℤ) : phase δ U t (-k) = (starRingEnd ℂ) (phase δ U t k) := by
  have : along δ U (-k) = -along δ U k := by
    simp only [along, ← sum_neg_distrib, Pi.neg_apply]
    exact sum_congr rfl fun d _ => by push_cast; ring
  rw [phase_along, phase_along, ← Complex.exp_conj, this]
  congr 1
  simp only [map_neg, map_mul, Complex.conj_I, Complex.conj_ofReal]
  push_cast
  ring

theorem phase_deriv (δ U : D → ℝ) (t : ℝ) (k : D → ℤ) :
    HasDerivAt (fun t => phase δ U t k) (-(Complex.I * along δ U k) * phase δ U t k) t := by
  have h1 : HasDerivAt (fun t : ℝ => ((along δ U k * t : ℝ) : ℂ)) (along δ U k : ℂ) t := by
    have := ((hasDerivAt_id t).const_mul (along δ U k)).ofReal_comp
    simpa using this
  have h2 := (h1.const_mul Complex.I).neg.cexp
  simp only [phase_along]
  refine h2.congr_deriv ?_
  simp only [Pi.neg_apply]
  ring

theorem boost_deriv (δ U : D → ℝ) (m : ℝ) {a : ℝ → Fld D} {k : D → ℤ} {a' : ℂ} {t : ℝ} (h : HasDerivAt (fun t => a t k) a' t) :
    HasDerivAt (fun t => boost δ U m t (a t) k) (phase δ U t k * (a' - Complex.I * along δ U k * a t k)) t := by
  have := ((phase_deriv δ U t k).mul h).add_const (if k = 0 then (m : ℂ) else 0)
  refine this.congr_deriv ?_
  ring

theorem boost_real {S : Finset (D → ℤ)} (h0 : (0 : D → ℤ) ∈ S) (δ U : D → ℝ) (m t : ℝ) {a : Fld D} (h : RealField S a) :
    RealField S (boost δ U m t a) := by
  refine ⟨fun k hk => ⟨(h.1 k hk).1, ?_⟩, fun k hk => ?_⟩
  · simp only [boost, phase_neg, (h.1 k hk).2, map_add, map_mul, neg_eq_zero]
    split_ifs <;> simp
  · have : k ≠ 0 := fun e => hk (e ▸ h0)
    simp [boost, h.2 k hk, this]

theorem pd_boost (δ U : D → ℝ) (m t : ℝ) (a : Fld D) (d : D) (k : D → ℤ) :
    pd δ d (boost δ U m t a) k = phase δ U t k * pd δ d a k := by
  simp only [pd, boost]
  by_cases h : k = 0
  · subst h
    simp
  · rw [if_neg h]
    ring

theorem exact_phase (S : Finset (D → ℤ)) (δ U : D → ℝ) (t : ℝ) (a b : Fld D) (k : D → ℤ) :
    exactProduct S (fun p => phase δ U t p * a p) (fun p => phase δ U t p * b p) k = phase δ U t k * exactProduct S a b k := by
  simp only [exactProduct, mul_sum]
  refine sum_congr rfl fun p _ => sum_congr rfl fun q _ => ?_
  split_ifs with h
  · rw [← h, phase_add]
    ring
  · ring

theorem exact_mean {S : Finset (D → ℤ)} (h0 : (0 : D → ℤ) ∈ S) (c : ℂ) (b : Fld D) {k : D → ℤ} (hk : k ∈ S) :
    exactProduct S (fun p => if p = 0 then c else 0) b k = c * b k := by
  simp only [exactProduct]
  rw [sum_eq_single_of_mem 0 h0]
  · rw [sum_eq_single_of_mem k hk]
    · simp
    · intro q _ hq
      simp [hq]
  · intro p _ hp
    simp [hp]

theorem exact_boost {S : Finset (D → ℤ)} (h0 : (0 : D → ℤ) ∈ S) (δ U : D → ℝ) (m t : ℝ) (a b : Fld D) {k : D → ℤ} (hk : k ∈ S) :
    exactProduct S (boost δ U m t a) (fun p => phase δ U t p * b p) k
      = phase δ U t k * (exactProduct S a b k + m * b k) := by
  have e : boost δ U m t a = fun p => phase δ U t p * a p + if p = 0 then (m : ℂ) else 0 := rfl
  rw [e, exact_add_left, exact_phase, exact_mean h0 _ _ hk]
  ring

theorem advect_boost {S : Finset (D → ℤ)} (h0 : (0 : D → ℤ) ∈ S) (δ U : D → ℝ) (m t : ℝ) (u : D → Fld D) (a : Fld D) {k : D → ℤ}
    (hk : k ∈ S) :
    advect S δ (fun d => boost δ U (U d) t (u d)) (boost δ U m t a) k
      = phase δ U t k * (advect S δ u a k + Complex.I * along δ U k * a k) := by
  have e : ∀ d, pd δ d (boost δ U m t a) = fun p => phase δ U t p * pd δ d a p := fun d => funext fun p => pd_boost δ U m t a d p
  simp only [advect, e, exact_boost h0 δ U _ t _ _ hk, mul_add, mul_sum, sum_add_distrib]
  congr 1
  rw [along]
  push_cast
  rw [mul_sum, sum_mul, mul_sum]
  refine sum_congr rfl fun d _ => ?_
  simp only [pd]
  push_cast
  ring

theorem dissipation_boost (δ U : D → ℝ) (nu : Dissip.Nu) (m t : ℝ) (a : Fld D) (k : D → ℤ) :
    dissipation δ nu (boost δ U m t a) k = phase δ U t k * dissipation δ nu a k := by
  simp only [dissipation, boost]
  by_cases h : k = 0
  · subst h
    simp
  · rw [if_neg h]
    ring

theorem phase_force {δ U : D → ℝ} {F : V → Fld D} (h : NotAlong δ U F) (t : ℝ) (v : V) (k : D → ℤ) :
    phase δ U t k * F v k = F v k := by
  by_cases hF : F v k = 0
  · simp [hF]
  · have : along δ U k = 0 := h v k hF
    rw [phase_along, this]
    simp

theorem moving_zero (δ U : D → ℝ) (m : V → ℝ) (u : ℝ → V → Fld D) :
    moving δ U m u 0 = fun v k => u 0 v k + if k = 0 then (m v : ℂ) else 0 := by
  funext v k
  rw [moving_eq, boost, phase_time_zero, one_mul]

/-- A limit is not changed by what it is after the end. -/
theorem converges_congr {ι : Type*} [Fintype ι] {order : ℕ} {T : ℝ} {s s' : ℝ → Schemes.Arr ι} {cfl : Bool}
    {u : (ℕ → ℝ) → ℕ → Schemes.Arr ι} (h : ∀ t ∈ Set.Icc 0 T, s t = s' t) (hc : ConvergesWithOrder order T s cfl u) :
    ConvergesWithOrder order T s' cfl u := by
  obtain ⟨C, h0, hh, hc⟩ := hc
  refine ⟨C, h0, hh, fun h' dt hle hdt hcf k hk => ?_⟩
  rw [← h _ ⟨?_, hk⟩]
  · exact hc h' dt hle hdt hcf k hk
  · exact sum_nonneg fun i _ => (hdt i).1.le

end

end Verif.Galilean
