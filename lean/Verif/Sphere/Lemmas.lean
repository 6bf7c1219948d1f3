import Mathlib.Algebra.MvPolynomial.PDeriv
import Mathlib.RingTheory.Derivation.Lie
import Mathlib.Tactic.Ring
import Mathlib.Tactic.LinearCombination
import Mathlib.Tactic.FinCases
import Mathlib.Tactic.FieldSimp
import Verif.Sphere.Spec

/-! # Lemmas for the solvers on the sphere -/

namespace Verif.Sphere

noncomputable section

open MvPolynomial

theorem f01 : (0 : Fin 3) + 1 = 1 := rfl
theorem f02 : (0 : Fin 3) + 2 = 2 := rfl
theorem f11 : (1 : Fin 3) + 1 = 2 := rfl
theorem f12 : (1 : Fin 3) + 2 = 0 := rfl
theorem f21 : (2 : Fin 3) + 1 = 0 := rfl
theorem f22 : (2 : Fin 3) + 2 = 1 := rfl

theorem L_apply (k : Fin 3) (f : Fn) :
    L k f = X (k + 1) * pderiv (k + 2) f - X (k + 2) * pderiv (k + 1) f := by
  simp [L]

theorem pderiv_comm (i j : Fin 3) (f : Fn) :
    pderiv i (pderiv j f) = pderiv j (pderiv i f) := by
  have : ⁅(pderiv i : Derivation ℂ Fn Fn), (pderiv j : Derivation ℂ Fn Fn)⁆ = 0 := by
    apply derivation_ext
    intro k
    rw [Derivation.commutator_apply, pderiv_X, pderiv_X]
    by_cases h1 : i = k <;> by_cases h2 : j = k <;> simp [h1, h2, Pi.single_apply]
  have h := congrArg (fun d : Derivation ℂ Fn Fn => d f) this
  rw [Derivation.commutator_apply] at h
  exact sub_eq_zero.mp h

theorem L_mul (k : Fin 3) (f g : Fn) : L k (f * g) = f * L k g + g * L k f := by
  rw [Derivation.leibniz]; simp

theorem L_C (k : Fin 3) (c : ℂ) : L k (C c) = 0 := by simp

theorem L_C_mul (k : Fin 3) (c : ℂ) (f : Fn) : L k (C c * f) = C c * L k f := by
  rw [L_mul, L_C]; ring

/-- The Jacobian `r · (∇f × ∇g)`. -/
def jac (f g : Fn) : Fn := ∑ k, L k f * pderiv k g

theorem jac_anti (f g : Fn) : jac f g = - jac g f := by
  simp only [jac, Fin.sum_univ_three, L_apply, f01, f02, f11, f12, f21, f22]
  ring

theorem jac_mul (f g h : Fn) : jac f (g * h) = g * jac f h + h * jac f g := by
  simp only [jac, Finset.mul_sum, pderiv_mul, ← Finset.sum_add_distrib]
  exact Finset.sum_congr rfl fun k _ => by ring

theorem jac_self (f : Fn) : jac f f = 0 := by
  simp only [jac, Fin.sum_univ_three, L_apply, f01, f02, f11, f12, f21, f22]
  ring

theorem jac_eq (f g : Fn) : jac f g = ∑ k, L k (f * pderiv k g) := by
  have h : ∑ k, L k (pderiv k g) = 0 := by
    simp only [Fin.sum_univ_three, L_apply, f01, f02, f11, f12, f21, f22]
    rw [pderiv_comm 1 0 g, pderiv_comm 2 0 g, pderiv_comm 2 1 g]
    ring
  simp only [jac, L_mul, Finset.sum_add_distrib, ← Finset.mul_sum, h]
  rw [mul_zero, zero_add]
  exact Finset.sum_congr rfl fun k _ => by ring

section mean
variable {mean : Fn →ₗ[ℂ] ℂ} (hm : IsMean mean)
include hm

theorem mean_jac (f g : Fn) : mean (jac f g) = 0 := by
  rw [jac_eq, map_sum]
  exact Finset.sum_eq_zero fun k _ => hm.rot k _

theorem mean_parts (k : Fin 3) (f g : Fn) : mean (f * L k g) = - mean (L k f * g) := by
  have h := hm.rot k (f * g)
  rw [L_mul, map_add, mul_comm g] at h
  exact eq_neg_of_add_eq_zero_left h

end mean

/-- The Laplacian on the unit sphere. -/
def lap (f : Fn) : Fn := ∑ k, L k (L k f)

theorem mean_lap {mean : Fn →ₗ[ℂ] ℂ} (hm : IsMean mean) (f g : Fn) :
    mean (f * lap g) = mean (lap f * g) := by
  simp only [lap, Finset.mul_sum, Finset.sum_mul, map_sum]
  refine Finset.sum_congr rfl fun k _ => ?_
  rw [mean_parts hm, mul_comm, ← neg_eq_iff_eq_neg.mpr (mean_parts hm k (g) (L k f)),
    mul_comm g, neg_neg, mul_comm]

theorem lap_harmonic {l : ℕ} {Y : Fn} (h : IsHarmonic l Y) :
    lap Y = - C ((l * (l + 1) : ℕ) : ℂ) * Y := by
  have e1 := h.hom.sum_X_mul_pderiv
  have e2 : ∀ i, pderiv i (∑ k, X k * pderiv k Y) = pderiv i (l • Y) := fun i => by rw [e1]
  have h0 := e2 0
  have h1 := e2 1
  have h2 := e2 2
  have hl := h.lap
  simp only [Fin.sum_univ_three, map_add, pderiv_mul, pderiv_X, nsmul_eq_mul,
    Derivation.map_natCast] at *
  simp only [Pi.single_apply] at h0 h1 h2
  simp only [lap, Fin.sum_univ_three, L_apply, f01, f02, f11, f12, f21, f22, map_sub, pderiv_mul,
    pderiv_X, Pi.single_apply]
  rw [pderiv_comm 1 0 Y, pderiv_comm 2 0 Y, pderiv_comm 2 1 Y] at *
  simp only [Fin.isValue, Fin.reduceEq, if_true, if_false, mul_zero, zero_mul, one_mul,
    add_zero, zero_add, map_natCast, Nat.cast_mul, Nat.cast_add, Nat.cast_one, map_mul,
    map_add, map_one] at *
  linear_combination (X 0 ^ 2 + X 1 ^ 2 + X 2 ^ 2) * hl - X 0 * h0 - X 1 * h1 - X 2 * h2
    - (1 + (l : Fn)) * e1

theorem comm01 (f : Fn) : L 0 (L 1 f) = L 1 (L 0 f) - L 2 f := by
  simp only [L_apply, f01, f02, f11, f12, f21, f22, map_sub, pderiv_mul, pderiv_X,
    Pi.single_apply]
  rw [pderiv_comm 1 0 f, pderiv_comm 2 0 f, pderiv_comm 2 1 f]
  simp
  ring

theorem comm12 (f : Fn) : L 1 (L 2 f) = L 2 (L 1 f) - L 0 f := by
  simp only [L_apply, f01, f02, f11, f12, f21, f22, map_sub, pderiv_mul, pderiv_X,
    Pi.single_apply]
  rw [pderiv_comm 1 0 f, pderiv_comm 2 0 f, pderiv_comm 2 1 f]
  simp
  ring

theorem comm20 (f : Fn) : L 2 (L 0 f) = L 0 (L 2 f) - L 1 f := by
  simp only [L_apply, f01, f02, f11, f12, f21, f22, map_sub, pderiv_mul, pderiv_X,
    Pi.single_apply]
  rw [pderiv_comm 1 0 f, pderiv_comm 2 0 f, pderiv_comm 2 1 f]
  simp
  ring

theorem lap_comm (k : Fin 3) (f : Fn) : L k (lap f) = lap (L k f) := by
  simp only [lap, Fin.sum_univ_three, map_add]
  fin_cases k <;> simp only [Fin.zero_eta, Fin.mk_one, Fin.reduceFinMk]
  · rw [comm01 (L 1 f), comm01 f, map_sub,
      show L 0 (L 2 (L 2 f)) = L 2 (L 0 (L 2 f)) + L 1 (L 2 f) by rw [comm20 (L 2 f)]; ring,
      show L 0 (L 2 f) = L 2 (L 0 f) + L 1 f by rw [comm20 f]; ring, map_add]
    ring
  · rw [comm12 (L 2 f), comm12 f, map_sub,
      show L 1 (L 0 (L 0 f)) = L 0 (L 1 (L 0 f)) + L 2 (L 0 f) by rw [comm01 (L 0 f)]; ring,
      show L 1 (L 0 f) = L 0 (L 1 f) + L 2 f by rw [comm01 f]; ring, map_add]
    ring
  · rw [comm20 (L 0 f), comm20 f, map_sub,
      show L 2 (L 1 (L 1 f)) = L 1 (L 2 (L 1 f)) + L 0 (L 1 f) by rw [comm12 (L 1 f)]; ring,
      show L 2 (L 1 f) = L 1 (L 2 f) + L 0 f by rw [comm12 f]; ring, map_add]
    ring

/-- `r · (r × ∇) f = 0`. -/
theorem radial (f : Fn) : ∑ k, X k * L k f = 0 := by
  simp only [Fin.sum_univ_three, L_apply, f01, f02, f11, f12, f21, f22]
  ring

theorem L_r2 (k : Fin 3) (f : Fn) :
    L k ((∑ j, X j ^ 2) * f) = (∑ j, X j ^ 2) * L k f := by
  have h : L k (∑ j, X j ^ 2) = 0 := by
    rw [L_apply]
    fin_cases k <;>
      simp [Fin.sum_univ_three, pderiv_pow, pderiv_X, Pi.single_apply, f11, f12, f21, f22] <;>
      ring
  rw [L_mul, h]; ring

end

end Verif.Sphere
