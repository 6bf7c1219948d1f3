import Verif.Uxuy.Props
import Verif.Symmetry.Units

/-! # C96: fields which do not depend on one coordinate -/

set_option linter.unusedSectionVars false

namespace Verif.Symmetry

open Verif.Fourier Verif.Vectors Verif.Energy Verif.Galerkin Verif.EndToEnd Verif.Uxuy Finset

noncomputable section

/-- The modes of the horizontal planes. -/
def hor : (Fin 2 → ℤ) →+ (Fin 3 → ℤ) where
  toFun k := ![k 0, k 1, 0]
  map_zero' := by funext d; fin_cases d <;> rfl
  map_add' a b := by funext d; fin_cases d <;> rfl

/-- The modes of the vertical planes (x, z). -/
def ver : (Fin 2 → ℤ) →+ (Fin 3 → ℤ) where
  toFun k := ![k 0, 0, k 1]
  map_zero' := by funext d; fin_cases d <;> rfl
  map_add' a b := by funext d; fin_cases d <;> rfl

theorem hor_inj : Function.Injective hor := by
  intro a b h
  funext d
  fin_cases d
  · exact congrFun h 0
  · exact congrFun h 1

theorem ver_inj : Function.Injective ver := by
  intro a b h
  funext d
  fin_cases d
  · exact congrFun h 0
  · exact congrFun h 2

theorem hor_of {q : Fin 3 → ℤ} (h : q 2 = 0) : hor ![q 0, q 1] = q := by
  funext d; fin_cases d
  · rfl
  · rfl
  · exact h.symm

theorem ver_of {q : Fin 3 → ℤ} (h : q 1 = 0) : ver ![q 0, q 2] = q := by
  funext d; fin_cases d
  · rfl
  · exact h.symm
  · rfl

theorem exact_plane {e : (Fin 2 → ℤ) →+ (Fin 3 → ℤ)} (he : Function.Injective e) {S : Finset (Fin 3 → ℤ)} {S2 : Finset (Fin 2 → ℤ)}
    (hS : ∀ k, k ∈ S2 ↔ e k ∈ S) {a b : Fld (Fin 3)} (ha : ∀ q, (∀ k, e k ≠ q) → a q = 0) (hb : ∀ q, (∀ k, e k ≠ q) → b q = 0) :
    (∀ k, exactProduct S a b (e k) = exactProduct S2 (a ∘ e) (b ∘ e) k) ∧ ∀ q, (∀ k, e k ≠ q) → exactProduct S a b q = 0 := by
  have hsub : S2.image e ⊆ S := by
    intro q hq
    obtain ⟨k, hk, rfl⟩ := mem_image.1 hq
    exact (hS k).1 hk
  have hnot : ∀ q ∈ S, q ∉ S2.image e → ∀ k, e k ≠ q := by
    intro q hq hq' k hk
    exact hq' (mem_image.2 ⟨k, (hS k).2 (by rw [hk]; exact hq), hk⟩)
  have hsum : ∀ q, exactProduct S a b q = ∑ x ∈ S2, ∑ y ∈ S2, if e x + e y = q then a (e x) * b (e y) else 0 := by
    intro q
    rw [exactProduct, ← sum_subset hsub fun x hx hx' => ?_, sum_image fun _ _ _ _ h => he h]
    · refine sum_congr rfl fun x _ => ?_
      rw [← sum_subset hsub fun y hy hy' => ?_, sum_image fun _ _ _ _ h => he h]
      rw [hb y (hnot y hy hy'), mul_zero, ite_self]
    · refine sum_eq_zero fun y _ => ?_
      rw [ha x (hnot x hx hx'), zero_mul, ite_self]
  constructor
  · intro k
    rw [hsum, exactProduct]
    refine sum_congr rfl fun x _ => sum_congr rfl fun y _ => ?_
    have : e x + e y = e k ↔ x + y = k := by rw [← map_add, he.eq_iff]
    simp only [this, Function.comp]
  · intro q hq
    rw [hsum]
    refine sum_eq_zero fun x _ => sum_eq_zero fun y _ => ?_
    rw [if_neg]
    rw [← map_add]
    exact hq _

/-- In the slice of a truncation there is no aliasing. -/
theorem noAlias_plane {e : (Fin 2 → ℤ) →+ (Fin 3 → ℤ)} (he : Function.Injective e) {n : Fin 3 → ℕ} {n2 : Fin 2 → ℕ}
    (hd : ∀ k, (∀ d, (n2 d : ℤ) ∣ k d) → ∀ d, (n d : ℤ) ∣ e k d) {S : Finset (Fin 3 → ℤ)} {S2 : Finset (Fin 2 → ℤ)}
    (hS : ∀ k, k ∈ S2 ↔ e k ∈ S) (h : NoAlias n S) : NoAlias n2 S2 := by
  constructor
  · intro p hp q hq k hk hs
    refine he ?_
    rw [map_add]
    refine h.sum _ ((hS p).1 hp) _ ((hS q).1 hq) _ ((hS k).1 hk) fun d => ?_
    have := hd (p + q - k) (fun d => by simpa using hs d) d
    rwa [map_sub, map_add] at this
  · intro p hp q hq hs
    refine he (h.distinct _ ((hS p).1 hp) _ ((hS q).1 hq) fun d => ?_)
    have := hd (p - q) (fun d => by simpa using hs d) d
    rwa [map_sub] at this

/-! ### the curl of the advection -/

theorem curl_advect (S : Finset (Fin 2 → ℤ)) (δ : Fin 2 → ℝ) (rot : Fld (Fin 2)) (k : Fin 2 → ℤ) :
    let A : Fld (Fin 2) → ℂ := fun a => exactProduct S (ux2 δ rot) (pd δ 0 a) k + exactProduct S (uy2 δ rot) (pd δ 1 a) k
    Complex.I * ((δ 0 * k 0 : ℝ) : ℂ) * A (uy2 δ rot) - Complex.I * ((δ 1 * k 1 : ℝ) : ℂ) * A (ux2 δ rot) = A rot := by
  intro A
  have hdiv : ∀ p, pd δ 1 (uy2 δ rot) p = -pd δ 0 (ux2 δ rot) p := by
    intro p
    simp only [pd, ux2, uy2, Forcing.vecFromRot]; ring
  have hrot : ∀ d, (fun p => pd δ d (pd δ 0 (uy2 δ rot)) p - pd δ d (pd δ 1 (ux2 δ rot)) p) = pd δ d rot := by
    intro d
    have := deriv_rot_vecOf δ rot d
    rw [pd_deriv, pd_deriv] at this
    rw [← this]
    funext p
    simp only [pd, rotOf, vecOf, Forcing.rotFromVec]
    push_cast
    ring
  have hcomm : ∀ d d' (a : Fld (Fin 2)), pd δ d (pd δ d' a) = pd δ d' (pd δ d a) := fun d d' a => by
    funext p; simp only [pd]; ring
  set X := ux2 δ rot with hX
  set Y := uy2 δ rot with hY
  have l1 := exact_leibniz S δ 0 X (pd δ 0 Y) k
  have l2 := exact_leibniz S δ 0 Y (pd δ 1 Y) k
  have l3 := exact_leibniz S δ 1 X (pd δ 0 X) k
  have l4 := exact_leibniz S δ 1 Y (pd δ 1 X) k
  have r0 : exactProduct S X (pd δ 0 rot) k = exactProduct S X (pd δ 0 (pd δ 0 Y)) k - exactProduct S X (pd δ 1 (pd δ 0 X)) k := by
    rw [← exact_sub_right, ← hrot 0, hcomm 0 1 X]
  have r1 : exactProduct S Y (pd δ 1 rot) k = exactProduct S Y (pd δ 0 (pd δ 1 Y)) k - exactProduct S Y (pd δ 1 (pd δ 1 X)) k := by
    rw [← exact_sub_right, ← hrot 1, hcomm 1 0 Y]
  have hn : ∀ a, exactProduct S a (pd δ 1 Y) k = -exactProduct S a (pd δ 0 X) k := by
    intro a
    rw [show pd δ 1 Y = fun p => (-1) * pd δ 0 X p from funext fun p => by rw [hdiv]; ring, exact_mul_right]
    ring
  have c1 := exact_comm S (pd δ 0 X) (pd δ 0 Y) k
  have c2 := hn (pd δ 0 Y)
  have c3 := exact_comm S (pd δ 1 Y) (pd δ 1 X) k
  have c4 := hn (pd δ 1 X)
  simp only [A]
  linear_combination l1 + l2 - l3 - l4 + c1 + c2 - c3 - c4 - r0 - r1

/-- The mean of an advection is zero. -/
theorem advect_mean (S : Finset (Fin 2 → ℤ)) (δ : Fin 2 → ℝ) (rot a : Fld (Fin 2)) :
    exactProduct S (ux2 δ rot) (pd δ 0 a) 0 + exactProduct S (uy2 δ rot) (pd δ 1 a) 0 = 0 := by
  simp only [exactProduct, ← sum_add_distrib]
  refine sum_eq_zero fun p _ => sum_eq_zero fun q _ => ?_
  split
  · rename_i h
    have hq : q = -p := by rw [eq_neg_iff_add_eq_zero, add_comm]; exact h
    subst hq
    simp only [pd, ux2, uy2, Forcing.vecFromRot, Pi.neg_apply, Int.cast_neg]
    push_cast
    ring
  · ring

/-! ### the projection in a plane -/

/-- A vector of a horizontal plane and the velocity of its vorticity. -/
theorem proj_hor {p : Projection} (hp : p = .none ∨ p = .toroidal) (noVz : Bool) {a b : ℝ} (h : a ^ 2 + b ^ 2 ≠ 0) (X Y : ℂ) :
    projV p noVz ⟨a, b, 0⟩ ⟨X, Y, 0⟩ = ⟨(Forcing.vecFromRot a b (Complex.I * a * Y - Complex.I * b * X)).1,
      (Forcing.vecFromRot a b (Complex.I * a * Y - Complex.I * b * X)).2, 0⟩ := by
  have hc : (a : ℂ) ^ 2 + (b : ℂ) ^ 2 ≠ 0 := by exact_mod_cast h
  have hk : k2 ⟨a, b, 0⟩ = a ^ 2 + b ^ 2 := by simp [k2, kh2]
  have hkh : kh2 ⟨a, b, 0⟩ = a ^ 2 + b ^ 2 := by simp [kh2]
  have hpos : 0 < a ^ 2 + b ^ 2 := lt_of_le_of_ne (by positivity) (Ne.symm h)
  have hI : Complex.I ^ 2 = -1 := Complex.I_sq
  have key : projector p ⟨a, b, 0⟩ ⟨X, Y, 0⟩ = ⟨(Forcing.vecFromRot a b (Complex.I * a * Y - Complex.I * b * X)).1,
      (Forcing.vecFromRot a b (Complex.I * a * Y - Complex.I * b * X)).2, 0⟩ := by
    rcases hp with rfl | rfl
    · simp only [projector, perpk, kradial, hk, nozero, if_neg h, Forcing.vecFromRot, k2not0_eq h, V3.mk.injEq]
      push_cast
      refine ⟨?_, ?_, by ring⟩
      · field_simp
        linear_combination (a * b * Y - b ^ 2 * X) * (-hI)
      · field_simp
        linear_combination (a * b * X - a ^ 2 * Y) * (-hI)
    · have hs : (√(1 / (a ^ 2 + b ^ 2)) : ℂ) * (√(1 / (a ^ 2 + b ^ 2)) : ℂ) = 1 / ((a : ℂ) ^ 2 + b ^ 2) := by
        rw [← Complex.ofReal_mul, Real.mul_self_sqrt (by positivity)]
        push_cast
        ring
      simp only [projector, toroidal, sinPhi, cosPhi, hkh, nozero, if_neg h, Forcing.vecFromRot, k2not0_eq h, V3.mk.injEq]
      push_cast
      refine ⟨?_, ?_, trivial⟩
      · have e : -((b : ℂ) * √(1 / (a ^ 2 + b ^ 2))) * (-((b : ℂ) * √(1 / (a ^ 2 + b ^ 2))) * X + a * √(1 / (a ^ 2 + b ^ 2)) * Y)
            = (√(1 / (a ^ 2 + b ^ 2)) * √(1 / (a ^ 2 + b ^ 2))) * (b ^ 2 * X - a * b * Y) := by ring
        rw [e, hs]
        field_simp
        linear_combination (a * b * Y - b ^ 2 * X) * (-hI)
      · have e : ((a : ℂ) * √(1 / (a ^ 2 + b ^ 2))) * (-((b : ℂ) * √(1 / (a ^ 2 + b ^ 2))) * X + a * √(1 / (a ^ 2 + b ^ 2)) * Y)
            = (√(1 / (a ^ 2 + b ^ 2)) * √(1 / (a ^ 2 + b ^ 2))) * (a ^ 2 * Y - a * b * X) := by ring
        rw [e, hs]
        field_simp
        linear_combination (a * b * X - a ^ 2 * Y) * (-hI)
  simp only [projV, key]
  split <;> rfl

/-- A vector of a vertical plane and the velocity of its vorticity. -/
theorem proj_ver {a b : ℝ} (h : a ^ 2 + b ^ 2 ≠ 0) (X Z : ℂ) :
    projV .none false ⟨a, 0, b⟩ ⟨X, 0, Z⟩ = ⟨(Forcing.vecFromRot a b (Complex.I * a * Z - Complex.I * b * X)).1, 0,
      (Forcing.vecFromRot a b (Complex.I * a * Z - Complex.I * b * X)).2⟩ := by
  have hc : (a : ℂ) ^ 2 + (b : ℂ) ^ 2 ≠ 0 := by exact_mod_cast h
  have hk : k2 ⟨a, 0, b⟩ = a ^ 2 + b ^ 2 := by simp [k2, kh2]
  have hI : Complex.I ^ 2 = -1 := Complex.I_sq
  simp only [projV, projector, perpk, kradial, hk, nozero, if_neg h, Forcing.vecFromRot, k2not0_eq h, Bool.false_eq_true, false_and, if_false,
    V3.mk.injEq]
  push_cast
  refine ⟨?_, by ring, ?_⟩
  · field_simp
    linear_combination (a * b * Z - b ^ 2 * X) * (-hI)
  · field_simp
    linear_combination (a * b * X - a ^ 2 * Z) * (-hI)

end

end Verif.Symmetry
