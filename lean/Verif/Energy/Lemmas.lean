import Verif.Energy.Spec
import Verif.Fourier.Lemmas
import Verif.Vectors.Props

/-! # Lemmas for C37, C38, C41 -/

set_option linter.unusedSectionVars false

namespace Verif.Energy

open Verif.Fourier Verif.Vectors Finset

noncomputable section

variable {D : Type*} [Fintype D] [DecidableEq D]

/-- Mean over the grid. -/
def gmean (n : D → ℕ) (x : Pt n → ℂ) : ℂ := (∑ j, x j) / ∏ d, (n d : ℂ)

theorem gmean_add (n : D → ℕ) (x y : Pt n → ℂ) :
    gmean n (fun j => x j + y j) = gmean n x + gmean n y := by
  simp only [gmean, sum_add_distrib, add_div]

theorem gmean_sub (n : D → ℕ) (x y : Pt n → ℂ) :
    gmean n (fun j => x j - y j) = gmean n x - gmean n y := by
  simp only [gmean, sum_sub_distrib, sub_div]

theorem gmean_mul (n : D → ℕ) (c : ℂ) (x : Pt n → ℂ) :
    gmean n (fun j => c * x j) = c * gmean n x := by
  simp only [gmean, ← mul_sum, mul_div_assoc]

theorem gmean_neg (n : D → ℕ) (x : Pt n → ℂ) : gmean n (fun j => -x j) = -gmean n x := by
  simp only [gmean, sum_neg_distrib, neg_div]

theorem gmean_congr (n : D → ℕ) {x y : Pt n → ℂ} (h : ∀ j, x j = y j) : gmean n x = gmean n y := by
  rw [funext h]

theorem conj_chi (n : D → ℕ) (k : D → ℤ) (j : Pt n) :
    (starRingEnd ℂ) (chi n k j) = chi n (-k) j := by
  rw [chi, chi, ← Complex.exp_conj]
  congr 1
  simp only [map_mul, map_sum, Complex.conj_I, Complex.conj_ofReal, map_div₀, Complex.conj_ofNat,
    Pi.neg_apply, Complex.conj_natCast, map_intCast, Int.cast_neg]
  rw [← neg_neg (∑ d, -(k d : ℂ) * _ / _), ← sum_neg_distrib]
  simp only [neg_mul, neg_div, neg_neg]
  ring

theorem parseval (n : D → ℕ) (S : Finset (D → ℤ)) (x : Pt n → ℂ) (u : Fld D) :
    ∑ k ∈ S, fftCoef n x k * (starRingEnd ℂ) (u k)
      = gmean n (fun j => x j * (starRingEnd ℂ) (gridVal n S u j)) := by
  simp only [fftCoef, gmean, gridVal, map_sum, map_mul, conj_chi, div_mul_eq_mul_div, ← sum_div]
  congr 1
  simp only [mul_sum, sum_mul]
  rw [sum_comm]
  refine sum_congr rfl fun j _ => sum_congr rfl fun k _ => ?_
  ring

theorem real_grid {n : D → ℕ} {S : Finset (D → ℤ)} {u : Fld D} (h : RealOn S u) (j : Pt n) :
    (starRingEnd ℂ) (gridVal n S u j) = gridVal n S u j := by
  simp only [gridVal, map_sum, map_mul, conj_chi]
  refine sum_nbij' (fun k => -k) (fun k => -k) (fun k hk => (h k hk).1) (fun k hk => (h k hk).1)
    (by simp) (by simp) ?_
  intro k hk
  simp [(h k hk).2]

/-- Parseval for a real field. -/
theorem parseval_real (n : D → ℕ) {S : Finset (D → ℤ)} (x : Pt n → ℂ) {u : Fld D}
    (h : RealOn S u) :
    ∑ k ∈ S, fftCoef n x k * (starRingEnd ℂ) (u k) = gmean n (fun j => x j * gridVal n S u j) := by
  rw [parseval]
  exact gmean_congr n fun j => by rw [real_grid h]

theorem gmean_chi (n : D → ℕ) (hn : ∀ d, 0 < n d) (m : D → ℤ) :
    gmean n (chi n m) = if ∀ d, (n d : ℤ) ∣ m d then 1 else 0 := by
  have hN : (∏ d, (n d : ℂ)) ≠ 0 := by
    rw [prod_ne_zero_iff]; intro d _; exact_mod_cast (hn d).ne'
  rw [gmean, sum_chi n hn]
  split <;> simp [hN]

/-- Mean over the grid of a product of three fields. -/
theorem gmean_tri (n : D → ℕ) (hn : ∀ d, 0 < n d) (S1 S2 S3 : Finset (D → ℤ)) (u v w : Fld D) :
    gmean n (fun j => gridVal n S1 u j * gridVal n S2 v j * gridVal n S3 w j)
      = ∑ p ∈ S1, ∑ q ∈ S2, ∑ m ∈ S3,
          if ∀ d, (n d : ℤ) ∣ p d + q d + m d then u p * v q * w m else 0 := by
  have h1 : ∀ j : Pt n, gridVal n S1 u j * gridVal n S2 v j * gridVal n S3 w j
      = ∑ p ∈ S1, ∑ q ∈ S2, ∑ m ∈ S3, u p * v q * w m * chi n (p + q + m) j := by
    intro j
    simp only [gridVal]
    rw [sum_mul_sum, sum_mul]
    refine sum_congr rfl fun p _ => ?_
    rw [sum_mul]
    refine sum_congr rfl fun q _ => ?_
    rw [mul_sum]
    refine sum_congr rfl fun m _ => ?_
    rw [← chi_mul, ← chi_mul]; ring
  simp only [gmean, h1]
  rw [sum_comm, sum_div]
  refine sum_congr rfl fun p _ => ?_
  rw [sum_comm, sum_div]
  refine sum_congr rfl fun q _ => ?_
  rw [sum_comm, sum_div]
  refine sum_congr rfl fun m _ => ?_
  rw [← mul_sum, mul_div_assoc]
  have := gmean_chi n hn (p + q + m)
  rw [gmean] at this
  rw [this]
  simp only [Pi.add_apply]
  split <;> simp

theorem leibniz {n : D → ℕ} (hn : ∀ d, 0 < n d) {S : Finset (D → ℤ)} (hS : TriadExact n S)
    (δ : D → ℝ) (d : D) (u v w : Fld D) :
    gmean n (fun j => gridVal n S (deriv δ d u) j * gridVal n S v j * gridVal n S w j)
      + gmean n (fun j => gridVal n S u j * gridVal n S (deriv δ d v) j * gridVal n S w j)
      + gmean n (fun j => gridVal n S u j * gridVal n S v j * gridVal n S (deriv δ d w) j) = 0 := by
  rw [gmean_tri n hn, gmean_tri n hn, gmean_tri n hn, ← sum_add_distrib, ← sum_add_distrib]
  refine sum_eq_zero fun p hp => ?_
  rw [← sum_add_distrib, ← sum_add_distrib]
  refine sum_eq_zero fun q hq => ?_
  rw [← sum_add_distrib, ← sum_add_distrib]
  refine sum_eq_zero fun m hm => ?_
  split
  · rename_i h
    have h0 := hS p hp q hq m hm h d
    have h1 : (p d : ℂ) + q d + m d = 0 := by exact_mod_cast h0
    simp only [deriv]
    push_cast
    linear_combination (Complex.I * δ d * u p * v q * w m) * h1
  · simp

/-! ### derived real fields -/

theorem RealOn.deriv {S : Finset (D → ℤ)} {u : Fld D} (h : RealOn S u) (δ : D → ℝ) (d : D) :
    RealOn S (deriv δ d u) := by
  intro k hk
  refine ⟨(h k hk).1, ?_⟩
  simp only [Energy.deriv, (h k hk).2, map_mul, Complex.conj_I, Complex.conj_ofReal, Pi.neg_apply]
  push_cast
  ring

/-- Multiplication by a real even symbol. -/
theorem RealOn.mul {S : Finset (D → ℤ)} {u : Fld D} (h : RealOn S u) (s : (D → ℤ) → ℝ)
    (hs : ∀ k, s (-k) = s k) : RealOn S (fun k => (s k : ℂ) * u k) := by
  intro k hk
  refine ⟨(h k hk).1, ?_⟩
  simp only [(h k hk).2, map_mul, Complex.conj_ofReal, hs]

theorem fft_grid {n : D → ℕ} (hn : ∀ d, 0 < n d) {S : Finset (D → ℤ)} (hS : Distinct n S)
    (u : Fld D) {k : D → ℤ} (hk : k ∈ S) : fftCoef n (gridVal n S u) k = u k := by
  have h1 : fftCoef n (gridVal n S u) k = ∑ p ∈ S, u p * gmean n (chi n (p - k)) := by
    simp only [fftCoef, gridVal, gmean, sum_mul, ← mul_div_assoc, ← sum_div, mul_sum]
    congr 1
    rw [sum_comm]
    refine sum_congr rfl fun p _ => sum_congr rfl fun j _ => ?_
    rw [mul_assoc, chi_mul, sub_eq_add_neg]
  rw [h1, sum_eq_single k]
  · rw [gmean_chi n hn]; simp
  · intro p hp hpk
    rw [gmean_chi n hn, if_neg, mul_zero]
    intro h
    exact hpk (hS p hp k hk h)
  · intro h; exact absurd hk h

/-! ### projectors -/

theorem perpk_selfadjoint (k : K3) (v w : V3) : inner (perpk k v) w = inner v (perpk k w) := by
  simp only [inner, perpk, kradial, map_sub, map_mul, map_add, Complex.conj_ofReal]
  ring

theorem toroidal_selfadjoint (k : K3) (v w : V3) :
    inner (toroidal k v) w = inner v (toroidal k w) := by
  simp only [inner, toroidal, map_neg, map_mul, map_add, Complex.conj_ofReal, map_zero]
  ring

theorem poloidal_selfadjoint (k : K3) (v w : V3) :
    inner (poloidal k v) w = inner v (poloidal k w) := by
  simp only [inner, poloidal, map_neg, map_mul, map_add, map_sub, Complex.conj_ofReal]
  ring

theorem projector_selfadjoint (p : Projection) (k : K3) (v w : V3) :
    inner (projector p k v) w = inner v (projector p k w) := by
  cases p
  · exact perpk_selfadjoint k v w
  · exact toroidal_selfadjoint k v w
  · exact poloidal_selfadjoint k v w

/-- The projection of a state does no work on a state which it leaves unchanged. -/
theorem projectState_inner {p : Projection} {noVz : Bool} {k : K3} {v : V3} {b : Option ℂ}
    (hv : projectState p noVz k ⟨v, b⟩ = ⟨v, b⟩) (F : V3) (c : Option ℂ) :
    inner (projectState p noVz k ⟨F, c⟩).v v = inner F v := by
  by_cases h : noVz ∧ |k.z| = 0
  · have h1 : projectState p noVz k ⟨v, b⟩
        = ⟨⟨(projector p k v).x, (projector p k v).y, 0⟩, b.map fun _ => 0⟩ := by
      simp only [projectState, if_pos h]
    rw [h1] at hv
    have h2 : (⟨(projector p k v).x, (projector p k v).y, 0⟩ : V3) = v := by
      injection hv
    have hx : (projector p k v).x = v.x := by have := congrArg V3.x h2; exact this
    have hy : (projector p k v).y = v.y := by have := congrArg V3.y h2; exact this
    have hz : v.z = 0 := (congrArg V3.z h2).symm
    have hkz : k.z = 0 := abs_eq_zero.1 h.2
    -- the vertical component of the projection of a horizontal vector is zero when `kz = 0`
    have hpz : (projector p k v).z = 0 := by
      cases p
      · simp [projector, perpk, kradial, hkz, hz]
      · simp [projector, toroidal]
      · simp only [projector, poloidal, hz, cosTheta, hkz]
        simp
    have hpv : projector p k v = v := by
      ext
      · exact hx
      · exact hy
      · rw [hpz, hz]
    have h3 : (projectState p noVz k ⟨F, c⟩).v
        = ⟨(projector p k F).x, (projector p k F).y, 0⟩ := by
      simp only [projectState, if_pos h]
    rw [h3]
    have h4 : inner (⟨(projector p k F).x, (projector p k F).y, 0⟩ : V3) v
        = inner (projector p k F) v := by
      simp [inner, hz]
    rw [h4, projector_selfadjoint, hpv]
  · have h1 : projectState p noVz k ⟨v, b⟩ = ⟨projector p k v, b⟩ := by
      simp only [projectState, if_neg h]
    rw [h1] at hv
    have hpv : projector p k v = v := by injection hv
    have h3 : (projectState p noVz k ⟨F, c⟩).v = projector p k F := by
      simp only [projectState, if_neg h]
    rw [h3, projector_selfadjoint, hpv]

/-- The rate of work of a transformed vector field. -/
theorem sum_inner (n : D → ℕ) {S : Finset (D → ℤ)} (F : Pt n → V3) {v : (D → ℤ) → V3}
    (h : RealVecOn S v) :
    ∑ k ∈ S, inner (fftVec n F k) (v k)
      = gmean n (fun j => (F j).x * (gridVec n S v j).x + (F j).y * (gridVec n S v j).y
          + (F j).z * (gridVec n S v j).z) := by
  simp only [inner, fftVec, sum_add_distrib, gridVec]
  rw [parseval_real n _ h.1, parseval_real n _ h.2.1, parseval_real n _ h.2.2, gmean_add, gmean_add]

end

end Verif.Energy
