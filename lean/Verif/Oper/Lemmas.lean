import Verif.Oper.Spec
import Verif.Fourier.Lemmas
import Verif.EndToEnd.Model
import Verif.Convergence.Spec

/-! # C91: lemmas -/

set_option linter.unusedSectionVars false

namespace Verif.Oper

open Verif.Fourier Verif.Schemes Verif.EndToEnd Verif.Convergence Finset

noncomputable section

variable {D : Type*} [Fintype D] [DecidableEq D]

theorem chi_update (n : D → ℕ) (k : D → ℤ) (j : Pt n) (d : D) (i : Fin (n d)) :
    chi n k (Function.update j d i) = Complex.exp (2 * Real.pi * Complex.I * ((k d : ℂ) * (i : ℕ) / n d))
      * ∏ e ∈ univ.erase d, Complex.exp (2 * Real.pi * Complex.I * ((k e : ℂ) * (j e : ℕ) / n e)) := by
  rw [chi_prod, ← mul_prod_erase univ _ (mem_univ d)]
  simp only [Function.update_self]
  congr 1
  refine prod_congr rfl fun e he => ?_
  rw [Function.update_of_ne (ne_of_mem_erase he)]

theorem sum_chi_update {n : D → ℕ} {k : D → ℤ} (j : Pt n) {d : D} (hk : k d ≠ 0) (hb : 2 * |k d| ≤ n d) :
    ∑ i : Fin (n d), chi n k (Function.update j d i) = 0 := by
  have hn : 0 < n d := by
    have := abs_pos.2 hk; omega
  simp only [chi_update, ← sum_mul]
  rw [sum_exp_fin _ hn, if_neg, zero_mul]
  intro h
  exact hk (dvd_small h (by have := abs_pos.2 hk; omega))

/-- A field without the modes `k d = 0` has a zero mean over the direction `d`. -/
theorem meanAlong_eq_zero {n : D → ℕ} {G : Finset (D → ℤ)} {d : D} (hG : ∀ k ∈ G, 2 * |k d| ≤ n d) {u : (D → ℤ) → ℂ}
    (hu : ∀ k ∈ G, k d = 0 → u k = 0) (j : Pt n) : meanAlong d (gridVal n G u) j = 0 := by
  simp only [meanAlong, gridVal]
  rw [sum_comm, sum_eq_zero, zero_div]
  intro k hk
  rw [← mul_sum]
  by_cases h : k d = 0
  · rw [hu k hk h, zero_mul]
  · rw [sum_chi_update j h (hG k hk), mul_zero]

/-- The means over two directions of a field without the modes `k d = k e = 0`. -/
theorem meanAlong2_eq_zero {n : D → ℕ} {G : Finset (D → ℤ)} {d e : D} (hde : d ≠ e) (hG : ∀ k ∈ G, 2 * |k d| ≤ n d ∧ 2 * |k e| ≤ n e)
    {u : (D → ℤ) → ℂ} (hu : ∀ k ∈ G, k d = 0 → k e = 0 → u k = 0) (j : Pt n) :
    meanAlong d (fun j => meanAlong e (gridVal n G u) j) j = 0 := by
  simp only [meanAlong, gridVal]
  rw [sum_eq_zero_iff_of_mul hde hG hu j]
  simp
where
  sum_eq_zero_iff_of_mul {n : D → ℕ} {G : Finset (D → ℤ)} {d e : D} (hde : d ≠ e)
      (hG : ∀ k ∈ G, 2 * |k d| ≤ n d ∧ 2 * |k e| ≤ n e) {u : (D → ℤ) → ℂ} (hu : ∀ k ∈ G, k d = 0 → k e = 0 → u k = 0) (j : Pt n) :
      (∑ i : Fin (n d), (∑ i' : Fin (n e), ∑ k ∈ G, u k * chi n k (Function.update (Function.update j d i) e i')) / n e) = 0 := by
    rw [← sum_div]
    have : ∀ k ∈ G, ∑ i : Fin (n d), ∑ i' : Fin (n e), u k * chi n k (Function.update (Function.update j d i) e i') = 0 := by
      intro k hk
      by_cases h : k e = 0
      · by_cases h' : k d = 0
        · simp [hu k hk h' h]
        · rw [sum_comm, sum_eq_zero]
          intro i' _
          rw [← mul_sum]
          have : ∀ i : Fin (n d), Function.update (Function.update j d i) e i' = Function.update (Function.update j e i') d i :=
            fun i => Function.update_comm hde _ _ _
          simp only [this]
          rw [sum_chi_update _ h' (hG k hk).1, mul_zero]
      · refine sum_eq_zero fun i _ => ?_
        rw [← mul_sum, sum_chi_update _ h (hG k hk).2, mul_zero]
    have e1 : (∑ i : Fin (n d), ∑ i' : Fin (n e), ∑ k ∈ G, u k * chi n k (Function.update (Function.update j d i) e i'))
        = ∑ k ∈ G, ∑ i : Fin (n d), ∑ i' : Fin (n e), u k * chi n k (Function.update (Function.update j d i) e i') := by
      exact (sum_congr rfl fun i _ => sum_comm).trans sum_comm
    rw [e1, sum_eq_zero this, zero_div]

/-- The state after a step is zero where the mask is. -/
theorem states_masked {ι : Type*} (sc : Scheme) (N : Arr ι → Arr ι) (f : Arr ι) (mask : ι → Bool) (ps pa pb : ℕ → Arr ι) (heap : Heap ι)
    (g1 g2 : Arr ι) (cfl : Bool) (u0 : Arr ι) (dt : ℕ → ℝ) (k : ℕ) {i : ι} (hi : mask i = true) :
    states sc N f mask ps pa pb heap g1 g2 cfl u0 dt (k + 1) i = 0 := by
  simp [states, simulation, Schemes.oneStep, Schemes.dealias, Heap.set, hi]

theorem states3d_masked {ι : Type*} (project : Arr ι → Arr ι) (sc : Scheme) (N : Arr ι → Arr ι) (f : Arr ι) (mask : ι → Bool)
    (ps pa pb : ℕ → Arr ι) (heap : Heap ι) (g1 g2 : Arr ι) (cfl : Bool) (u0 : Arr ι) (dt : ℕ → ℝ) (k : ℕ) {i : ι} (hi : mask i = true) :
    (simulation3d project sc N f mask ps pa pb heap g1 g2 cfl u0 dt (k + 1)).heap .state i = 0 := by
  simp [simulation3d, oneStep3d, Schemes.dealias, Heap.set, hi]

theorem pyInt_int (m : ℤ) : pyInt m = m := by
  unfold pyInt; split <;> simp

theorem pyInt_eq_iff (q : ℚ) : q = pyInt q ↔ ∃ m : ℤ, q = m :=
  ⟨fun h => ⟨_, h⟩, fun ⟨m, h⟩ => by rw [h, pyInt_int]⟩

theorem deltak_ne {D : Type*} {p : Params D} {d : D} (hL : 0 < p.L d) : deltak p d ≠ 0 := by
  unfold deltak
  positivity

end

end Verif.Oper
