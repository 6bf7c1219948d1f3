import Verif.Galerkin.Props
import Verif.Symmetry.Model
import Verif.EndToEnd.Spec

/-! # C95, C96: the tendencies with exact products -/

set_option linter.unusedSectionVars false

namespace Verif.Symmetry

open Verif.Fourier Verif.Vectors Verif.Energy Verif.Galerkin Verif.EndToEnd Finset

noncomputable section

theorem ns2d_exact {n : Fin 2 → ℕ} (hn : ∀ d, 0 < n d) {S : Finset (Fin 2 → ℤ)} (hS : NoAlias n S) (δ : Fin 2 → ℝ) (beta : ℝ)
    (rot : Fld (Fin 2)) {k : Fin 2 → ℤ} (hk : k ∈ S) :
    ns2d n S δ beta rot k = -(exactProduct S (ux2 δ rot) (pd δ 0 rot) k + exactProduct S (uy2 δ rot) (pd δ 1 rot) k)
      - beta * uy2 δ rot k := by
  rw [ns2d, if_pos hk, ← fft_prod hn hS (ux2 δ rot) (pd δ 0 rot) hk, ← fft_prod hn hS (uy2 δ rot) (pd δ 1 rot) hk, ← fft_add,
    ← fft_neg, ← fft_grid hn hS.distinct (uy2 δ rot) hk, ← fft_mul, ← fft_sub]
  refine fft_congr n (fun j => ?_) k
  simp only [computeFrot, pd_deriv]
  split
  · rename_i h; rw [h]; push_cast; ring
  · ring

theorem ns2dStrat_exact {n : Fin 2 → ℕ} (hn : ∀ d, 0 < n d) {S : Finset (Fin 2 → ℤ)} (hS : NoAlias n S) (δ : Fin 2 → ℝ) (N : ℝ)
    (rot b : Fld (Fin 2)) {k : Fin 2 → ℤ} (hk : k ∈ S) :
    (ns2dStrat n S δ N rot b).1 k
        = -(exactProduct S (ux2 δ rot) (pd δ 0 rot) k + exactProduct S (uy2 δ rot) (pd δ 1 rot) k) + pd δ 0 b k ∧
      (ns2dStrat n S δ N rot b).2 k
        = -(exactProduct S (ux2 δ rot) (pd δ 0 b) k + exactProduct S (uy2 δ rot) (pd δ 1 b) k) - N ^ 2 * uy2 δ rot k := by
  constructor
  · simp only [ns2dStrat, if_pos hk, pd_deriv]
    rw [← fft_prod hn hS (ux2 δ rot) (pd δ 0 rot) hk, ← fft_prod hn hS (uy2 δ rot) (pd δ 1 rot) hk, ← fft_add, ← fft_neg]
    congr 1
    refine fft_congr n (fun j => ?_) k
    ring
  · simp only [ns2dStrat, if_pos hk, pd_deriv]
    rw [← fft_prod hn hS (ux2 δ rot) (pd δ 0 b) hk, ← fft_prod hn hS (uy2 δ rot) (pd δ 1 b) hk, ← fft_add, ← fft_neg,
      ← fft_grid hn hS.distinct (uy2 δ rot) hk, ← fft_mul, ← fft_sub]
    refine fft_congr n (fun j => ?_) k
    ring

theorem ns3d_exact {n : Fin 3 → ℕ} (hn : ∀ d, 0 < n d) {S : Finset (Fin 3 → ℤ)} (hS : NoAlias n S) (δ : Fin 3 → ℝ) (f : Option ℝ)
    (p : Projection) (noVz : Bool) (v : (Fin 3 → ℤ) → V3) {k : Fin 3 → ℤ} (hk : k ∈ S) :
    ns3d n S δ f p noVz v k = projV p noVz (wave3 δ k) (navierStokes S δ (f.getD 0) v k) :=
  C57_ns3d hn hS δ f p noVz v hk

theorem divVb_exact {n : Fin 3 → ℕ} (hn : ∀ d, 0 < n d) {S : Finset (Fin 3 → ℤ)} (hS : NoAlias n S) (δ : Fin 3 → ℝ)
    (v : (Fin 3 → ℤ) → V3) (b : Fld (Fin 3)) {k : Fin 3 → ℤ} (hk : k ∈ S) :
    divVb n S δ v b k = ∑ d, Complex.I * ((δ d * k d : ℝ) : ℂ) * exactProduct S (comp v d) b k := by
  have h : ∀ d, fftCoef n (fun j => gridVal n S (comp v d) j * gridVal n S b j) k = exactProduct S (comp v d) b k :=
    fun d => fft_prod hn hS _ _ hk
  have h0 := h 0
  have h1 := h 1
  have h2 := h 2
  simp only [comp] at h0 h1 h2
  simp only [divVb, fftVec, gridVec, h0, h1, h2, wave3, Fin.sum_univ_three, comp]
  push_cast
  ring

theorem ns3dStrat_exact {n : Fin 3 → ℕ} (hn : ∀ d, 0 < n d) {S : Finset (Fin 3 → ℤ)} (hS : NoAlias n S) (δ : Fin 3 → ℝ) (f : Option ℝ)
    (N : ℝ) (p : Projection) (noVz : Bool) (v : (Fin 3 → ℤ) → V3) (b : Fld (Fin 3)) {k : Fin 3 → ℤ} (hk : k ∈ S) :
    (ns3dStrat n S δ f N p noVz v b k).v
        = projV p noVz (wave3 δ k) (add (navierStokes S δ (f.getD 0) v k) ⟨0, 0, b k⟩) ∧
      (ns3dStrat n S δ f N p noVz v b k).b = some (if noVz = true ∧ (wave3 δ k).z = 0 then 0 else
        -(∑ d, Complex.I * ((δ d * k d : ℝ) : ℂ) * exactProduct S (comp v d) b k) - N ^ 2 * (v k).z) := by
  obtain ⟨a, ha⟩ := lamb_eq hn hS δ f v hk
  have hT : projector p (wave3 δ k) ⟨(lamb n S δ f v k).x, (lamb n S δ f v k).y, (lamb n S δ f v k).z + b k⟩
      = projector p (wave3 δ k) (add (navierStokes S δ (f.getD 0) v k) ⟨0, 0, b k⟩) := by
    have e : (⟨(lamb n S δ f v k).x, (lamb n S δ f v k).y, (lamb n S δ f v k).z + b k⟩ : V3)
        = add (add (navierStokes S δ (f.getD 0) v k) ⟨0, 0, b k⟩)
          ⟨Complex.I * (wave3 δ k).x * a, Complex.I * (wave3 δ k).y * a, Complex.I * (wave3 δ k).z * a⟩ := by
      rw [ha]
      simp only [add, V3.mk.injEq]
      refine ⟨?_, ?_, ?_⟩ <;> ring
    rw [e, projector_linear, projector_grad]
    simp [add, zero]
  simp only [ns3dStrat, if_pos hk, projectState, projV, hT, divVb_exact hn hS δ v b hk, abs_eq_zero]
  split <;> simp

end

end Verif.Symmetry
