import Verif.Prescribed.Model
import Verif.Energy.Lemmas
import Verif.Motion.Lemmas
import Mathlib.Analysis.SpecialFunctions.Trigonometric.Deriv
import Mathlib.Tactic.FieldSimp

namespace Verif.Prescribed

open Verif.Fourier Verif.Energy Verif.Motion Finset

set_option linter.unusedSectionVars false

noncomputable section

theorem tanh_exp (u : ℝ) : 0.5 * (Real.tanh u + 1) = 1 / (1 + Real.exp (-2 * u)) := by
  have h1 := Real.exp_pos u
  have h2 := Real.exp_pos (-u)
  have e : Real.exp (-2 * u) = Real.exp (-u) * Real.exp (-u) := by rw [← Real.exp_add]; ring_nf
  have e1 : Real.exp u * Real.exp (-u) = 1 := by rw [← Real.exp_add]; simp
  rw [Real.tanh_eq_sinh_div_cosh, Real.sinh_eq, Real.cosh_eq, e]
  have h3 : Real.exp u + Real.exp (-u) ≠ 0 := by positivity
  have h4 : 1 + Real.exp (-u) * Real.exp (-u) ≠ 0 := by positivity
  rw [div_div_div_cancel_right₀ (by norm_num), div_add_one h3, eq_div_iff h4]
  rw [← mul_div_assoc, div_mul_eq_mul_div, div_eq_iff h3]
  nlinarith [e1]

theorem half_tanh_pos (u : ℝ) : 0 < 0.5 * (Real.tanh u + 1) := by
  have := Real.neg_one_lt_tanh u; linarith

theorem half_tanh_lt (u : ℝ) : 0.5 * (Real.tanh u + 1) < 1 := by
  have := Real.tanh_lt_one u; linarith

theorem half_tanh_mono {u v : ℝ} (h : u ≤ v) :
    0.5 * (Real.tanh u + 1) ≤ 0.5 * (Real.tanh v + 1) := by
  rw [tanh_exp, tanh_exp]
  have := Real.exp_le_exp.mpr (by linarith : -2 * v ≤ -2 * u)
  have h1 := Real.exp_pos (-2 * v)
  exact one_div_le_one_div_of_le (by linarith) (by linarith)

theorem half_tanh_strict {u v : ℝ} (h : u < v) :
    0.5 * (Real.tanh u + 1) < 0.5 * (Real.tanh v + 1) := by
  rw [tanh_exp, tanh_exp]
  have := Real.exp_lt_exp.mpr (by linarith : -2 * v < -2 * u)
  have h1 := Real.exp_pos (-2 * v)
  exact one_div_lt_one_div_of_lt (by linarith) (by linarith)

/-- `(1 - tanh u) / 2 ≤ 1 / (2 + 2 u)`. -/
theorem half_tanh_tail {u : ℝ} (hu : 0 ≤ u) : 0.5 * (1 - Real.tanh u) ≤ 1 / (2 + 2 * u) := by
  have e : 0.5 * (1 - Real.tanh u) = 0.5 * (Real.tanh (-u) + 1) := by rw [Real.tanh_neg]; ring
  rw [e, tanh_exp]
  have := Real.add_one_le_exp (-2 * -u)
  exact one_div_le_one_div_of_le (by linarith) (by linarith)

/-- The nearest image is one of the images -1, 0, 1. -/
theorem nearest_image {lx x X : ℝ} (hlx : 0 < lx) (h1 : -lx / 2 ≤ x) (h2 : x ≤ 3 * lx / 2)
    (hX : 0 ≤ X) (hX2 : X ≤ lx) (m : ℤ) :
    ∃ i ∈ ([-1, 0, 1] : List ℝ), |X - (x + i * lx)| ≤ |X - (x + m * lx)| := by
  rcases le_or_gt 2 m with hm | hm
  · refine ⟨1, by simp, ?_⟩
    have hm' : (2 : ℝ) ≤ m := by exact_mod_cast hm
    have h3 : 2 * lx ≤ m * lx := by nlinarith
    have h4 : |X - (x + m * lx)| = m * lx - (X - x) := by
      rw [abs_of_nonpos (by nlinarith)]; ring
    rw [h4, abs_le]
    constructor <;> nlinarith
  · rcases le_or_gt m (-2) with hm2 | hm2
    · refine ⟨-1, by simp, ?_⟩
      have hm' : (m : ℝ) ≤ -2 := by exact_mod_cast hm2
      have h3 : m * lx ≤ -2 * lx := by nlinarith
      have h4 : |X - (x + m * lx)| = X - x - m * lx := by
        rw [abs_of_nonneg (by nlinarith)]; ring
      rw [h4, abs_le]
      constructor <;> nlinarith
    · have : m = -1 ∨ m = 0 ∨ m = 1 := by omega
      rcases this with rfl | rfl | rfl
      · exact ⟨-1, by simp, by simp⟩
      · exact ⟨0, by simp, by simp⟩
      · exact ⟨1, by simp, by simp⟩

theorem step_pos (x l w : ℝ) : 0 < step x l w := half_tanh_pos _

theorem step_nonneg (x l w : ℝ) : 0 ≤ step x l w := (step_pos x l w).le

theorem step_inside {w d r l : ℝ} (hw : 0 < w) (h : r ≤ l - d) :
    0.5 * (Real.tanh (d / w) + 1) ≤ step r l w := by
  refine half_tanh_mono ?_
  exact div_le_div_of_nonneg_right (by linarith) hw.le

theorem step_outside {w d r l : ℝ} (hw : 0 < w) (h : l + d ≤ r) :
    step r l w ≤ 0.5 * (1 - Real.tanh (d / w)) := by
  have e : 0.5 * (1 - Real.tanh (d / w)) = 0.5 * (Real.tanh (-(d / w)) + 1) := by
    rw [Real.tanh_neg]; ring
  rw [e]
  refine half_tanh_mono ?_
  rw [← neg_div]
  exact div_le_div_of_nonneg_right (by linarith) hw.le

theorem images_sum (f : ℝ → ℝ) : (([-1, 0, 1] : List ℝ).map f).sum = f (-1) + f 0 + f 1 := by
  simp [add_assoc]

theorem sum_ge_of_mem {l : List ℝ} (h : ∀ a ∈ l, 0 ≤ a) {a : ℝ} (ha : a ∈ l) : a ≤ l.sum :=
  List.single_le_sum h a ha

theorem zip_replicate (x : ℝ) (ys : List ℝ) : (List.replicate ys.length x).zip ys = ys.map fun y => (x, y) := by
  induction ys with
  | nil => rfl
  | cons y ys ih => simp [List.replicate_succ, ih]

theorem yCoors_length (ly : ℝ) (number : ℕ) : (yCoors ly number).length = number := by simp [yCoors]

theorem solidField_eq (lx ly diameter width x : ℝ) (number : ℕ) (X Y : ℝ) :
    solidField lx ly diameter width x number X Y
      = ((yCoors ly number).map fun y => (([-1, 0, 1] : List ℝ).map fun i =>
          step (√((X - (x + i * lx)) ^ 2 + (Y - y) ^ 2)) (diameter / 2) width).sum).sum := by
  have := zip_replicate x (yCoors ly number)
  rw [yCoors_length] at this
  rw [solidField, solidAt, this, List.map_map]
  rfl

/-! ### Modes -/

variable {D : Type} [Fintype D] [DecidableEq D]

theorem chi_single (n : D → ℕ) (d : D) (m : ℤ) (j : Pt n) :
    chi n (Pi.single d m) j = Complex.exp (2 * Real.pi * Complex.I * ((m : ℂ) * (j d : ℕ) / n d)) := by
  rw [chi]
  congr 2
  rw [Finset.sum_eq_single d]
  · simp
  · intro b _ hb
    simp [Pi.single_eq_of_ne hb]
  · intro h; exact absurd (mem_univ d) h

/-- Fourier coefficients of the Kolmogorov field. -/
def kolmoCoef (d : D) (A : ℝ) (ik : ℕ) : Fld D := fun k =>
  if k = Pi.single d (ik : ℤ) then -Complex.I * A / 2
  else if k = Pi.single d (-(ik : ℤ)) then Complex.I * A / 2 else 0

theorem single_ne (d : D) {ik : ℕ} (h : 0 < ik) : (Pi.single d (ik : ℤ) : D → ℤ) ≠ Pi.single d (-(ik : ℤ)) := by
  intro e
  have := congrFun e d
  simp at this
  omega

theorem kolmo_grid (n : D → ℕ) {d : D} {A L : ℝ} (hL : L ≠ 0) {ik : ℕ} (h0 : 0 < ik) {S : Finset (D → ℤ)}
    (h1 : Pi.single d (ik : ℤ) ∈ S) (h2 : Pi.single d (-(ik : ℤ)) ∈ S) (j : Pt n) :
    ((kolmoField n d A L ik j : ℝ) : ℂ) = gridVal n S (kolmoCoef d A ik) j := by
  have e1 : gridVal n S (kolmoCoef d A ik) j
      = kolmoCoef d A ik (Pi.single d (ik : ℤ)) * chi n (Pi.single d (ik : ℤ)) j
        + kolmoCoef d A ik (Pi.single d (-(ik : ℤ))) * chi n (Pi.single d (-(ik : ℤ))) j := by
    rw [gridVal, ← Finset.sum_pair (f := fun k => kolmoCoef d A ik k * chi n k j) (single_ne d h0)]
    symm
    refine Finset.sum_subset ?_ ?_
    · intro k hk
      simp only [mem_insert, mem_singleton] at hk
      rcases hk with rfl | rfl <;> assumption
    · intro k _ hk
      simp only [mem_insert, mem_singleton, not_or] at hk
      simp [kolmoCoef, hk.1, hk.2]
  rw [e1]
  have c1 : kolmoCoef d A ik (Pi.single d (ik : ℤ)) = -Complex.I * A / 2 := by simp [kolmoCoef]
  have c2 : kolmoCoef d A ik (Pi.single d (-(ik : ℤ))) = Complex.I * A / 2 := by
    rw [kolmoCoef, if_neg (single_ne d h0).symm, if_pos rfl]
  rw [c1, c2, chi_single, chi_single, kolmoField]
  set θ : ℂ := 2 * Real.pi * ((ik : ℂ) * (j d : ℕ) / n d) with hθ
  have a1 : (2 * Real.pi * Complex.I * (((ik : ℤ) : ℂ) * (j d : ℕ) / n d) : ℂ) = θ * Complex.I := by
    rw [hθ]; push_cast; ring
  have a2 : (2 * Real.pi * Complex.I * (((-(ik : ℤ) : ℤ) : ℂ) * (j d : ℕ) / n d) : ℂ) = -θ * Complex.I := by
    rw [hθ]; push_cast; ring
  have a3 : ((Real.sin (2 * Real.pi * ik / L * (L * ((j d : ℕ) : ℝ) / n d)) : ℝ) : ℂ) = Complex.sin θ := by
    rw [Complex.ofReal_sin]
    congr 1
    rw [hθ]; push_cast
    have : (L : ℂ) ≠ 0 := by exact_mod_cast hL
    field_simp
  rw [a1, a2]
  push_cast
  rw [← Complex.ofReal_natCast ik] at *
  rw [show (Complex.sin (2 * (Real.pi : ℂ) * ((ik : ℝ) : ℂ) / L * (L * ((j d : ℕ) : ℂ) / n d))) = Complex.sin θ by
    rw [← a3]; push_cast; rfl]
  rw [Complex.sin]
  ring

theorem kolmo_fft {n : D → ℕ} (hn : ∀ d, 0 < n d) {d : D} {A L : ℝ} (hL : L ≠ 0) {ik : ℕ} (h0 : 0 < ik)
    {S : Finset (D → ℤ)} (hS : Distinct n S) (h1 : Pi.single d (ik : ℤ) ∈ S)
    (h2 : Pi.single d (-(ik : ℤ)) ∈ S) {k : D → ℤ} (hk : k ∈ S) :
    fftCoef n (fun j => (kolmoField n d A L ik j : ℂ)) k = kolmoCoef d A ik k := by
  rw [← fft_grid hn hS (kolmoCoef d A ik) hk]
  congr 1
  funext j
  exact kolmo_grid n hL h0 h1 h2 j

end

end Verif.Prescribed
