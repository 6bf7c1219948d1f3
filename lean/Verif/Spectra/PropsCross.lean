import Mathlib.Algebra.Order.BigOperators.Ring.Finset
import Mathlib.Algebra.Order.Chebyshev
import Mathlib.Tactic.Linarith
import Verif.Spectra.ModelCross
import Verif.Spectra.Spec

/-! # C61 (third part): the cross-correlations of the 3D solvers -/

namespace Verif.Spectra

open Finset

/-- **C61**: the cross-correlations saved: one for each pair of distinct variables of the state, in
the order of the variables. -/
theorem C61_cross_pairs {A : Type*} (keys : List A) (i j : ℕ) (a b : A) (hij : i < j)
    (ha : keys[i]? = some a) (hb : keys[j]? = some b) : (a, b) ∈ combinations keys := by
  induction keys generalizing i j with
  | nil => simp at ha
  | cons x l ih =>
    cases j with
    | zero => omega
    | succ j =>
      cases i with
      | zero =>
        have hx : x = a := by simpa using ha
        subst hx
        rw [List.getElem?_cons_succ] at hb
        exact List.mem_append_left _ (List.mem_map.2 ⟨b, List.mem_of_getElem? hb, rfl⟩)
      | succ i =>
        rw [List.getElem?_cons_succ] at ha hb
        exact List.mem_append_right _ (ih i j (by omega) ha hb)

/-- **C61**: and there are no others. -/
theorem C61_cross_only_pairs {A : Type*} (keys : List A) (p : A × A) (h : p ∈ combinations keys) :
    ∃ i j : ℕ, i < j ∧ keys[i]? = some p.1 ∧ keys[j]? = some p.2 := by
  induction keys with
  | nil => cases h
  | cons x l ih =>
    rcases List.mem_append.1 h with h | h
    · obtain ⟨b, hb, rfl⟩ := List.mem_map.1 h
      obtain ⟨j, hj⟩ := List.mem_iff_getElem?.1 hb
      exact ⟨0, j + 1, by omega, by simp, by simpa using hj⟩
    · obtain ⟨i, j, hij, h1, h2⟩ := ih h
      exact ⟨i + 1, j + 1, by omega, by simpa using h1, by simpa using h2⟩

/-- **C61**: for the two families of solvers the names are `xy`, `xz`, `yz` and those with `b`;
they are distinct, so that no cross-correlation overwrites another one. -/
theorem C61_cross_names :
    crossKeys ["vx_fft".toList, "vy_fft".toList, "vz_fft".toList]
      = ["xy".toList, "xz".toList, "yz".toList] ∧
    crossKeys ["vx_fft".toList, "vy_fft".toList, "vz_fft".toList, "b_fft".toList]
      = ["xy".toList, "xz".toList, "xb".toList, "yz".toList, "yb".toList, "zb".toList] := by
  constructor <;> decide +kernel

/-- Half the energy of a complex amplitude, twice: `|z|²`. -/
noncomputable def mode2 (z : ℂ) : ℝ := ‖z‖ ^ 2

theorem crossMode_polar (f g : ℂ) :
    crossMode f g = -((mode2 (f + g) - mode2 f - mode2 g) / 2) := by
  simp only [crossMode, mode2, ← Complex.normSq_eq_norm_sq, Complex.normSq_apply, Complex.add_re,
    Complex.add_im, Complex.mul_re, Complex.conj_re, Complex.conj_im]
  ring

/-- **C61**: a cross-correlation is minus the part of the energy spectrum of the sum of the two
fields which is not in their own energy spectra, in each bin, whatever the fields: if it is zero
the energy spectra add. -/
theorem C61_cross_values {M B : Type*} [Fintype M] [Fintype B] (dk : ℝ) (mult : M → ℝ)
    (sp : (M → ℝ) → B → ℝ) (hsp : IsSpectrum dk mult sp) (f g : M → ℂ) (b : B) :
    sp (fun m => mode2 (f m + g m)) b
      = sp (fun m => mode2 (f m)) b + sp (fun m => mode2 (g m)) b
        - 2 * crossSpectrum sp f g b := by
  obtain ⟨w, -, -, hl⟩ := hsp.weights
  simp only [crossSpectrum, hl, mul_sum, ← sum_add_distrib, ← sum_sub_distrib, crossMode_polar]
  exact sum_congr rfl fun m _ => by ring

/-- **C61**: the sum of a cross-correlation over the bins, times their width, is minus the sum over
the modes of the real part of the product (the mean product of the two fields, by Parseval). -/
theorem C61_cross_total {M B : Type*} [Fintype M] [Fintype B] (dk : ℝ) (mult : M → ℝ)
    (sp : (M → ℝ) → B → ℝ) (hsp : IsSpectrum dk mult sp) (f g : M → ℂ) :
    ∑ b, crossSpectrum sp f g b * dk = -∑ m, mult m * (f m * (starRingEnd ℂ) (g m)).re := by
  obtain ⟨w, -, hm, hl⟩ := hsp.weights
  simp only [crossSpectrum, hl, sum_mul]
  rw [sum_comm, ← sum_neg_distrib]
  refine sum_congr rfl fun m _ => ?_
  rw [← hm m, sum_mul, ← sum_neg_distrib]
  refine sum_congr rfl fun b _ => ?_
  simp only [crossMode, Complex.mul_re, Complex.conj_re, Complex.conj_im]
  ring

/-- **C61**: in each bin the cross-correlation is bounded by the energy spectra of the two fields
(a correlation coefficient is at most one), whatever the fields. -/
theorem C61_cross_bound {M B : Type*} [Fintype M] [Fintype B] (dk : ℝ) (mult : M → ℝ)
    (sp : (M → ℝ) → B → ℝ) (hsp : IsSpectrum dk mult sp) (f g : M → ℂ) (b : B) :
    crossSpectrum sp f g b ^ 2 ≤ sp (fun m => mode2 (f m)) b * sp (fun m => mode2 (g m)) b := by
  obtain ⟨w, hw, -, hl⟩ := hsp.weights
  simp only [crossSpectrum, hl]
  have hmode : ∀ m, |crossMode (f m) (g m)| ≤ ‖f m‖ * ‖g m‖ := by
    intro m
    rw [crossMode, abs_neg]
    refine (Complex.abs_re_le_norm _).trans ?_
    rw [norm_mul, RCLike.norm_conj]
  have h1 : |∑ m, w m b * crossMode (f m) (g m)| ≤ ∑ m, w m b * (‖f m‖ * ‖g m‖) := by
    refine (abs_sum_le_sum_abs _ _).trans (sum_le_sum fun m _ => ?_)
    rw [abs_mul, abs_of_nonneg (hw m b)]
    exact mul_le_mul_of_nonneg_left (hmode m) (hw m b)
  have h2 : (∑ m, w m b * (‖f m‖ * ‖g m‖)) ^ 2
      ≤ (∑ m, w m b * mode2 (f m)) * ∑ m, w m b * mode2 (g m) := by
    have := sum_mul_sq_le_sq_mul_sq univ (fun m => Real.sqrt (w m b) * ‖f m‖)
      fun m => Real.sqrt (w m b) * ‖g m‖
    have e1 : ∀ m, Real.sqrt (w m b) * ‖f m‖ * (Real.sqrt (w m b) * ‖g m‖)
        = w m b * (‖f m‖ * ‖g m‖) := by
      intro m
      rw [mul_mul_mul_comm, Real.mul_self_sqrt (hw m b)]
    have e2 : ∀ (z : ℂ) m, (Real.sqrt (w m b) * ‖z‖) ^ 2 = w m b * mode2 z := by
      intro z m
      rw [mul_pow, Real.sq_sqrt (hw m b), mode2]
    simpa only [e1, e2] using this
  refine le_trans ?_ h2
  rw [← sq_abs]
  exact pow_le_pow_left₀ (abs_nonneg _) h1 2

example : crossMode (1 + Complex.I) (2 : ℂ) = -2 ∧ mode2 (1 + Complex.I) = 2 := by
  constructor
  · simp [crossMode]
  · rw [mode2, ← Complex.normSq_eq_norm_sq, Complex.normSq_apply]; norm_num

/-- **C61**: in the names, `v` is removed only from the components of the velocity, whose names have two letters; the
names of the other variables are kept. -/
theorem C61_cross_small_key (name : List Char) :
    (∀ c, name = ['v', c] → smallKey (name ++ "_fft".toList) = [c]) ∧
    ((∀ c, name ≠ ['v', c]) → smallKey (name ++ "_fft".toList) = name) := by
  have e : (name ++ "_fft".toList).take ((name ++ "_fft".toList).length - 4) = name := by
    rw [List.length_append]
    simp
  refine ⟨fun c h => ?_, fun h => ?_⟩
  · simp only [smallKey, e]
    subst h
    simp
  · simp only [smallKey, e]
    rw [if_neg]
    intro hc
    simp only [Bool.and_eq_true, decide_eq_true_eq] at hc
    obtain ⟨a, b, rfl⟩ := List.length_eq_two.1 hc.1
    simp only [List.head?_cons, Option.some.injEq] at hc
    exact h b (by rw [hc.2])

example : crossKeys ["vx_fft".toList, "vort_fft".toList] = ["xvort".toList] := by decide +kernel

end Verif.Spectra
