import Verif.Burgers.Model
import Verif.Energy.Props

/-!
# C51: energy of the one-dimensional solvers

`rate S u T` is the rate of change of `1/2 Σ_k |u_k|²` when `u` has the tendency `T`.
-/

namespace Verif.Burgers

open Verif.Fourier Verif.Energy Finset

noncomputable section

/-- Mean over the grid of `u² ∂x u`: zero for the fields themselves, but possibly not on a grid. -/
def cubic (nx : ℕ) (S : Finset (Unit → ℤ)) (δ : ℝ) (u : Fld Unit) : ℂ :=
  (∑ j : Pt (fun _ : Unit => nx),
    gridVal (fun _ => nx) S u j ^ 2 * gridVal (fun _ => nx) S (px δ u) j) / nx

theorem px_deriv (δ : ℝ) (u : Fld Unit) : px δ u = Energy.deriv (fun _ => δ) () u := rfl

theorem cubic_gmean (nx : ℕ) (S : Finset (Unit → ℤ)) (δ : ℝ) (u : Fld Unit) :
    cubic nx S δ u = gmean (fun _ : Unit => nx) (fun j =>
      gridVal (fun _ => nx) S u j ^ 2 * gridVal (fun _ => nx) S (px δ u) j) := by
  simp [cubic, gmean]

variable {nx : ℕ} {S : Finset (Unit → ℤ)} {u : Fld Unit}

theorem sum_kept {g : Fld Unit} (hodd : ∀ k ∈ S, |k ()| = (nx / 2 : ℕ) → u k = 0) :
    ∑ k ∈ S, (if kept nx S k then g k else 0) * (starRingEnd ℂ) (u k)
      = ∑ k ∈ S, g k * (starRingEnd ℂ) (u k) := by
  refine sum_congr rfl fun k hk => ?_
  by_cases h : |k ()| = (nx / 2 : ℕ)
  · simp [hodd k hk h]
  · rw [if_pos ⟨hk, by push_cast at h ⊢; simpa using h⟩]

theorem convective_work (δ : ℝ) (hreal : RealOn S u)
    (hodd : ∀ k ∈ S, |k ()| = (nx / 2 : ℕ) → u k = 0) :
    ∑ k ∈ S, convective nx S δ u k * (starRingEnd ℂ) (u k) = -cubic nx S δ u := by
  simp only [convective]
  rw [sum_kept hodd, parseval_real _ _ hreal, cubic_gmean, ← gmean_neg]
  exact gmean_congr _ fun j => by ring

theorem skew_work (δ : ℝ) (hreal : RealOn S u)
    (hodd : ∀ k ∈ S, |k ()| = (nx / 2 : ℕ) → u k = 0) :
    ∑ k ∈ S, skewSym nx S δ u k * (starRingEnd ℂ) (u k) = -(1 / 4) * cubic nx S δ u := by
  simp only [skewSym]
  rw [sum_kept hodd]
  simp only [add_mul, sum_add_distrib]
  have h2 : ∀ x : Pt (fun _ : Unit => nx) → ℂ, ∀ k, -0.25 * px δ (fftCoef (fun _ => nx) x) k
      * (starRingEnd ℂ) (u k) = 0.25 * (fftCoef (fun _ => nx) x k * (starRingEnd ℂ) (px δ u k)) := by
    intro x k
    simp only [px, map_mul, Complex.conj_I, Complex.conj_ofReal]
    ring
  simp only [h2]
  rw [← mul_sum, parseval_real _ _ hreal, px_deriv, parseval_real _ _ (hreal.deriv _ _), cubic_gmean,
    ← px_deriv, ← gmean_mul, ← gmean_mul, ← gmean_add]
  exact gmean_congr _ fun j => by norm_num; ring

/-- C51: for every state (aliased or not) the skew-symmetric form of the code changes the energy four
times more slowly than the convective form of burgers1d, and not at all only if this one does not
either. -/
theorem C51_skew_quarter (δ : ℝ) (hreal : RealOn S u)
    (hodd : ∀ k ∈ S, |k ()| = (nx / 2 : ℕ) → u k = 0) :
    rate S u (skewSym nx S δ u) = 1 / 4 * rate S u (convective nx S δ u) := by
  rw [rate, rate, ← Complex.re_sum, ← Complex.re_sum, skew_work δ hreal hodd,
    convective_work δ hreal hodd]
  have h : -(1 / 4 : ℂ) * cubic nx S δ u = ((-(1 / 4) : ℝ) : ℂ) * cubic nx S δ u := by push_cast; ring
  rw [h, Complex.re_ofReal_mul, Complex.neg_re]
  ring

theorem cubic_zero (hn : 0 < nx) (δ : ℝ) (hS : TriadExact (fun _ => nx) S) : cubic nx S δ u = 0 := by
  have h := leibniz (fun _ => hn) hS (fun _ : Unit => δ) () u u u
  rw [cubic_gmean]
  have e1 : gmean (fun _ : Unit => nx) (fun j => gridVal (fun _ => nx) S (Energy.deriv (fun _ => δ) () u) j
      * gridVal (fun _ => nx) S u j * gridVal (fun _ => nx) S u j)
      = gmean (fun _ : Unit => nx) (fun j =>
      gridVal (fun _ => nx) S u j ^ 2 * gridVal (fun _ => nx) S (px δ u) j) :=
    gmean_congr _ fun j => by rw [px_deriv]; ring
  have e2 : gmean (fun _ : Unit => nx) (fun j => gridVal (fun _ => nx) S u j
      * gridVal (fun _ => nx) S (Energy.deriv (fun _ => δ) () u) j * gridVal (fun _ => nx) S u j)
      = gmean (fun _ : Unit => nx) (fun j =>
      gridVal (fun _ => nx) S u j ^ 2 * gridVal (fun _ => nx) S (px δ u) j) :=
    gmean_congr _ fun j => by rw [px_deriv]; ring
  have e3 : gmean (fun _ : Unit => nx) (fun j => gridVal (fun _ => nx) S u j
      * gridVal (fun _ => nx) S u j * gridVal (fun _ => nx) S (Energy.deriv (fun _ => δ) () u) j)
      = gmean (fun _ : Unit => nx) (fun j =>
      gridVal (fun _ => nx) S u j ^ 2 * gridVal (fun _ => nx) S (px δ u) j) :=
    gmean_congr _ fun j => by rw [px_deriv]; ring
  rw [e1, e2, e3] at h
  linear_combination h / 3

/-- A truncation of the 1D operator that removes the aliases: the modes with `3 |k| < nx`. -/
theorem triad_1d (h3 : ∀ k ∈ S, 3 * |k ()| < nx) :
    TriadExact (fun _ : Unit => nx) S ∧ (∀ k ∈ S, |k ()| = (nx / 2 : ℕ) → k () = 0) := by
  refine ⟨(C37_truncation (fun _ => nx) S fun k hk _ => h3 k hk).1, fun k hk h => ?_⟩
  have := h3 k hk
  have h0 : |k ()| = 0 := by omega
  exact abs_eq_zero.mp h0

/-- C51 (partial: only with a truncation that removes the aliases, `3 |k| < nx`): both forms of the
Burgers equation conserve the energy. -/
theorem C51_conserved_partial (hn : 1 < nx) (δ : ℝ) (hreal : RealOn S u)
    (h3 : ∀ k ∈ S, 3 * |k ()| < nx) :
    rate S u (skewSym nx S δ u) = 0 ∧ rate S u (convective nx S δ u) = 0 := by
  obtain ⟨hS, ho⟩ := triad_1d h3
  have hodd : ∀ k ∈ S, |k ()| = (nx / 2 : ℕ) → u k = 0 := by
    intro k hk h
    have h0 := ho k hk h
    rw [h0] at h
    simp only [abs_zero] at h
    omega
  have h : rate S u (convective nx S δ u) = 0 := by
    rw [rate, ← Complex.re_sum, convective_work δ hreal hodd, cubic_zero (by omega) δ hS]
    simp
  exact ⟨by rw [C51_skew_quarter δ hreal hodd, h, mul_zero], h⟩

/-- C51: the mean of the velocity is conserved by both forms, for every state, provided only that two
kept modes are never the same on the grid. -/
theorem C51_mean (hn : 0 < nx) (δ : ℝ) (hreal : RealOn S u) (hD : Distinct (fun _ => nx) S) :
    convective nx S δ u 0 = 0 ∧ skewSym nx S δ u 0 = 0 := by
  have key : ∑ p ∈ S, u p * ((starRingEnd ℂ) (px δ u p)) = 0 := by
    have h1 : ∑ p ∈ S, u p * ((starRingEnd ℂ) (px δ u p))
        = ∑ p ∈ S, -(u p * ((starRingEnd ℂ) (px δ u p))) := by
      refine sum_nbij' (fun k => -k) (fun k => -k) (fun k hk => (hreal k hk).1)
        (fun k hk => (hreal k hk).1) (by simp) (by simp) ?_
      intro k hk
      simp only [px, (hreal k hk).2, map_mul, Complex.conj_I, Complex.conj_ofReal, Complex.conj_conj,
        Pi.neg_apply]
      push_cast
      ring
    rw [sum_neg_distrib] at h1
    linear_combination h1 / 2
  have hg : gmean (fun _ : Unit => nx) (fun j => gridVal (fun _ => nx) S u j
      * gridVal (fun _ => nx) S (px δ u) j) = 0 := by
    rw [px_deriv, ← parseval_real _ _ (hreal.deriv (fun _ => δ) ()), ← key]
    exact sum_congr rfl fun k hk => by rw [fft_grid (fun _ => hn) hD u hk, px_deriv]
  have hf : ∀ x : Pt (fun _ : Unit => nx) → ℂ, fftCoef (fun _ => nx) x 0 = gmean _ x := by
    intro x
    simp [fftCoef, gmean, chi]
  constructor
  · simp only [convective]
    split
    · rw [hf, ← neg_zero, ← hg, ← gmean_neg]
      exact gmean_congr _ fun j => by ring
    · rfl
  · simp only [skewSym]
    split
    · have h2 : px δ (fftCoef (fun _ => nx) (fun j => gridVal (fun _ => nx) S u j ^ 2)) 0 = 0 := by
        simp [px]
      rw [h2, hf, mul_zero, add_zero]
      have : gmean (fun _ : Unit => nx) (fun j => -0.5 * gridVal (fun _ => nx) S u j
          * gridVal (fun _ => nx) S (px δ u) j) = -0.5 * gmean (fun _ : Unit => nx) (fun j =>
            gridVal (fun _ => nx) S u j * gridVal (fun _ => nx) S (px δ u) j) := by
        rw [← gmean_mul]
        exact gmean_congr _ fun j => by ring
      rw [this, hg, mul_zero]
    · rfl

/-- All the kept modes of the default truncation on 6 points. -/
def exS : Finset (Unit → ℤ) := {fun _ => -2, fun _ => -1, fun _ => 0, fun _ => 1, fun _ => 2}

/-- `u = -2 sin 2x`. -/
def exU : Fld Unit := fun k => if k () = 2 then Complex.I else if k () = -2 then -Complex.I else 0

theorem exS_real : RealOn exS exU := by
  intro k hk
  simp only [exS, mem_insert, mem_singleton] at hk
  rcases hk with rfl | rfl | rfl | rfl | rfl <;> refine ⟨by decide, by simp [exU]⟩

/-- The set of the modes kept by the mask of the 1D operator with its default coefficient 2/3. -/
theorem exS_kept (k : Unit → ℤ) : k ∈ exS ↔ kept1d 1 6 (2 / 3) (k ()) := by
  have hk : kept1d 1 6 (2 / 3) (k ()) ↔ |k ()| ≤ 2 := by
    simp only [kept1d, one_mul, not_lt]
    have : (2 / 3 : ℝ) * (((6 / 2 + 1 : ℕ) : ℝ) - 1) = 2 := by norm_num
    rw [this]
    exact_mod_cast Iff.rfl
  rw [hk, abs_le]
  have hx : ∀ a : ℤ, k = (fun _ => a) ↔ k () = a :=
    fun a => ⟨fun h => by rw [h], fun h => funext fun _ => h⟩
  simp only [exS, mem_insert, mem_singleton, hx]
  omega

/-- The two modes of `exU`. -/
def exP : Finset (Unit → ℤ) := {fun _ => -2, fun _ => 2}

theorem ex_grid (f : Fld Unit) (hf : ∀ k, exU k = 0 → f k = 0) (j : Pt (fun _ : Unit => 6)) :
    gridVal (fun _ => 6) exS f j = gridVal (fun _ => 6) exP f j := by
  symm
  refine sum_subset (by decide) fun k hk hk' => ?_
  rw [hf k, zero_mul]
  simp only [exS, exP, mem_insert, mem_singleton] at hk hk'
  rcases hk with rfl | rfl | rfl | rfl | rfl <;> simp_all [exU]

theorem ex_cubic : cubic 6 exS 1 exU = 4 := by
  have h : cubic 6 exS 1 exU = gmean (fun _ : Unit => 6) (fun j => gridVal (fun _ => 6) exP exU j
      * gridVal (fun _ => 6) exP exU j * gridVal (fun _ => 6) exP (px 1 exU) j) := by
    rw [cubic_gmean]
    refine gmean_congr _ fun j => ?_
    rw [ex_grid exU (fun _ h => h), ex_grid (px 1 exU) (fun k h => by simp [px, h])]
    ring
  rw [h, gmean_tri _ (fun _ => by norm_num)]
  have hne : (fun _ : Unit => (-2 : ℤ)) ≠ fun _ => 2 := by decide
  simp only [exP, sum_pair hne, exU, px]
  norm_num
  linear_combination -4 * Complex.I_sq

/-- C51 (finding): the skew-symmetric form of the code (`-1/2 u ∂x u - 1/4 ∂x u²`) does not conserve
the energy of aliased states, not even with the default truncation of the 1D operator (which keeps
`|k| = nx / 3`): the energy of `u = -2 sin 2x` on 6 points changes. -/
theorem C51_violated :
    ¬ ∀ (nx : ℕ) (δ : ℝ) (S : Finset (Unit → ℤ)) (u : Fld Unit), 0 < nx → 0 < δ →
      (∀ k, k ∈ S ↔ kept1d δ nx (2 / 3) (k ())) → RealOn S u →
      (∀ k ∈ S, |k ()| = (nx / 2 : ℕ) → u k = 0) → rate S u (skewSym nx S δ u) = 0 := by
  intro H
  have hodd : ∀ k ∈ exS, |k ()| = (6 / 2 : ℕ) → exU k = 0 := by
    intro k hk h
    have : |k ()| ≠ (6 / 2 : ℕ) := by revert k; decide
    exact absurd h this
  have h := H 6 1 exS exU (by norm_num) one_pos exS_kept exS_real hodd
  rw [rate, ← Complex.re_sum, skew_work 1 exS_real hodd, ex_cubic] at h
  norm_num at h

/-! ### nl1d -/

/-- C51: the energy of nl1d never increases if `sigma ≥ 0`, whatever the state and the truncation: its
rate is `-sigma` times the mean of `|s|³`. -/
theorem C51_nl1d (sigma : ℝ) (hreal : RealOn S u) :
    rate S u (nl1d nx S sigma u)
        = -sigma * ((∑ j : Pt (fun _ : Unit => nx), |(gridVal (fun _ => nx) S u j).re| ^ 3) / nx) ∧
      (0 ≤ sigma → rate S u (nl1d nx S sigma u) ≤ 0) := by
  have h0 : rate S u (nl1d nx S sigma u)
      = -sigma * ((∑ j : Pt (fun _ : Unit => nx), |(gridVal (fun _ => nx) S u j).re| ^ 3) / nx) := by
    have h1 : ∑ k ∈ S, nl1d nx S sigma u k * (starRingEnd ℂ) (u k)
        = ∑ k ∈ S, fftCoef (fun _ => nx) (fun j =>
            ((-Real.sign (gridVal (fun _ => nx) S u j).re * sigma
              * (gridVal (fun _ => nx) S u j).re ^ 2 : ℝ) : ℂ)) k * (starRingEnd ℂ) (u k) :=
      sum_congr rfl fun k hk => by simp only [nl1d, if_pos hk]
    rw [rate, ← Complex.re_sum, h1, parseval_real _ _ hreal]
    have h2 : ∀ j : Pt (fun _ : Unit => nx),
        ((-Real.sign (gridVal (fun _ => nx) S u j).re * sigma
              * (gridVal (fun _ => nx) S u j).re ^ 2 : ℝ) : ℂ) * gridVal (fun _ => nx) S u j
          = ((-sigma * |(gridVal (fun _ => nx) S u j).re| ^ 3 : ℝ) : ℂ) := by
      intro j
      have hr : gridVal (fun _ => nx) S u j = (((gridVal (fun _ => nx) S u j).re : ℝ) : ℂ) :=
        (Complex.conj_eq_iff_re.mp (real_grid hreal j)).symm
      generalize gridVal (fun _ => nx) S u j = z at hr ⊢
      generalize z.re = x at hr ⊢
      subst hr
      rw [← Complex.ofReal_mul]
      congr 1
      rcases lt_trichotomy x 0 with h | h | h
      · rw [Real.sign_of_neg h, abs_of_neg h]; ring
      · subst h; simp
      · rw [Real.sign_of_pos h, abs_of_pos h]; ring
    rw [gmean_congr _ h2]
    simp only [gmean, prod_const, card_univ, Fintype.card_unit, pow_one]
    rw [← Complex.ofReal_sum, ← mul_sum]
    have : (((-sigma * ∑ j : Pt (fun _ : Unit => nx), |(gridVal (fun _ => nx) S u j).re| ^ 3 : ℝ) : ℂ)
        / (nx : ℂ)) = ((-sigma * ((∑ j : Pt (fun _ : Unit => nx),
          |(gridVal (fun _ => nx) S u j).re| ^ 3) / nx) : ℝ) : ℂ) := by push_cast; ring
    rw [this, Complex.ofReal_re]
  refine ⟨h0, fun hs => ?_⟩
  rw [h0]
  have : 0 ≤ (∑ j : Pt (fun _ : Unit => nx), |(gridVal (fun _ => nx) S u j).re| ^ 3) / (nx : ℝ) := by
    positivity
  nlinarith

/-- The hypotheses are met: `u = -2 sin 2x` on 7 points (real, alias free, distinct modes) and, for the
aliased states, on 6 points. -/
example : RealOn exS exU ∧ (∀ k ∈ exS, 3 * |k ()| < ((7 : ℕ) : ℤ)) ∧ Distinct (fun _ => 6) exS ∧
    (∀ k ∈ exS, |k ()| = (6 / 2 : ℕ) → exU k = 0) ∧ exU (fun _ => 2) ≠ 0 := by
  refine ⟨exS_real, by decide, ?_, ?_, by simp [exU]⟩
  · have h : ∀ p ∈ exS, ∀ q ∈ exS, ((6 : ℤ) ∣ p () - q ()) → p = q := by decide
    exact fun p hp q hq hd => h p hp q hq (hd ())
  · intro k hk h
    have : |k ()| ≠ (6 / 2 : ℕ) := by revert k; decide
    exact absurd h this

end

end Verif.Burgers
