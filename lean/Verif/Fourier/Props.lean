import Verif.Fourier.Lemmas
import Mathlib.Tactic.NormNum
import Mathlib.Tactic.FinCases
import Mathlib.Data.Fin.VecNotation
import Mathlib.Algebra.BigOperators.Fin

/-! # C07, C08: aliasing -/

set_option linter.unusedSectionVars false

namespace Verif.Fourier

open Finset

noncomputable section

variable {D : Type*} [Fintype D] [DecidableEq D]

/-! ### C07 -/

/-- **C07** (`truncation_shape = "spherical"`) In any dimension, for any fields supported by
the kept modes, each kept mode of a product computed on the grid is that of the exact product,
if `coef_dealiasing ≤ 2/3` and no direction has a smaller maximal wavenumber than x. -/
theorem C07_spherical_truncation_partial (δ : D → ℝ) (n : D → ℕ) (x : D) (coef : ℝ)
    (hδ : ∀ d, 0 < δ d) (hn : ∀ d, 0 < n d) (hc0 : 0 ≤ coef) (hc : coef ≤ 2 / 3)
    (hiso : ∀ d, δ x * n x ≤ δ d * n d)
    (S : Finset (D → ℤ)) (hS : ∀ p ∈ S, keptSpherical δ n x coef p)
    (u v : (D → ℤ) → ℂ) (k : D → ℤ) (hk : keptSpherical δ n x coef k) :
    gridProduct n S u v k = exactProduct S u v k := by
  apply gridProduct_eq_exact n hn
  intro p hp q hq h
  refine eq_of_seen_small n p q k (fun d => ⟨?_, ?_, ?_⟩) h
  · exact spherical_bound δ n x coef hδ hc0 hc hiso p (hS p hp) d
  · exact spherical_bound δ n x coef hδ hc0 hc hiso q (hS q hq) d
  · exact spherical_bound δ n x coef hδ hc0 hc hiso k hk d

/-- the product of two modes, seen on the grid -/
theorem gridProduct_two_modes (n : D → ℕ) (hn : ∀ d, 0 < n d) (p q k : D → ℤ)
    (hs : Seen n p q k) :
    gridProduct n {p, q} (fun r => if r = p then 1 else 0) (fun r => if r = q then 1 else 0) k
      = 1 := by
  rw [gridProduct_eq n hn, sum_eq_single p, sum_eq_single q]
  · simp [hs]
  · intro r _ hr; simp [hr]
  · intro h; simp at h
  · intro r _ hr; simp [hr]
  · intro h; simp at h

theorem exactProduct_two_modes (p q k : D → ℤ) (hs : p + q ≠ k) :
    exactProduct {p, q} (fun r => if r = p then 1 else 0) (fun r => if r = q then (1 : ℂ) else 0) k
      = 0 := by
  rw [exactProduct]
  apply sum_eq_zero; intro a _
  apply sum_eq_zero; intro b _
  by_cases h : a + b = k
  · by_cases ha : a = p
    · by_cases hb : b = q
      · subst ha hb; exact absurd h hs
      · simp [hb]
    · simp [ha]
  · simp [h]

/-- **C07** (finding) The condition on the other directions is needed: `kmax` is computed from
the direction x only, so with 48 × 24 points on a square the spherical truncation removes no
aliasing in y. -/
theorem C07_spherical_anisotropic_violated :
    ¬ ∀ (δ : Fin 2 → ℝ) (n : Fin 2 → ℕ) (S : Finset (Fin 2 → ℤ)) (u v : (Fin 2 → ℤ) → ℂ)
      (k : Fin 2 → ℤ), (∀ d, 0 < δ d) → (∀ d, 0 < n d) →
      (∀ p ∈ S, keptSpherical δ n 0 (2 / 3) p) → keptSpherical δ n 0 (2 / 3) k →
      gridProduct n S u v k = exactProduct S u v k := by
  intro H
  have hn : ∀ d, 0 < (![48, 24] : Fin 2 → ℕ) d := by intro d; fin_cases d <;> simp
  have h1 := H (fun _ => 1) ![48, 24] {![0, 10], ![0, 11]}
    (fun r => if r = ![0, 10] then 1 else 0) (fun r => if r = ![0, 11] then 1 else 0) ![0, -3]
    (by simp) hn
    (by
      intro p hp
      simp only [mem_insert, mem_singleton] at hp
      rcases hp with rfl | rfl <;>
        simp [keptSpherical, Fin.sum_univ_two] <;> norm_num)
    (by simp [keptSpherical, Fin.sum_univ_two]; norm_num)
  rw [gridProduct_two_modes _ hn _ _ _ (by intro d; fin_cases d <;> simp),
    exactProduct_two_modes _ _ _ (by
      intro h; have := congrFun h 1; simp at this)] at h1
  exact one_ne_zero h1

/-- **C07** (1D operator, default `coef_dealiasing = 2/3`) Partial: for odd numbers of points
and for numbers of points that are not multiples of 3. -/
theorem C07_1d_truncation_partial (δ : ℝ) (hδ : 0 < δ) (nx : ℕ) (hn : 0 < nx)
    (h3 : nx % 2 = 1 ∨ ¬ 3 ∣ nx)
    (S : Finset (Unit → ℤ)) (hS : ∀ p ∈ S, kept1d δ nx (2 / 3) (p ()))
    (u v : (Unit → ℤ) → ℂ) (k : Unit → ℤ) (hk : kept1d δ nx (2 / 3) (k ())) :
    gridProduct (fun _ => nx) S u v k = exactProduct S u v k := by
  have bound : ∀ k : ℤ, kept1d δ nx (2 / 3) k → 3 * |k| < nx := by
    intro k hk
    rw [kept1d, not_lt, abs_mul, abs_of_pos hδ] at hk
    have h1 : δ * |(k : ℝ)| ≤ δ * (2 / 3 * (nx / 2 : ℕ)) := by
      push_cast at hk ⊢; linarith
    have h2 : |(k : ℝ)| ≤ 2 / 3 * (nx / 2 : ℕ) := le_of_mul_le_mul_left h1 hδ
    have h4 : 3 * |k| ≤ 2 * ((nx / 2 : ℕ) : ℤ) := by
      generalize nx / 2 = m at h2 ⊢
      have : ((3 * |k| : ℤ) : ℝ) ≤ ((2 * (m : ℤ) : ℤ) : ℝ) := by push_cast; linarith
      exact_mod_cast this
    rcases h3 with h | h
    · omega
    · have : 3 * |k| ≠ nx := by
        intro e
        have h' : (3 : ℤ) ∣ (nx : ℤ) := ⟨|k|, e.symm⟩
        exact h (by exact_mod_cast h')
      omega
  apply gridProduct_eq_exact _ (fun _ => hn)
  intro p hp q hq h
  exact eq_of_seen_small _ p q k
    (fun d => ⟨bound _ (hS p hp), bound _ (hS q hq), bound _ hk⟩) h

/-- **C07** (finding) The mask of the 1D operator keeps `|k| = nx/3` (`>` instead of `>=`):
for the default `nx = 48` the kept modes 16 and 16 alias onto the kept mode -16. -/
theorem C07_1d_truncation_violated :
    ¬ ∀ (δ : ℝ) (nx : ℕ) (S : Finset (Unit → ℤ)) (u v : (Unit → ℤ) → ℂ) (k : Unit → ℤ),
      0 < δ → 0 < nx → (∀ p ∈ S, kept1d δ nx (2 / 3) (p ())) → kept1d δ nx (2 / 3) (k ()) →
      gridProduct (fun _ => nx) S u v k = exactProduct S u v k := by
  intro H
  have h1 := H 1 48 {fun _ => 16, fun _ => 16}
    (fun r => if r = fun _ => 16 then 1 else 0) (fun r => if r = fun _ => 16 then 1 else 0)
    (fun _ => -16) one_pos (by norm_num)
    (by
      intro p hp
      simp only [mem_insert, mem_singleton, or_self] at hp
      subst hp
      simp only [kept1d, one_mul]; norm_num)
    (by simp only [kept1d, one_mul]; norm_num)
  rw [gridProduct_two_modes _ (by simp) _ _ _ (by intro d; norm_num),
    exactProduct_two_modes _ _ _ (by
      intro h; have := congrFun h (); simp at this)] at h1
  exact one_ne_zero h1

/-! ### C08 -/

/-- **C08** Averaging the evaluations with two shifts that differ by half a cell in each
direction (as the random pairs do): every triad of modes has the weight `pairWeight`. -/
theorem C08_pair_average_weights (L : D → ℝ) (hL : ∀ d, L d ≠ 0) (n : D → ℕ)
    (hn : ∀ d, 0 < n d) (a b : D → ℝ) (hab : ∀ d, b d = a d + 1 / 2 ∨ b d = a d - 1 / 2)
    (S : Finset (D → ℤ)) (u v : (D → ℤ) → ℂ) (k : D → ℤ) :
    pairAverage L n a b S u v k
      = ∑ p ∈ S, ∑ q ∈ S, pairWeight n a p q k * (u p * v q) :=
  pairAverage_eq L hL n hn a b hab S u v k

/-- **C08** ... which is one for the exact triads, and zero for the triads aliased an odd
number of times; in particular those aliased once in exactly one direction. -/
theorem C08_weights (n : D → ℕ) (hn : ∀ d, 0 < n d) (a : D → ℝ) (p q k : D → ℤ) :
    (p + q = k → pairWeight n a p q k = 1) ∧
    (∀ m : D → ℤ, (∀ d, p d + q d = k d + n d * m d) → Odd (∑ d, m d) →
      pairWeight n a p q k = 0) ∧
    (∀ d₀, ∀ s : ℤ, (s = 1 ∨ s = -1) → (∀ d, p d + q d = k d + if d = d₀ then n d * s else 0) →
      pairWeight n a p q k = 0) := by
  have key : ∀ m : D → ℤ, (∀ d, p d + q d = k d + n d * m d) → Odd (∑ d, m d) →
      pairWeight n a p q k = 0 := by
    intro m hm ho
    have : aliasVec n p q k = m := by
      funext d
      simp only [aliasVec, hm d]
      rw [add_sub_cancel_left, Int.mul_ediv_cancel_left _ (by exact_mod_cast (hn d).ne')]
    rw [pairWeight, this, if_neg]
    rintro ⟨-, he⟩
    exact (Int.not_even_iff_odd.2 ho) he
  refine ⟨?_, key, ?_⟩
  · rintro rfl
    have : Seen n p q (p + q) := fun d => by simp
    simp [pairWeight, this, aliasVec_exact]
  · intro d₀ s hs h
    refine key (fun d => if d = d₀ then s else 0) ?_ ?_
    · intro d; rw [h d]; by_cases hd : d = d₀ <;> simp [hd]
    · simp only [sum_ite_eq', mem_univ, if_true]
      rcases hs with rfl | rfl <;> decide

/-- **C08** The average with the state shifted by half a cell (`Euler_phaseshift`,
`RK2_phaseshift_exact`): same weights with `a = 0`, i.e. one for the triads aliased an even
number of times. -/
theorem C08_half_shift_weights (L : D → ℝ) (hL : ∀ d, L d ≠ 0) (n : D → ℕ)
    (hn : ∀ d, 0 < n d) (S : Finset (D → ℤ)) (u v : (D → ℤ) → ℂ) (k : D → ℤ) :
    halfShiftAverage L n S u v k
      = ∑ p ∈ S, ∑ q ∈ S,
          (if Seen n p q k ∧ Even (∑ d, aliasVec n p q k d) then u p * v q else 0) := by
  rw [halfShift_is_pair, pairAverage_eq L hL n hn _ _ (fun d => by left; norm_num)]
  apply sum_congr rfl; intro p _
  apply sum_congr rfl; intro q _
  rw [pairWeight]
  split <;> simp

/-- **C08** (complete dealiasing) With the spherical truncation with
`coef_dealiasing ≤ 2√2/3`, the average is the exact product on all kept modes. -/
theorem C08_phaseshift_and_truncation_exact (L : D → ℝ) (hL : ∀ d, L d ≠ 0) (δ : D → ℝ)
    (n : D → ℕ) (x : D)
    (coef : ℝ) (hδ : ∀ d, 0 < δ d) (hn : ∀ d, 0 < n d) (hc : coef ^ 2 ≤ 8 / 9)
    (hiso : ∀ d, δ x * n x ≤ δ d * n d) (a b : D → ℝ)
    (hab : ∀ d, b d = a d + 1 / 2 ∨ b d = a d - 1 / 2)
    (S : Finset (D → ℤ)) (hS : ∀ p ∈ S, keptSpherical δ n x coef p)
    (u v : (D → ℤ) → ℂ) (k : D → ℤ) (hk : keptSpherical δ n x coef k) :
    pairAverage L n a b S u v k = exactProduct S u v k ∧
    halfShiftAverage L n S u v k = exactProduct S u v k := by
  have key : ∀ a b : D → ℝ, (∀ d, b d = a d + 1 / 2 ∨ b d = a d - 1 / 2) →
      pairAverage L n a b S u v k = exactProduct S u v k := by
    intro a b hab
    rw [pairAverage_eq L hL n hn a b hab, exactProduct]
    apply sum_congr rfl; intro p hp
    apply sum_congr rfl; intro q hq
    by_cases h : p + q = k
    · rw [(C08_weights n hn a p q k).1 h, one_mul, if_pos h]
    · rw [if_neg h, pairWeight, if_neg, zero_mul]
      rintro ⟨hs, he⟩
      exact h (no_even_alias δ n x coef hδ hn hc hiso p q k (hS p hp) (hS q hq) hk hs he)
  refine ⟨key a b hab, ?_⟩
  rw [halfShift_is_pair]
  exact key _ _ (fun d => by left; norm_num)

/-- **C08** (finding) `truncation_shape = "no_multiple_aliases"` (with `coef_dealiasing` not
set) does not remove all the multiple aliases: with 16 × 16 points the kept modes (7, 5) and
(5, 7) alias onto the kept mode (-4, -4), in both directions, also with the phase shift. -/
theorem C08_no_multiple_aliases_violated :
    ¬ ∀ (n : Fin 2 → ℕ) (S : Finset (Fin 2 → ℤ)) (u v : (Fin 2 → ℤ) → ℂ) (k : Fin 2 → ℤ),
      (∀ d, 0 < n d) → (∀ p ∈ S, keptNoMultipleAliases (fun _ => 1) n 0 none p) →
      keptNoMultipleAliases (fun _ => 1) n 0 none k →
      halfShiftAverage (fun _ => 1) n S u v k = exactProduct S u v k := by
  intro H
  have hkept : ∀ k : Fin 2 → ℤ, (|k 0| ≤ 5 ∨ |k 1| ≤ 5) →
      keptNoMultipleAliases (fun _ => 1) (fun _ => 16) 0 none k := by
    intro k hk h
    rcases h with ⟨d, d', hdd, h1, h2⟩ | ⟨c, hc, -⟩
    · have hb : ∀ d : Fin 2, |(1 : ℝ) * k d| ≥ 2 / 3 * 1 * (16 : ℕ) / 2 → 5 < |k d| := by
        intro d h
        by_contra hcon
        push Not at hcon
        have : ((|k d| : ℤ) : ℝ) ≤ 5 := by exact_mod_cast hcon
        rw [one_mul] at h
        push_cast at this h
        linarith
      have e1 := hb d h1
      have e2 := hb d' h2
      fin_cases d <;> fin_cases d' <;> simp at hdd e1 e2 <;> omega
    · cases hc
  have h1 := H (fun _ => 16) {![7, 5], ![5, 7]}
    (fun r => if r = ![7, 5] then 1 else 0) (fun r => if r = ![5, 7] then 1 else 0) ![-4, -4]
    (by simp)
    (by
      intro p hp
      simp only [mem_insert, mem_singleton] at hp
      rcases hp with rfl | rfl <;> apply hkept <;> simp)
    (by apply hkept; simp)
  have hs : Seen (fun _ : Fin 2 => 16) ![7, 5] ![5, 7] ![-4, -4] := by
    intro d; fin_cases d <;> simp
  rw [exactProduct_two_modes _ _ _ (by
      intro h; have := congrFun h 1; simp at this), halfShiftAverage] at h1
  rw [← halfShiftAverage, C08_half_shift_weights _ (by simp) _ (by simp),
    sum_eq_single ![7, 5], sum_eq_single ![5, 7]] at h1
  · rw [if_pos] at h1
    · simp at h1
    · refine ⟨hs, ?_⟩
      simp [aliasVec, Fin.sum_univ_two]
  · intro r _ hr; simp [hr]
  · intro h; simp at h
  · intro r _ hr; simp [hr]
  · intro h; simp at h

/-! ### Non-vacuity -/

/-- a kept mode that is not small: (15, 0) on 48 × 48 points, coefficient 2/3 -/
example : keptSpherical (fun _ => 1) (fun _ : Fin 2 => 48) 0 (2 / 3) ![15, 3] := by
  simp [keptSpherical, Fin.sum_univ_two]; norm_num

/-- with `coef_dealiasing = 0.94` modes beyond the 2/3 rule are kept -/
example : keptSpherical (fun _ => 1) (fun _ : Fin 2 => 48) 0 (94 / 100) ![20, 3] ∧
    ((94 / 100 : ℝ)) ^ 2 ≤ 8 / 9 := by
  constructor
  · simp [keptSpherical, Fin.sum_univ_two]; norm_num
  · norm_num

/-- `kept1d` with 46 points keeps the mode 15 -/
example : kept1d 1 46 (2 / 3) 15 ∧ ¬ 3 ∣ 46 := by
  constructor
  · simp only [kept1d, one_mul]; norm_num
  · decide

end

end Verif.Fourier
