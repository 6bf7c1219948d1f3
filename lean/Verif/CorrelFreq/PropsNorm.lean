import Verif.CorrelFreq.Props
import Mathlib.Analysis.InnerProductSpace.PiL2

/-! # C75: frequencies, points, normalised correlations and plots -/

set_option linter.unusedSectionVars false

namespace Verif.CorrelFreq

open Finset

noncomputable section

/-! ### The frequencies -/

/-- With `periods_save.correl_freq = 1` the frequencies written in the file are the ones of the transforms of the
fields. Partial: see `C75_frequencies_violated`. -/
theorem C75_frequencies_partial (deltat : ℝ) (N i : ℕ) :
    omegas deltat 1 N i = trueOmega (stride 1 * deltat) N i := by
  unfold omegas trueOmega stride
  simp
  ring

theorem stride_ne (period : ℝ) (h : period ≠ 1) : (stride period : ℝ) ≠ period := by
  intro e
  unfold stride at e
  rcases le_total ⌈period - 1⌉₊ 1 with h' | h'
  · rw [max_eq_left h'] at e
    exact h (by exact_mod_cast e.symm)
  · rw [max_eq_right h'] at e
    have hp : (1 : ℝ) ≤ period := by rw [← e]; exact_mod_cast h'
    have := Nat.ceil_lt_add_one (show 0 ≤ period - 1 by linarith)
    rw [e] at this
    linarith

/-- FINDING: for any other value, all the frequencies of the file (except zero) are wrong: the fields are taken each
`period - 1` iterations (each iteration if `period ≤ 2`), the frequencies are computed for `period` iterations. -/
theorem C75_frequencies_violated (deltat period : ℝ) (N i : ℕ) (hdt : 0 < deltat) (hp : 0 < period) (h1 : period ≠ 1)
    (hN : 0 < N) (hi : 0 < i) : omegas deltat period N i ≠ trueOmega (stride period * deltat) N i := by
  intro e
  have hs : (0 : ℝ) < stride period := by
    have : 1 ≤ stride period := le_max_left _ _
    exact_mod_cast this
  have hN' : (0 : ℝ) < N := by exact_mod_cast hN
  have hi' : (0 : ℝ) < i := by exact_mod_cast hi
  have hpi := Real.pi_pos
  apply stride_ne period h1
  unfold omegas trueOmega at e
  rw [div_mul_eq_mul_div, div_eq_div_iff (by positivity) (by positivity)] at e
  have hne : 2 * Real.pi * i * (N * deltat) ≠ 0 := by positivity
  apply mul_left_cancel₀ hne
  linear_combination e

example : stride 10 = 9 := by
  unfold stride
  rw [show (10 : ℝ) - 1 = ((9 : ℕ) : ℝ) by norm_num, Nat.ceil_natCast]
  rfl

/-! ### The points -/

/-- If the numbers of rows of the processes are multiples of `coef_decimate`, the points used are the same as without
MPI. Partial: see `C75_points_violated`. -/
theorem C75_points_partial (c : ℕ) (hc : 0 < c) (ns : List ℕ) (h : ∀ n ∈ ns, c ∣ n) :
    rowsUsed c 0 ns = decimated c 0 ns.sum := by
  have key : ∀ off, rowsUsed c off ns = decimated c off ns.sum := by
    induction ns with
    | nil =>
      intro off
      have : (c - 1) / c = 0 := Nat.div_eq_of_lt (by omega)
      simp [rowsUsed, decimated, this]
    | cons n ns ih =>
      intro off
      rw [rowsUsed, ih (fun m hm => h m (List.mem_cons_of_mem _ hm)), List.sum_cons]
      obtain ⟨m, rfl⟩ := h n List.mem_cons_self
      unfold decimated
      have e1 : (c * m + c - 1) / c = m := by
        rw [show c * m + c - 1 = c - 1 + c * m by omega, Nat.add_mul_div_left _ _ hc, Nat.div_eq_of_lt (by omega),
          zero_add]
      have e2 : (c * m + ns.sum + c - 1) / c = m + (ns.sum + c - 1) / c := by
        rw [show c * m + ns.sum + c - 1 = ns.sum + c - 1 + c * m by omega, Nat.add_mul_div_left _ _ hc, add_comm]
      rw [e1, e2, List.range_add, List.map_append, List.map_map]
      congr 1
      congr 1
      funext i
      simp only [Function.comp]
      ring
  exact key 0

example : rowsUsed 2 0 [4, 2] = [0, 2, 4] := by decide

/-- FINDING: otherwise, the points used depend on the number of processes. -/
theorem C75_points_violated : rowsUsed 2 0 [3, 3] = [0, 2, 3, 5] ∧ rowsUsed 2 0 [6] = [0, 2, 4] := by
  decide

/-! ### Normalised correlations -/

/-- The correlations of `sites`. -/
def c4Of (N io1 : ℕ) (ranks : List (List (ℕ → ℝ))) : ℕ → ℕ → ℂ :=
  correl4 (nbOmegas N) io1 (ranks.map fun s => s.map (fft1 N))

def c2Of (N : ℕ) (ranks : List (List (ℕ → ℝ))) : ℕ → ℕ → ℂ := correl2 (ranks.map fun s => s.map (fft1 N))

theorem norm4_comm (nb io1 : ℕ) (c2 : ℕ → ℕ → ℂ) (a b : ℕ) : norm4 nb io1 c2 a b = norm4 nb io1 c2 b a := by
  unfold norm4
  rcases lt_trichotomy a b with h | h | h
  · simp only [not_le.2 h, h.le, if_true, if_false]
  · rw [h]
  · simp only [not_le.2 h, h.le, if_true, if_false]

/-- The normalised arrays are symmetric, as the exchange of `ω3` and `ω4`. -/
theorem C75_symmetric (nb io1 : ℕ) (c4 c2 : ℕ → ℕ → ℂ) (a b : ℕ) :
    corrNorm nb io1 c4 c2 a b = corrNorm nb io1 c4 c2 b a ∧ cumNorm nb io1 c4 c2 a b = cumNorm nb io1 c4 c2 b a := by
  unfold corrNorm cumNorm
  rw [norm4_comm nb io1 c2 a b]
  rcases lt_trichotomy a b with h | h | h
  · simp only [not_le.2 h, h.le, if_true, if_false, and_self]
  · rw [h]; exact ⟨rfl, rfl⟩
  · simp only [not_le.2 h, h.le, if_true, if_false, and_self]

theorem fold_comm (nb io1 a b : ℕ) : fold nb io1 a b = fold nb io1 b a := by
  unfold fold
  rw [index_comm]

theorem norm4_eq (nb io1 : ℕ) (c2 : ℕ → ℕ → ℂ) (a b : ℕ) :
    norm4 nb io1 c2 a b = √(‖c2 io1 io1 * c2 a a * c2 b b * c2 (fold nb io1 a b) (fold nb io1 a b)‖) := by
  unfold norm4
  dsimp only
  split
  · rfl
  · rw [fold_comm nb io1 b a]
    congr 2
    ring

theorem pair_neg (N : ℕ) (y : ℕ → ℝ) (ω : ℤ) : pair N y (-ω) (-ω) = pair N y ω ω := by
  unfold pair
  rw [dft_conj, neg_neg, dft_conj]
  ring

/-- The energy of the frequency used in the normalisation is the one of `ω2`. -/
theorem fold_energy (N io1 io3 io4 : ℕ) (h3 : io3 < nbOmegas N) (h4 : io4 < nbOmegas N)
    (h : N % 2 = 1 ∨ (io3 : ℤ) + io4 - io1 < nbOmegas N) (y : ℕ → ℝ) :
    pair N y (fold (nbOmegas N) io1 io3 io4) (fold (nbOmegas N) io1 io3 io4) =
      pair N y ((io3 : ℤ) + io4 - io1) ((io3 : ℤ) + io4 - io1) := by
  unfold fold index
  by_cases h0 : (io3 : ℤ) + io4 - io1 < 0
  · rw [if_pos h0]
    dsimp only
    rw [Int.toNat_of_nonneg (by omega), pair_neg]
  · rw [if_neg h0]
    by_cases hl : (nbOmegas N : ℤ) ≤ (io3 : ℤ) + io4 - io1
    · rw [if_pos hl]
      dsimp only
      have hodd : N % 2 = 1 := h.resolve_right (not_lt.2 hl)
      rw [Int.toNat_of_nonneg (by omega), ← pair_neg]
      have e : (2 * (nbOmegas N : ℤ) - 1) = N := by unfold nbOmegas; omega
      have e' : -(2 * (nbOmegas N : ℤ) - 1 - ((io3 : ℤ) + io4 - io1)) = (io3 : ℤ) + io4 - io1 - N := by rw [e]; ring
      unfold pair
      rw [e', dft_sub N (by omega)]
    · rw [if_neg hl]
      dsimp only
      rw [Int.toNat_of_nonneg (by omega)]

theorem norm4_energies (N io1 io3 io4 : ℕ) (ranks : List (List (ℕ → ℝ))) (h3 : io3 < nbOmegas N) (h4 : io4 < nbOmegas N)
    (h : N % 2 = 1 ∨ (io3 : ℤ) + io4 - io1 < nbOmegas N) :
    norm4 (nbOmegas N) io1 (c2Of N ranks) io3 io4 =
      energies N ranks.flatten io1 ((io3 : ℤ) + io4 - io1) io3 io4 := by
  rw [norm4_eq]
  unfold c2Of energies
  simp only [(C75_correl2 N ranks _ _).1]
  rw [average_congr ranks.flatten (fun y => pair N y (fold (nbOmegas N) io1 io3 io4) (fold (nbOmegas N) io1 io3 io4)) _
    (fold_energy N io1 io3 io4 h3 h4 h)]
  rw [norm_mul, norm_mul, norm_mul]
  congr 1
  ring

/-- `corr_norm` for one window: the modulus of the correlation divided by the root of the product of the energies of the four
frequencies. Partial: even numbers of times with large `ω2`. -/
theorem C75_corr_norm_partial (N io1 io3 io4 : ℕ) (ranks : List (List (ℕ → ℝ))) (h3 : io3 < nbOmegas N)
    (h4 : io4 < nbOmegas N) (h : N % 2 = 1 ∨ (io3 : ℤ) + io4 - io1 < nbOmegas N)
    (hn : energies N ranks.flatten io1 ((io3 : ℤ) + io4 - io1) io3 io4 ≠ 0) :
    corrNorm (nbOmegas N) io1 (c4Of N io1 ranks) (c2Of N ranks) io3 io4 =
      some (‖average ranks.flatten fun y => quartet N y io1 ((io3 : ℤ) + io4 - io1) io3 io4‖ /
        energies N ranks.flatten io1 ((io3 : ℤ) + io4 - io1) io3 io4) := by
  have hpos : 0 ≤ energies N ranks.flatten io1 ((io3 : ℤ) + io4 - io1) io3 io4 := Real.sqrt_nonneg _
  have key : ∀ a b : ℕ, a < nbOmegas N → b < nbOmegas N → (N % 2 = 1 ∨ (a : ℤ) + b - io1 < nbOmegas N) →
      c4Of N io1 ranks a b = average ranks.flatten fun y => quartet N y io1 ((a : ℤ) + b - io1) a b :=
    fun a b ha hb hab => C75_correl4_partial N ranks io1 a b ha hb hab
  have hq : (average ranks.flatten fun y => quartet N y io1 ((io4 : ℤ) + io3 - io1) io4 io3) =
      average ranks.flatten fun y => quartet N y io1 ((io3 : ℤ) + io4 - io1) io3 io4 := by
    apply average_congr
    intro y
    rw [add_comm (io4 : ℤ)]
    unfold quartet
    ring
  unfold corrNorm
  rw [norm4_energies N io1 io3 io4 ranks h3 h4 h, if_neg hn]
  congr 1
  have h' : N % 2 = 1 ∨ (io4 : ℤ) + io3 - io1 < nbOmegas N := by rw [add_comm (io4 : ℤ)]; exact h
  split
  · dsimp only
    rw [norm4_energies N io1 io3 io4 ranks h3 h4 h, key io3 io4 h3 h4 h, norm_div, Complex.norm_real,
      Real.norm_of_nonneg hpos]
  · dsimp only
    rw [norm4_comm, norm4_energies N io1 io3 io4 ranks h3 h4 h, key io4 io3 h4 h3 h', hq, norm_div, Complex.norm_real,
      Real.norm_of_nonneg hpos]

/-- `cum_norm` for one window, if `ω2` is one of the frequencies of the arrays: the modulus of the correlation without its
Gaussian part. Partial: see `C75_cumulant_violated`. -/
theorem C75_cumulant_partial (N io1 io3 io4 : ℕ) (ranks : List (List (ℕ → ℝ))) (h3 : io3 < nbOmegas N)
    (h4 : io4 < nbOmegas N) (h0 : 0 ≤ (io3 : ℤ) + io4 - io1) (h : (io3 : ℤ) + io4 - io1 < nbOmegas N)
    (hn : energies N ranks.flatten io1 ((io3 : ℤ) + io4 - io1) io3 io4 ≠ 0) :
    cumNorm (nbOmegas N) io1 (c4Of N io1 ranks) (c2Of N ranks) io3 io4 =
      some (‖cumulant N ranks.flatten io1 ((io3 : ℤ) + io4 - io1) io3 io4‖ /
        energies N ranks.flatten io1 ((io3 : ℤ) + io4 - io1) io3 io4) := by
  have hfold : ((fold (nbOmegas N) io1 io3 io4 : ℕ) : ℤ) = (io3 : ℤ) + io4 - io1 := by
    unfold fold index
    rw [if_neg (not_lt.2 h0), if_neg (not_le.2 h)]
    dsimp only
    exact Int.toNat_of_nonneg h0
  have hconj : ∀ a b : ℕ, (starRingEnd ℂ) (c2Of N ranks a b) = c2Of N ranks b a :=
    fun a b => ((C75_correl2 N ranks a b).2.1).symm
  have hc2 : ∀ a b : ℕ, c2Of N ranks a b = average ranks.flatten fun y => pair N y a b :=
    fun a b => (C75_correl2 N ranks a b).1
  have hc4 : ∀ a b : ℕ, a < nbOmegas N → b < nbOmegas N → (a : ℤ) + b - io1 < nbOmegas N →
      c4Of N io1 ranks a b = average ranks.flatten fun y => quartet N y io1 ((a : ℤ) + b - io1) a b :=
    fun a b ha hb hab => C75_correl4_partial N ranks io1 a b ha hb (Or.inr hab)
  have hq : (average ranks.flatten fun y => quartet N y io1 ((io4 : ℤ) + io3 - io1) io4 io3) =
      average ranks.flatten fun y => quartet N y io1 ((io3 : ℤ) + io4 - io1) io3 io4 := by
    apply average_congr
    intro y
    rw [add_comm (io4 : ℤ)]
    unfold quartet
    ring
  unfold cumNorm
  rw [norm4_energies N io1 io3 io4 ranks h3 h4 (Or.inr h), if_neg hn]
  congr 1
  split
  · dsimp only
    rw [norm4_energies N io1 io3 io4 ranks h3 h4 (Or.inr h), hconj, hconj, hc4 io3 io4 h3 h4 h]
    congr 2
    unfold cumulant
    simp only [hc2, hfold]
    ring
  · dsimp only
    rw [norm4_comm, norm4_energies N io1 io3 io4 ranks h3 h4 (Or.inr h), hconj, hconj, fold_comm (nbOmegas N) io1 io4 io3,
      hc4 io4 io3 h4 h3 (by rw [add_comm (io4 : ℤ)]; exact h), hq]
    congr 2
    unfold cumulant
    simp only [hc2, hfold]
    ring

theorem energies_bump (a b c d : ℤ) : energies 4 [bump] a b c d = 1 := by
  unfold energies average pair
  simp [bump_dft]

/-- The hypotheses are met. -/
example : cumNorm (nbOmegas 4) 1 (c4Of 4 1 [[bump]]) (c2Of 4 [[bump]]) 1 1 = some 1 := by
  rw [C75_cumulant_partial 4 1 1 1 [[bump]] (by decide) (by decide) (by decide) (by decide)
    (by rw [show ([[bump]] : List (List (ℕ → ℝ))).flatten = [bump] by simp, energies_bump]; exact one_ne_zero)]
  rw [show ([[bump]] : List (List (ℕ → ℝ))).flatten = [bump] by simp, energies_bump]
  obtain ⟨_, h1, _, _, _⟩ := negI_zpow
  unfold cumulant average quartet pair
  norm_num [bump_dft, h1]

/-- FINDING: if `ω3 + ω4 < ω1`, what is subtracted is not the Gaussian part: for one point and one window the normalised
cumulant is one, the function gives three. -/
theorem C75_cumulant_violated :
    ‖cumulant 4 [bump] 1 ((0 : ℤ) + 0 - 1) 0 0‖ / energies 4 [bump] 1 ((0 : ℤ) + 0 - 1) 0 0 = 1 ∧
    cumNorm (nbOmegas 4) 1 (c4Of 4 1 [[bump]]) (c2Of 4 [[bump]]) 0 0 = some 3 := by
  obtain ⟨g0, g1, _, _, gm⟩ := negI_zpow
  have hfl : ([[bump]] : List (List (ℕ → ℝ))).flatten = [bump] := by simp
  constructor
  · rw [energies_bump]
    unfold cumulant average quartet pair
    norm_num [bump_dft, g0, g1, gm]
  · have hn : norm4 (nbOmegas 4) 1 (c2Of 4 [[bump]]) 0 0 = 1 := by
      rw [norm4_energies 4 1 0 0 [[bump]] (by decide) (by decide) (Or.inr (by decide)), hfl, energies_bump]
    have h4 : c4Of 4 1 [[bump]] 0 0 = 1 := by
      unfold c4Of
      rw [C75_correl4_partial 4 [[bump]] 1 0 0 (by decide) (by decide) (Or.inr (by decide)), hfl]
      unfold average quartet
      norm_num [bump_dft, g0, g1, gm]
    have h2 : ∀ a b : ℕ, c2Of 4 [[bump]] a b = (-Complex.I) ^ (a : ℤ) * (starRingEnd ℂ) ((-Complex.I) ^ (b : ℤ)) := by
      intro a b
      unfold c2Of
      rw [(C75_correl2 4 [[bump]] a b).1, hfl]
      unfold average pair
      simp [bump_dft]
    have hf : fold (nbOmegas 4) 1 0 0 = 1 := by decide
    unfold cumNorm
    rw [hn, if_neg one_ne_zero]
    simp only [le_refl, if_true, hn, hf, h4, h2]
    norm_num [g0, g1]

/-- The multiplication of all the fields by a number does not change the normalised arrays. -/
theorem C75_scale (N io1 io3 io4 : ℕ) (ranks : List (List (ℕ → ℝ))) (a : ℝ) (ha : a ≠ 0) :
    corrNorm (nbOmegas N) io1 (c4Of N io1 (ranks.map fun s => s.map fun y n => a * y n))
        (c2Of N (ranks.map fun s => s.map fun y n => a * y n)) io3 io4 =
      corrNorm (nbOmegas N) io1 (c4Of N io1 ranks) (c2Of N ranks) io3 io4 ∧
    cumNorm (nbOmegas N) io1 (c4Of N io1 (ranks.map fun s => s.map fun y n => a * y n))
        (c2Of N (ranks.map fun s => s.map fun y n => a * y n)) io3 io4 =
      cumNorm (nbOmegas N) io1 (c4Of N io1 ranks) (c2Of N ranks) io3 io4 := by
  have hf : ∀ (y : ℕ → ℝ) (io : ℕ), fft1 N (fun n => a * y n) io = a * fft1 N y io := by
    intro y io
    unfold fft1
    rw [mul_left_comm]
    congr 1
    rw [Finset.mul_sum]
    apply Finset.sum_congr rfl
    intro n _
    push_cast
    ring
  have h4 : ∀ i j, c4Of N io1 (ranks.map fun s => s.map fun y n => a * y n) i j = (a : ℂ) ^ 4 * c4Of N io1 ranks i j := by
    intro i j
    unfold c4Of
    rw [correl4_eq, correl4_eq, ← List.map_flatten, ← List.map_flatten, ← List.map_flatten, average_map, average_map,
      average_map]
    unfold average
    rw [mul_div_assoc', ← List.sum_map_mul_left]
    congr 3
    funext y
    unfold term
    simp only [hf, map_mul, Complex.conj_ofReal]
    split <;> ring
  have h2 : ∀ i j, c2Of N (ranks.map fun s => s.map fun y n => a * y n) i j = (a : ℂ) ^ 2 * c2Of N ranks i j := by
    intro i j
    unfold c2Of
    rw [correl2_eq, correl2_eq, ← List.map_flatten, ← List.map_flatten, ← List.map_flatten, average_map, average_map,
      average_map]
    unfold average
    rw [mul_div_assoc', ← List.sum_map_mul_left]
    congr 3
    funext y
    simp only [hf, map_mul, Complex.conj_ofReal]
    ring
  have hn : ∀ i j, norm4 (nbOmegas N) io1 (c2Of N (ranks.map fun s => s.map fun y n => a * y n)) i j =
      a ^ 4 * norm4 (nbOmegas N) io1 (c2Of N ranks) i j := by
    intro i j
    rw [norm4_eq, norm4_eq]
    simp only [h2]
    rw [show ∀ x y z t : ℂ, (a : ℂ) ^ 2 * x * ((a : ℂ) ^ 2 * y) * ((a : ℂ) ^ 2 * z) * ((a : ℂ) ^ 2 * t) =
      ((a ^ 4 : ℝ) : ℂ) ^ 2 * (x * y * z * t) by intros; push_cast; ring]
    rw [norm_mul, norm_pow, Complex.norm_real, Real.norm_of_nonneg (by positivity), Real.sqrt_mul (by positivity),
      Real.sqrt_sq (by positivity)]
  have ha4 : a ^ 4 ≠ 0 := pow_ne_zero _ ha
  have hac : (a : ℂ) ^ 4 ≠ 0 := by exact_mod_cast ha4
  have hcond : ∀ i j, (a ^ 4 * norm4 (nbOmegas N) io1 (c2Of N ranks) i j = 0) =
      (norm4 (nbOmegas N) io1 (c2Of N ranks) i j = 0) := by
    intro i j
    rw [mul_eq_zero, or_iff_right ha4]
  constructor
  · unfold corrNorm
    simp only [h4, hn, hcond]
    have e : ∀ (x : ℂ) (r : ℝ), ‖(a : ℂ) ^ 4 * x / ((a ^ 4 * r : ℝ) : ℂ)‖ = ‖x / (r : ℂ)‖ := by
      intro x r
      push_cast
      rw [mul_div_mul_left _ _ hac]
    simp only [e]
  · unfold cumNorm
    simp only [h4, h2, hn, hcond, map_mul, map_pow, Complex.conj_ofReal]
    have e : ∀ (x s t u v : ℂ) (r : ℝ), ‖(a : ℂ) ^ 4 * x - (a : ℂ) ^ 2 * s * ((a : ℂ) ^ 2 * t) -
        (a : ℂ) ^ 2 * u * ((a : ℂ) ^ 2 * v)‖ / (a ^ 4 * r) = ‖x - s * t - u * v‖ / r := by
      intro x s t u v r
      rw [show (a : ℂ) ^ 4 * x - (a : ℂ) ^ 2 * s * ((a : ℂ) ^ 2 * t) - (a : ℂ) ^ 2 * u * ((a : ℂ) ^ 2 * v) =
        ((a ^ 4 : ℝ) : ℂ) * (x - s * t - u * v) by push_cast; ring, norm_mul, Complex.norm_real,
        Real.norm_of_nonneg (by positivity), mul_div_mul_left _ _ ha4]
    simp only [e]

theorem list_cauchy (l : List (ℂ × ℂ)) :
    ‖(l.map fun p => p.1 * (starRingEnd ℂ) p.2).sum‖ ^ 2 ≤
      (l.map fun p => ‖p.1‖ ^ 2).sum * (l.map fun p => ‖p.2‖ ^ 2).sum := by
  have h1 : ‖(l.map fun p => p.1 * (starRingEnd ℂ) p.2).sum‖ ≤ (l.map fun p => ‖p.1‖ * ‖p.2‖).sum := by
    induction l with
    | nil => simp
    | cons p l ih =>
      simp only [List.map_cons, List.sum_cons]
      refine (norm_add_le _ _).trans (add_le_add ?_ ih)
      rw [norm_mul, RCLike.norm_conj]
  have h2 : ((l.map fun p => ‖p.1‖ * ‖p.2‖).sum) ^ 2 ≤
      (l.map fun p => ‖p.1‖ ^ 2).sum * (l.map fun p => ‖p.2‖ ^ 2).sum := by
    have e : ∀ f : ℂ × ℂ → ℝ, (l.map f).sum = ∑ i : Fin l.length, f l[i] := by
      intro f
      rw [← List.sum_ofFn]
      congr 1
      exact (List.ofFn_getElem_eq_map l f).symm
    rw [e, e, e]
    exact Finset.sum_mul_sq_le_sq_mul_sq _ _ _
  refine le_trans ?_ h2
  gcongr

/-- The array plotted by `plot_corr2`: its modulus is at most one. -/
theorem C75_corr2_bound (N : ℕ) (ranks : List (List (ℕ → ℝ))) (io3 io4 : ℕ) (z : ℂ)
    (h : corr2Norm (c2Of N ranks) io3 io4 = some z) : ‖z‖ ≤ 1 := by
  have key : ∀ a b : ℕ, ‖c2Of N ranks a b / ((√(‖c2Of N ranks a a * c2Of N ranks b b‖) : ℝ) : ℂ)‖ ≤ 1 := by
    intro a b
    rw [norm_div, Complex.norm_real, Real.norm_of_nonneg (Real.sqrt_nonneg _)]
    apply div_le_one_of_le₀ _ (Real.sqrt_nonneg _)
    apply Real.le_sqrt_of_sq_le
    have hd : ∀ a : ℕ, c2Of N ranks a a =
        (((ranks.flatten.map fun y => ‖dft N y a‖ ^ 2).sum / ranks.flatten.length : ℝ) : ℂ) :=
      fun a => (C75_correl2 N ranks a a).2.2
    rw [hd a, hd b, ← Complex.ofReal_mul, Complex.norm_real]
    refine le_trans ?_ (le_abs_self _)
    unfold c2Of
    rw [(C75_correl2 N ranks a b).1]
    unfold average pair
    rw [norm_div, Complex.norm_natCast, div_pow, div_mul_div_comm, ← pow_two (ranks.flatten.length : ℝ)]
    have hc := list_cauchy (ranks.flatten.map fun y => (dft N y a, dft N y b))
    simp only [List.map_map, Function.comp_def] at hc
    gcongr
  unfold corr2Norm at h
  dsimp only at h
  split at h
  · cases h
  · cases h
    split
    · exact key io3 io4
    · rw [RCLike.norm_conj]; exact key io4 io3

example : corr2Norm (c2Of 4 [[bump]]) 1 0 = some (-Complex.I) := by
  have h2 : ∀ a b : ℕ, c2Of 4 [[bump]] a b = (-Complex.I) ^ (a : ℤ) * (starRingEnd ℂ) ((-Complex.I) ^ (b : ℤ)) := by
    intro a b
    unfold c2Of
    rw [(C75_correl2 4 [[bump]] a b).1]
    unfold average pair
    simp [bump_dft]
  obtain ⟨g0, g1, _, _, _⟩ := negI_zpow
  unfold corr2Norm
  simp [h2]

/-! ### Plots -/

/-- The plot during the simulation works if there are at least two frequencies. Partial: see `C75_online_plot_violated`. -/
theorem C75_online_plot_partial (n : ℕ) (h : 2 ≤ n) : onlinePlot n = .ok () := by
  unfold onlinePlot
  rw [if_pos (by omega)]

/-- FINDING: with one frequency (the default value of `iomegas1` is `[1]`) the plot raises IndexError, which stops the
simulation. -/
theorem C75_online_plot_violated : onlinePlot 1 = .error .index := by decide

theorem roundDiv_dvd (a b : ℕ) (hb : 0 < b) (h : b ∣ a) : roundDiv a b = a / b := by
  unfold roundDiv
  rw [Nat.mod_eq_zero_of_dvd h, if_pos (by omega)]

/-- `plot_corr4` works if the number of frequencies is a multiple of the integer part of its root. Partial: see
`C75_plot_corr4_violated`. -/
theorem C75_plot_corr4_partial (n : ℕ) (hn : 0 < n) (h : Nat.sqrt n ∣ n) : plotCorr4 n = .ok () := by
  unfold plotCorr4
  dsimp only
  have hs : 0 < Nat.sqrt n := Nat.sqrt_pos.2 hn
  rw [roundDiv_dvd n _ hs h, Nat.mul_div_cancel' h, if_pos le_rfl]

example : Nat.sqrt 6 ∣ 6 := by decide +kernel

/-- For which numbers `n` of frequencies `plot_corr4` works: with `v` lines, the rest of `n / v` is zero, or the quotient is
rounded upwards (more than one half, or exactly one half after an odd quotient). -/
theorem C75_plot_corr4_iff (n : ℕ) (hn : 0 < n) :
    plotCorr4 n = .ok () ↔ n % Nat.sqrt n = 0 ∨ Nat.sqrt n < 2 * (n % Nat.sqrt n) ∨
      (2 * (n % Nat.sqrt n) = Nat.sqrt n ∧ (n / Nat.sqrt n) % 2 = 1) := by
  have hs : 0 < Nat.sqrt n := Nat.sqrt_pos.2 hn
  have hd := Nat.div_add_mod n (Nat.sqrt n)
  have hm := Nat.mod_lt n hs
  unfold plotCorr4 roundDiv
  dsimp only
  have h1 : Nat.sqrt n * (n / Nat.sqrt n + 1) = Nat.sqrt n * (n / Nat.sqrt n) + Nat.sqrt n := Nat.mul_succ _ _
  split
  · split
    · simp only [true_iff]; left; omega
    · simp only [reduceCtorEq, false_iff]; omega
  · split
    · rw [h1, if_pos (by omega)]; simp only [true_iff]; omega
    · split
      · split
        · simp only [true_iff]; omega
        · simp only [reduceCtorEq, false_iff]; omega
      · rw [h1, if_pos (by omega)]; simp only [true_iff]; omega

example : plotCorr4 3 = .ok () ∧ plotCorr4 7 = .ok () ∧ plotCorr4 11 = .ok () := by decide +kernel

/-- The window: `sin² (π n / (N - 1))`, between 0 and 1, symmetric, zero at the two ends of the time series; 1 for a series
of one value. -/
theorem C75_window (N n : ℕ) (hN : 2 ≤ N) (hn : n < N) :
    hanning N n = Real.sin (Real.pi * n / ((N : ℝ) - 1)) ^ 2 ∧ 0 ≤ hanning N n ∧ hanning N n ≤ 1 ∧
    hanning N (N - 1 - n) = hanning N n ∧ hanning N 0 = 0 ∧ hanning N (N - 1) = 0 ∧ hanning 1 0 = 1 := by
  have hN1 : N ≠ 1 := by omega
  have hpos : (0 : ℝ) < (N : ℝ) - 1 := by
    have : (2 : ℝ) ≤ N := by exact_mod_cast hN
    linarith
  have key : ∀ m : ℕ, hanning N m = Real.sin (Real.pi * m / ((N : ℝ) - 1)) ^ 2 := by
    intro m
    unfold hanning
    rw [if_neg hN1, Real.sin_sq_eq_half_sub]
    rw [show 2 * Real.pi * (m : ℝ) / ((N : ℝ) - 1) = 2 * (Real.pi * m / ((N : ℝ) - 1)) by ring]
    norm_num
    ring
  have hsym : hanning N (N - 1 - n) = hanning N n := by
    rw [key, key]
    have hc : ((N - 1 - n : ℕ) : ℝ) = (N : ℝ) - 1 - n := by
      rw [Nat.cast_sub (by omega), Nat.cast_sub (by omega)]; simp
    rw [hc, show Real.pi * ((N : ℝ) - 1 - n) / ((N : ℝ) - 1) = Real.pi - Real.pi * n / ((N : ℝ) - 1) by
      field_simp, Real.sin_pi_sub]
  have h0 : hanning N 0 = 0 := by rw [key]; simp
  refine ⟨key n, by rw [key]; positivity, by rw [key]; exact Real.sin_sq_le_one _, hsym, h0, ?_, ?_⟩
  · rw [key, Nat.cast_sub (by omega)]
    simp only [Nat.cast_one]
    rw [mul_div_assoc, div_self hpos.ne', mul_one, Real.sin_pi]
    norm_num
  · simp [hanning]

/-- FINDING: with five frequencies there are only four places for the plots: ValueError. -/
theorem C75_plot_corr4_violated : plotCorr4 5 = .error .value ∧ plotCorr4 10 = .error .value := by
  decide +kernel

/-- `plot_norm_pick_corr4` and `plot_convergence` average the correlations around `ω3 = ω4 = 4 ω1`; no element (the result
is nan) if and only if the range is after the last frequency. -/
theorem C75_pick (nb io1 delta : ℕ) :
    (∀ i, i ∈ pick nb io1 delta ↔ i < nb ∧ |(i : ℤ) - 4 * io1| ≤ min (delta : ℤ) (4 * io1)) ∧
    (pick nb io1 delta = [] ↔ nb ≤ 4 * io1 - delta) := by
  have h1 : ∀ i, i ∈ pick nb io1 delta ↔ i < nb ∧ |(i : ℤ) - 4 * io1| ≤ min (delta : ℤ) (4 * io1) := by
    intro i
    unfold pick
    simp only [List.mem_filter, List.mem_range, decide_eq_true_eq]
    rw [abs_le]
    rcases le_total delta (4 * io1) with h | h
    · rw [min_eq_left h, min_eq_left (by exact_mod_cast h)]; omega
    · rw [min_eq_right h, min_eq_right (by exact_mod_cast h)]; omega
  refine ⟨h1, ?_⟩
  rw [List.eq_nil_iff_forall_not_mem]
  constructor
  · intro h
    by_contra hc
    apply h (4 * io1 - min delta (4 * io1))
    unfold pick
    simp only [List.mem_filter, List.mem_range, decide_eq_true_eq]
    omega
  · intro h i hi
    have := (h1 i).1 hi
    rw [abs_le] at this
    rcases le_total (delta : ℤ) (4 * io1) with h' | h'
    · rw [min_eq_left h'] at this; omega
    · rw [min_eq_right h'] at this; omega

end

end Verif.CorrelFreq
