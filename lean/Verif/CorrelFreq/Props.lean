import Verif.CorrelFreq.Lemmas

/-! # C75: the correlations of frequencies (plate2d): theorems -/

set_option linter.unusedSectionVars false

namespace Verif.CorrelFreq

open Finset

noncomputable section

/-! ### The correlations of one window -/

/-- The array of the order 4 contains the averages over all the points of all the processes of
`w(ω1) w(ω2) w(ω3)^* w(ω4)^*` with `ω2 = ω3 + ω4 - ω1`, if the number of times is odd or if `ω2` is not larger
than the largest frequency. Partial: even number of times and large `ω2` (`C75_correl4_shifted`,
`C75_correl4_violated`). -/
theorem C75_correl4_partial (N : ℕ) (ranks : List (List (ℕ → ℝ))) (io1 io3 io4 : ℕ)
    (h3 : io3 < nbOmegas N) (h4 : io4 < nbOmegas N) (h : N % 2 = 1 ∨ (io3 : ℤ) + io4 - io1 < nbOmegas N) :
    correl4 (nbOmegas N) io1 (ranks.map fun s => s.map (fft1 N)) io3 io4 =
      average ranks.flatten fun y => quartet N y io1 ((io3 : ℤ) + io4 - io1) io3 io4 := by
  rw [correl4_eq, ← List.map_flatten, average_map]
  apply average_congr
  intro y
  by_cases hl : (io3 : ℤ) + io4 - io1 < nbOmegas N
  · exact term_low N _ io1 io3 io4 y hl
  · have hodd : N % 2 = 1 := h.resolve_right hl
    rw [term_high N _ io1 io3 io4 y (not_lt.1 hl) h3 h4]
    have e : (2 * (nbOmegas N : ℤ) - 1) = N := by unfold nbOmegas; omega
    unfold quartet
    rw [e, dft_sub N (by omega)]

example : (2 : ℕ) < nbOmegas 5 ∧ 5 % 2 = 1 ∧ ¬ ((2 : ℤ) + 2 - 1 < nbOmegas 5) := by decide

/-- For an even number of times and `ω2` larger than the largest frequency, the frequency used is `ω2 - 1`. -/
theorem C75_correl4_shifted (N : ℕ) (hN : N ≠ 0) (he : N % 2 = 0) (ranks : List (List (ℕ → ℝ))) (io1 io3 io4 : ℕ)
    (h3 : io3 < nbOmegas N) (h4 : io4 < nbOmegas N) (h : (nbOmegas N : ℤ) ≤ (io3 : ℤ) + io4 - io1) :
    correl4 (nbOmegas N) io1 (ranks.map fun s => s.map (fft1 N)) io3 io4 =
      average ranks.flatten fun y => quartet N y io1 ((io3 : ℤ) + io4 - io1 - 1) io3 io4 := by
  rw [correl4_eq, ← List.map_flatten, average_map]
  apply average_congr
  intro y
  rw [term_high N _ io1 io3 io4 y h h3 h4]
  have e : (io3 : ℤ) + io4 - io1 - (2 * (nbOmegas N : ℤ) - 1) = (io3 : ℤ) + io4 - io1 - 1 - N := by
    unfold nbOmegas; omega
  unfold quartet
  rw [e, dft_sub N hN]

/-- The values of a transform of four values. -/
theorem dft4 (y : ℕ → ℝ) (ω : ℤ) :
    dft 4 y ω = (1 / 4 : ℝ) * (y 0 + y 1 * (-Complex.I) ^ ω + y 2 * ((-Complex.I) ^ ω) ^ 2 +
      y 3 * ((-Complex.I) ^ ω) ^ 3) := by
  unfold dft
  have hI : Complex.exp (-(Real.pi / 2 : ℝ) * Complex.I) = -Complex.I := by
    rw [show (-(Real.pi / 2 : ℝ) * Complex.I : ℂ) = -(Real.pi / 2 * Complex.I) by push_cast; ring, Complex.exp_neg,
      Complex.exp_pi_div_two_mul_I, Complex.inv_I]
  have he : ∀ n : ℕ, Complex.exp (-(2 * Real.pi * (ω : ℝ) * n / (4 : ℕ) : ℝ) * Complex.I) = ((-Complex.I) ^ ω) ^ n := by
    intro n
    rw [← hI, ← Complex.exp_int_mul, ← Complex.exp_nat_mul]
    congr 1
    push_cast
    ring
  simp only [he, Finset.sum_range_succ, Finset.sum_range_zero]
  simp

theorem negI_zpow : (-Complex.I : ℂ) ^ (0 : ℤ) = 1 ∧ (-Complex.I : ℂ) ^ (1 : ℤ) = -Complex.I ∧
    (-Complex.I : ℂ) ^ (2 : ℤ) = -1 ∧ (-Complex.I : ℂ) ^ (3 : ℤ) = Complex.I ∧
    (-Complex.I : ℂ) ^ (-1 : ℤ) = Complex.I := by
  refine ⟨by simp, by simp, ?_, ?_, ?_⟩
  · rw [show (2 : ℤ) = ((2 : ℕ) : ℤ) by rfl, zpow_natCast]; simp [pow_two]
  · rw [show (3 : ℤ) = ((3 : ℕ) : ℤ) by rfl, zpow_natCast]; simp [pow_succ]
  · rw [zpow_neg_one, inv_neg, Complex.inv_I, neg_neg]

/-- A signal of four values: zero at the ends, as after the multiplication by the Hann window. -/
def bump : ℕ → ℝ := fun n => if n = 1 then 4 else 0

theorem bump_dft (ω : ℤ) : dft 4 bump ω = (-Complex.I) ^ ω := by
  rw [dft4]
  simp [bump]

/-- FINDING: with an even number of times (the default is 100) the correlation of the order 4 is wrong if
`ω3 + ω4 - ω1` is larger than the largest frequency: the index is `2 nb - 1 - io2` instead of `2 nb - 2 - io2`. -/
theorem C75_correl4_violated :
    ∃ (N io1 io3 io4 : ℕ) (ranks : List (List (ℕ → ℝ))), 2 * io1 < N ∧ io3 < nbOmegas N ∧ io4 < nbOmegas N ∧
      (average ranks.flatten fun y => quartet N y io1 ((io3 : ℤ) + io4 - io1) io3 io4) = 1 ∧
      correl4 (nbOmegas N) io1 (ranks.map fun s => s.map (fft1 N)) io3 io4 = Complex.I := by
  refine ⟨4, 1, 2, 2, [[bump]], by norm_num, by decide, by decide, ?_, ?_⟩
  · obtain ⟨_, h1, h2, h3, _⟩ := negI_zpow
    simp only [average, quartet, bump_dft, List.flatten_cons, List.flatten_nil, List.append_nil, List.map_cons,
      List.map_nil, List.sum_cons, List.sum_nil, List.length_cons, List.length_nil]
    norm_num [h1, h2, h3]
  · rw [C75_correl4_shifted 4 (by norm_num) (by norm_num) _ 1 2 2 (by decide) (by decide) (by decide)]
    obtain ⟨_, h1, h2, h3, _⟩ := negI_zpow
    simp only [average, quartet, bump_dft, List.flatten_cons, List.flatten_nil, List.append_nil, List.map_cons,
      List.map_nil, List.sum_cons, List.sum_nil, List.length_cons, List.length_nil]
    norm_num [h1, h2, h3]

/-- The array of the order 2 contains the averages over all the points of `w(ω3) w(ω4)^*`; it is Hermitian and its
diagonal is the energy of the frequency. -/
theorem C75_correl2 (N : ℕ) (ranks : List (List (ℕ → ℝ))) (io3 io4 : ℕ) :
    (correl2 (ranks.map fun s => s.map (fft1 N)) io3 io4 = average ranks.flatten fun y => pair N y io3 io4) ∧
    correl2 (ranks.map fun s => s.map (fft1 N)) io4 io3 =
      (starRingEnd ℂ) (correl2 (ranks.map fun s => s.map (fft1 N)) io3 io4) ∧
    correl2 (ranks.map fun s => s.map (fft1 N)) io3 io3 =
      (((ranks.flatten.map fun y => ‖dft N y io3‖ ^ 2).sum / ranks.flatten.length : ℝ) : ℂ) := by
  have h : ∀ a b : ℕ, correl2 (ranks.map fun s => s.map (fft1 N)) a b =
      average ranks.flatten fun y => pair N y a b := by
    intro a b
    rw [correl2_eq, ← List.map_flatten, average_map]
    apply average_congr
    intro y
    simp only [fft1_eq, pair]
  refine ⟨h _ _, ?_, ?_⟩
  · rw [h, h]
    unfold average
    rw [map_div₀, map_list_sum, List.map_map, Complex.conj_natCast]
    congr 3
    funext y
    simp only [pair, Function.comp, map_mul, Complex.conj_conj]
    ring
  · rw [h]
    unfold average
    push_cast
    congr 1
    induction ranks.flatten with
    | nil => simp
    | cons y l ih =>
      rw [List.map_cons, List.map_cons, List.sum_cons, List.sum_cons, ih]
      push_cast
      congr 1
      unfold pair
      rw [Complex.mul_conj, Complex.normSq_eq_norm_sq]
      push_cast
      rfl

/-- The result does not depend on the distribution of the points over the processes. -/
theorem C75_processes (nb io1 io3 io4 : ℕ) (ranks ranks' : List (List (ℕ → ℂ)))
    (h : ranks.flatten.Perm ranks'.flatten) :
    correl4 nb io1 ranks io3 io4 = correl4 nb io1 ranks' io3 io4 ∧
      correl2 ranks io3 io4 = correl2 ranks' io3 io4 := by
  constructor
  · rw [correl4_eq, correl4_eq]
    unfold average
    rw [(h.map _).sum_eq, h.length_eq]
  · rw [correl2_eq, correl2_eq]
    unfold average
    rw [(h.map _).sum_eq, h.length_eq]

/-- If the object can be created, the frequencies `iomegas1` are smaller than the Nyquist frequency of the samples, and
the loops never read outside of the arrays. -/
theorem C75_indices (deltat period : ℝ) (N : ℕ) (iomax : ℤ) (hdt : 0 < deltat) (hp : 0 < period) (hN : 0 < N) :
    (accepted deltat period N iomax = true ↔ 2 * iomax < N) ∧
    ∀ io1 io3 io4 : ℕ, accepted deltat period N iomax = true → (io1 : ℤ) ≤ iomax → io3 < nbOmegas N →
      io4 < nbOmegas N → io1 < nbOmegas N ∧ 0 ≤ (index (nbOmegas N) ((io3 : ℤ) + io4 - io1)).1 ∧
        (index (nbOmegas N) ((io3 : ℤ) + io4 - io1)).1 < nbOmegas N := by
  have h1 : accepted deltat period N iomax = true ↔ 2 * iomax < N := by
    unfold accepted
    rw [if_pos hp]
    dsimp only
    have hN' : (0 : ℝ) < N := by exact_mod_cast hN
    have hd : 0 < period * deltat := mul_pos hp hdt
    have e : Real.pi / (period * deltat) ≤ (iomax : ℝ) * (2 * Real.pi / (N * (period * deltat))) ↔
        (N : ℤ) ≤ 2 * iomax := by
      rw [show (iomax : ℝ) * (2 * Real.pi / (N * (period * deltat))) =
        (Real.pi / (period * deltat)) * (2 * iomax / N) by field_simp]
      rw [le_mul_iff_one_le_right (div_pos Real.pi_pos hd), le_div_iff₀ hN', one_mul]
      exact_mod_cast Iff.rfl
    split
    · rename_i hc
      have := e.1 hc
      exact ⟨fun h => (by cases h), fun h => by omega⟩
    · rename_i hc
      have : ¬ (N : ℤ) ≤ 2 * iomax := fun h' => hc (e.2 h')
      exact ⟨fun _ => by omega, fun _ => rfl⟩
  refine ⟨h1, fun io1 io3 io4 ha h h3 h4 => ?_⟩
  have := h1.1 ha
  unfold nbOmegas at *
  unfold index
  refine ⟨by omega, ?_⟩
  split
  · dsimp only; omega
  · split
    · dsimp only; omega
    · dsimp only; omega

example : accepted 0.1 1 100 49 = true := by
  rw [(C75_indices 0.1 1 100 49 (by norm_num) (by norm_num) (by norm_num)).1]; norm_num

/-! ### The windows -/

variable {A V : Type} [AddCommGroup V] [Module ℝ V]

/-- In a new simulation, after any number of iterations, `k` fields have been taken, at the iterations
`first + i stride`; `k / N` windows have been averaged, each one with `N` successive fields, with the same weight; the
other fields wait for the end of the window. -/
theorem C75_windows (c : Cfg A V) (hN : 1 ≤ c.nbTimes) (f : ℕ → A) (n : ℕ) :
    ∃ k, (∀ i, i < k ↔ sampleIt c.itStart c.period i ≤ n) ∧
      (run c f n).nbMeans = k / c.nbTimes ∧
      (run c f n).mean = meanOf ((List.range (k / c.nbTimes)).map fun j =>
        c.corr ((List.range c.nbTimes).map fun i => f (sampleIt c.itStart c.period (j * c.nbTimes + i)))) ∧
      (run c f n).buf = (List.range (k % c.nbTimes)).map fun i =>
        f (sampleIt c.itStart c.period (k / c.nbTimes * c.nbTimes + i)) := by
  obtain ⟨k, h1, h2, _⟩ := run_inv c hN f n
  exact ⟨k, h1, h2.nb, h2.mean, h2.buf⟩

/-- The same for plate2d: the array of the order 4 is the average over the windows and over the points of the quartets of
the Fourier transforms of the fields multiplied by the Hann window. Partial: see `C75_correl4_partial`. -/
theorem C75_plate_partial (period : ℝ) (itStart : ℤ) (N : ℕ) (sizes : List ℕ) (hN : 1 ≤ N) (f : ℕ → ℕ → ℕ → ℝ) (n : ℕ)
    (io1 io3 io4 : ℕ) (h3 : io3 < nbOmegas N) (h4 : io4 < nbOmegas N)
    (h : N % 2 = 1 ∨ (io3 : ℤ) + io4 - io1 < nbOmegas N) :
    ∃ k, (∀ i, i < k ↔ sampleIt itStart period i ≤ n) ∧
      (run (plate period itStart N sizes) f n).mean.1 io1 io3 io4 =
        meanOf ((List.range (k / N)).map fun j => average (points sizes) fun p =>
          quartet N (fun t => hanning N t * f (sampleIt itStart period (j * N + t)) p.1 p.2)
            io1 ((io3 : ℤ) + io4 - io1) io3 io4) ∧
      (run (plate period itStart N sizes) f n).mean.2 io3 io4 =
        meanOf ((List.range (k / N)).map fun j => average (points sizes) fun p =>
          pair N (fun t => hanning N t * f (sampleIt itStart period (j * N + t)) p.1 p.2) io3 io4) := by
  obtain ⟨k, h1, _, h2, _⟩ := C75_windows (plate period itStart N sizes) hN f n
  have hw : ∀ j t : ℕ, t < N → ((List.range N).map fun i => f (sampleIt itStart period (j * N + i))).getD t
      (fun _ _ => 0) = f (sampleIt itStart period (j * N + t)) := by
    intro j t ht
    simp [List.getD_eq_getElem?_getD, List.getElem?_range ht]
  have hs : ∀ j, spatioFft sizes N ((List.range N).map fun i => f (sampleIt itStart period (j * N + i))) =
      spatioFft' sizes N fun r ix t => f (sampleIt itStart period (j * N + t)) r ix := by
    intro j
    apply spatioFft_eq
    intro t ht
    exact hw j t ht
  refine ⟨k, h1, ?_, ?_⟩
  · rw [h2]
    have e := meanOf_map (⟨⟨fun v : (ℕ → ℕ → ℕ → ℂ) × (ℕ → ℕ → ℂ) => v.1 io1 io3 io4, fun _ _ => rfl⟩, fun _ _ => rfl⟩ :
      ((ℕ → ℕ → ℕ → ℂ) × (ℕ → ℕ → ℂ)) →ₗ[ℝ] ℂ)
    refine (e _).trans ?_
    rw [List.map_map]
    congr 2
    funext j
    show correl4 (nbOmegas N) io1 (spatioFft sizes N ((List.range N).map fun i =>
      f (sampleIt itStart period (j * N + i)))) io3 io4 = _
    rw [hs, spatioFft']
    rw [C75_correl4_partial N _ io1 io3 io4 h3 h4 h]
    exact average_points sizes N _ _
  · rw [h2]
    have e := meanOf_map (⟨⟨fun v : (ℕ → ℕ → ℕ → ℂ) × (ℕ → ℕ → ℂ) => v.2 io3 io4, fun _ _ => rfl⟩, fun _ _ => rfl⟩ :
      ((ℕ → ℕ → ℕ → ℂ) × (ℕ → ℕ → ℂ)) →ₗ[ℝ] ℂ)
    refine (e _).trans ?_
    rw [List.map_map]
    congr 2
    funext j
    show correl2 (spatioFft sizes N ((List.range N).map fun i =>
      f (sampleIt itStart period (j * N + i)))) io3 io4 = _
    rw [hs, spatioFft']
    rw [(C75_correl2 N _ io3 io4).1]
    exact average_points sizes N _ _

/-- Two windows of three fields, one point, one process: five iterations are not enough, six are. -/
example : (run (plate 1 1 3 [1]) (fun _ _ _ => 1) 6).nbMeans = 2 := by
  obtain ⟨k, h1, h2, _⟩ := C75_windows (plate 1 1 3 [1]) (by decide) (fun _ _ _ => (1 : ℝ)) 6
  rw [h2]
  have e : ∀ i, sampleIt 1 1 i = 1 + i := by
    intro i
    simp [sampleIt, first, stride]
  have a := (h1 5).2 (by show sampleIt 1 1 5 ≤ 6; rw [e])
  have b := fun h => (h1 6).1 h
  have : ¬ 6 < k := fun h => by
    have : sampleIt 1 1 6 ≤ 6 := b h
    rw [e] at this
    omega
  have hk : k = 6 := by omega
  rw [hk]
  rfl

/-! ### Restarts -/

/-- After any history of iterations, stops, crashes and restarts: the correlations in memory and in each record of the file
are the mean, with equal weights, of the correlations of as many complete windows as the number of averages written
next to them. -/
theorem C75_history (c : Cfg A V) (hN : 1 ≤ c.nbTimes) (es : List (Ev A)) :
    (∃ ws : List (List A), ws.length = (history c es).nbMeans ∧ (∀ w ∈ ws, w.length = c.nbTimes) ∧
      (history c es).mean = meanOf (ws.map c.corr)) ∧
    ∀ r ∈ (history c es).file, ∃ ws : List (List A), ws.length = r.2 ∧ (∀ w ∈ ws, w.length = c.nbTimes) ∧
      r.1 = meanOf (ws.map c.corr) := by
  have h := good_history c hN es
  exact ⟨h.mean, fun r hr => (h.file r hr).2.2⟩

/-- What is lost by a restart: the averages done since the last record. There is no record before the second window;
then, at least half of the windows are kept, and at most 127 are lost. -/
theorem C75_restart (c : Cfg A V) (hN : 1 ≤ c.nbTimes) (es : List (Ev A)) :
    let m := (history c es).nbMeans
    let m' := (history c (es ++ [.restart])).nbMeans
    m' ≤ m ∧ (m ≤ 1 → m' = 0) ∧ (2 ≤ m → m < 2 * m' ∧ m < m' + 128) ∧ (history c (es ++ [.restart])).buf = [] := by
  have h := good_history c hN es
  have e : history c (es ++ [.restart]) = start c (history c es).file := by
    unfold history
    rw [List.foldl_append]
    rfl
  dsimp only
  rw [e]
  unfold start
  cases hl : (history c es).file.getLast? with
  | none =>
    have := h.none hl
    refine ⟨Nat.zero_le _, fun _ => rfl, fun h' => by omega, rfl⟩
  | some r =>
    have h1 := h.last r hl
    have h2 := (h.file r (List.mem_of_getLast? hl)).2.1
    refine ⟨h1.1, fun h' => by omega, fun _ => h1.2, rfl⟩

/-- Three windows of one field: after a restart, one is lost. -/
example : (history (⟨1, 0, 1, fun _ => 0⟩ : Cfg Unit ℝ) [.iter 1 (), .iter 2 (), .iter 3 ()]).nbMeans = 3 ∧
    (history (⟨1, 0, 1, fun _ => 0⟩ : Cfg Unit ℝ) [.iter 1 (), .iter 2 (), .iter 3 (), .restart]).nbMeans = 2 := by
  have s2 : saved 2 := by decide
  have s3 : ¬ saved 3 := by decide
  have s1 : ¬ saved 1 := by decide
  constructor <;> norm_num [history, stepEv, start, onlineSave, endWindow, s1, s2, s3]

end

end Verif.CorrelFreq
