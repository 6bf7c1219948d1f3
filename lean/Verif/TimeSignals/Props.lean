import Verif.TimeSignals.Model
import Verif.SpatioTemporal.PropsValues
import Verif.CorrelFreq.PropsNorm
import Mathlib.Algebra.Order.Floor.Semifield

/-!
# C92: frequency spectra of the time signals
-/

namespace Verif.TimeSignals

open Verif.SpatioTemporal Verif.CorrelFreq Finset

noncomputable section

theorem windowSize_small {Nt : ℕ} (h : Nt < 20) : windowSize Nt = 2 := by
  have hx : (2 : ℝ) ^ fix (Real.logb 2 ((Nt : ℝ) / 10)) < 2 := by
    have hl : Real.logb 2 ((Nt : ℝ) / 10) < 1 := by
      rcases Nat.eq_zero_or_pos Nt with h0 | h0
      · simp [h0]
      · rw [Real.logb_lt_iff_lt_rpow (by norm_num) (by positivity)]
        have : (Nt : ℝ) < 20 := by exact_mod_cast h
        rw [Real.rpow_one]; linarith
    have hf : fix (Real.logb 2 ((Nt : ℝ) / 10)) ≤ 0 := by
      unfold fix
      split
      · have : ⌊Real.logb 2 ((Nt : ℝ) / 10)⌋ < 1 := Int.floor_lt.2 (by exact_mod_cast hl)
        omega
      · rename_i h1
        exact Int.ceil_le.2 (by push_cast; linarith [not_le.1 h1])
    calc (2 : ℝ) ^ fix (Real.logb 2 ((Nt : ℝ) / 10)) ≤ 2 ^ (0 : ℤ) := zpow_le_zpow_right₀ (by norm_num) hf
      _ < 2 := by norm_num
  unfold windowSize
  simp only [hx, if_true]
  rfl

theorem windowSize_large {Nt : ℕ} (h : 20 ≤ Nt) : windowSize Nt = 2 ^ Nat.log 2 (Nt / 10) := by
  have h20 : (20 : ℝ) ≤ Nt := by exact_mod_cast h
  have hpos : (0 : ℝ) ≤ (Nt : ℝ) / 10 := by positivity
  have hlog : ⌊Real.logb 2 ((Nt : ℝ) / 10)⌋ = (Nat.log 2 (Nt / 10) : ℤ) := by
    have h1 := Real.floor_logb_natCast (b := 2) hpos
    have h2 : Int.log 2 ((Nt : ℝ) / 10) = (Nat.log 2 ⌊(Nt : ℝ) / 10⌋₊ : ℤ) := Int.log_of_one_le_right _ (by linarith)
    have h3 : ⌊(Nt : ℝ) / 10⌋₊ = Nt / 10 := by
      have := Nat.floor_div_natCast (Nt : ℝ) 10
      simpa using this
    rw [h3] at h2
    rw [← h2, ← h1]; norm_num
  have hnn : 0 ≤ Real.logb 2 ((Nt : ℝ) / 10) := Real.logb_nonneg (by norm_num) (by linarith)
  have he : 1 ≤ Nat.log 2 (Nt / 10) := Nat.log_pos (by norm_num) (by omega)
  have h2le : ¬(2 : ℝ) ^ ((Nat.log 2 (Nt / 10) : ℕ) : ℤ) < 2 := by
    rw [zpow_natCast, not_lt]
    calc (2 : ℝ) = 2 ^ 1 := by norm_num
      _ ≤ 2 ^ Nat.log 2 (Nt / 10) := pow_le_pow_right₀ (by norm_num) he
  have hev : ¬2 ^ Nat.log 2 (Nt / 10) % 2 = 1 := by
    obtain ⟨c, hc⟩ := Nat.exists_eq_add_of_le he
    rw [hc, add_comm, pow_succ]; omega
  unfold windowSize fix
  simp only [hnn, if_true, hlog, h2le, if_false, Int.toNat_natCast, hev]

/-- C92: the size of the windows is a power of two, at least 2, and with at least 20 times it is between a twentieth and a tenth of the
number of times. -/
theorem C92_window_size (Nt : ℕ) : (∃ e, 1 ≤ e ∧ windowSize Nt = 2 ^ e) ∧ (Nt < 40 → windowSize Nt = 2) ∧
    (20 ≤ Nt → 10 * windowSize Nt ≤ Nt ∧ Nt < 20 * windowSize Nt) := by
  rcases lt_or_ge Nt 20 with h | h
  · rw [windowSize_small h]
    exact ⟨⟨1, le_rfl, rfl⟩, fun _ => rfl, fun h' => by omega⟩
  · rw [windowSize_large h]
    refine ⟨⟨_, Nat.log_pos (by norm_num) (by omega), rfl⟩, fun h40 => ?_, fun _ => ⟨?_, ?_⟩⟩
    · have : Nat.log 2 (Nt / 10) = 1 := by
        rw [Nat.log_eq_iff (by omega)]; omega
      rw [this]; rfl
    · have := Nat.pow_log_le_self 2 (x := Nt / 10) (by omega)
      omega
    · have := Nat.lt_pow_succ_log_self (b := 2) (by norm_num) (Nt / 10)
      rw [pow_succ] at this
      omega

theorem mem_starts {nt Nt : ℕ} (h : 0 < nt / 2) (a it0 : ℕ) :
    it0 ∈ starts nt Nt a ↔ ∃ j, it0 = a + j * (nt / 2) ∧ it0 + nt < Nt := by
  induction a using Nat.strongRecMeasure (fun a => Nt - a) with
  | ind a ih =>
    rw [starts]
    split
    · rename_i h'
      rw [List.mem_cons, ih _ (by omega)]
      constructor
      · rintro (rfl | ⟨j, rfl, hj⟩)
        · exact ⟨0, by simp, h'.2⟩
        · exact ⟨j + 1, by ring, hj⟩
      · rintro ⟨j, rfl, hj⟩
        cases j with
        | zero => left; simp
        | succ j => right; exact ⟨j, by ring, hj⟩
    · rename_i h'
      simp only [List.not_mem_nil, false_iff]
      rintro ⟨j, rfl, hj⟩
      apply h'
      refine ⟨h, ?_⟩
      have := Nat.zero_le (j * (nt / 2))
      omega

theorem starts_pairwise (nt Nt a : ℕ) (h : 0 < nt / 2) : (starts nt Nt a).Pairwise (· < ·) := by
  induction a using Nat.strongRecMeasure (fun a => Nt - a) with
  | ind a ih =>
    rw [starts]
    split
    · rename_i h'
      refine List.pairwise_cons.2 ⟨fun b hb => ?_, ih _ (by omega)⟩
      obtain ⟨j, rfl, -⟩ := (mem_starts h _ _).1 hb
      have := Nat.zero_le (j * (nt / 2))
      omega
    · exact List.Pairwise.nil

/-- C92: the windows: each one once, they start every half window and end before the last time. -/
theorem C92_windows (Nt : ℕ) (it0 : ℕ) : (starts (windowSize Nt) Nt 0).Pairwise (· < ·) ∧
    (it0 ∈ starts (windowSize Nt) Nt 0 ↔ windowSize Nt / 2 ∣ it0 ∧ it0 + windowSize Nt < Nt) := by
  obtain ⟨e, he, h⟩ := (C92_window_size Nt).1
  have hpos : 0 < windowSize Nt / 2 := by
    rw [h]
    obtain ⟨c, rfl⟩ := Nat.exists_eq_add_of_le he
    rw [add_comm, pow_succ]
    have := Nat.pos_of_ne_zero (pow_ne_zero c (two_ne_zero (α := ℕ)))
    omega
  refine ⟨starts_pairwise _ _ _ hpos, ?_⟩
  rw [mem_starts hpos]
  constructor
  · rintro ⟨j, rfl, hj⟩
    exact ⟨⟨j, by ring⟩, hj⟩
  · rintro ⟨⟨j, rfl⟩, hj⟩
    exact ⟨j, by ring, hj⟩

theorem sum_folded {h : ℕ} (hh : 0 < h) (s : ℕ → ℝ) : ∑ i ∈ range (h + 1), folded (2 * h) s i = ∑ m ∈ range (2 * h), s m := by
  have e1 : 2 * h % 2 = 0 := by omega
  have e2 : 2 * h / 2 = h := by omega
  simp only [folded, e1, e2, if_true, sum_add_distrib]
  rw [← sum_filter]
  have e3 : (range (h + 1)).filter (fun i => 1 ≤ i ∧ i < h) = Ico 1 h := by
    ext i; simp only [mem_filter, mem_range, mem_Ico]; omega
  rw [e3]
  have e4 : ∑ i ∈ Ico 1 h, s (2 * h - i) = ∑ m ∈ Ico (h + 1) (2 * h), s m := by
    refine sum_bij' (fun i _ => 2 * h - i) (fun m _ => 2 * h - m) ?_ ?_ ?_ ?_ ?_ <;>
      intros <;> simp only [mem_Ico] at * <;> omega
  rw [e4, ← sum_range_add_sum_Ico _ (show h + 1 ≤ 2 * h by omega)]

/-- C92: the sum over the frequencies of the spectrum is half the mean over the windows of the mean square of the signal times the Hann
window. -/
theorem C92_total {nt Nt : ℕ} (hnt : 2 ≤ nt) (hev : nt % 2 = 0) (hN : nt < Nt) {dw : ℝ} (hdw : 0 < dw) (sig : ℕ → ℂ) :
    ∃ s, timeSpectrum dw nt Nt sig = some s ∧ dw * ∑ i ∈ range (nt / 2 + 1), s i =
      ((starts nt Nt 0).map fun it0 => 1 / 2 * ((∑ j ∈ range nt, Complex.normSq (hanning nt j * sig (it0 + j))) / nt)).sum /
        (starts nt Nt 0).length := by
  have hne : starts nt Nt 0 ≠ [] := by
    have : 0 ∈ starts nt Nt 0 := (mem_starts (by omega) 0 0).2 ⟨0, by simp, by omega⟩
    intro h; rw [h] at this; simp at this
  refine ⟨_, by rw [timeSpectrum]; simp only [hne, if_false]; rfl, ?_⟩
  have hlin : ∀ l : List ℕ, ∑ i ∈ range (nt / 2 + 1), (l.map fun it0 => folded nt (raw dw nt sig it0) i).sum
      = (l.map fun it0 => ∑ i ∈ range (nt / 2 + 1), folded nt (raw dw nt sig it0) i).sum := by
    intro l
    induction l with
    | nil => simp
    | cons a l ih => simp [sum_add_distrib, ih]
  rw [← sum_div, hlin, ← mul_div_assoc, ← List.sum_map_mul_left]
  congr 2
  refine List.map_congr_left fun it0 _ => ?_
  obtain ⟨h, rfl⟩ : ∃ h, nt = 2 * h := ⟨nt / 2, by omega⟩
  have e2 : 2 * h / 2 = h := by omega
  rw [e2, sum_folded (by omega)]
  have hn0 : ((2 * h : ℕ) : ℝ) ≠ 0 := by
    have : 0 < 2 * h := by omega
    exact_mod_cast this.ne'
  have e5 : ∑ m ∈ range (2 * h), raw dw (2 * h) sig it0 m
      = ∑ m : Fin (2 * h), Complex.normSq (dft (2 * h) (fun j => hanning (2 * h) j * sig (it0 + j)) m / (2 * h : ℕ)) / 2 / dw := by
    rw [← Fin.sum_univ_eq_sum_range]
    refine sum_congr rfl fun m _ => ?_
    simp [raw]
  rw [e5]
  simp only [Complex.normSq_div, Complex.normSq_natCast, ← sum_div]
  rw [dft_parseval _ (by omega), Fin.sum_univ_eq_sum_range (fun j => Complex.normSq (hanning (2 * h) j * sig (it0 + j)))]
  field_simp

/-- C92: the spectrum of a window of an oscillation with `m` periods in `nt` time steps is largest at the index `m`. -/
theorem C92_peak {nt : ℕ} (hnt : 2 ≤ nt) {dw : ℝ} (hdw : 0 < dw) (A : ℂ) {m : ℕ} (hm : m < nt) (it0 m' : ℕ) :
    raw dw nt (fun j => A * Complex.exp (2 * Real.pi * Complex.I * ((m : ℂ) * j / nt))) it0 m'
      ≤ raw dw nt (fun j => A * Complex.exp (2 * Real.pi * Complex.I * ((m : ℂ) * j / nt))) it0 m := by
  have hn0 : (nt : ℂ) ≠ 0 := by
    have : 0 < nt := by omega
    exact_mod_cast this.ne'
  set B : ℂ := A * Complex.exp (2 * Real.pi * Complex.I * ((m : ℂ) * it0 / nt)) with hB
  have key : ∀ q : Fin nt, dft nt (fun j : Fin nt => (hanning nt j : ℂ) *
      (A * Complex.exp (2 * Real.pi * Complex.I * ((m : ℂ) * ((it0 + (j : ℕ) : ℕ) : ℂ) / nt)))) q
      = B * ∑ j : Fin nt, (hanning nt j : ℂ) *
        Complex.exp (((2 * Real.pi * (((m : ℝ) - (q : ℕ)) * (j : ℕ) / nt) : ℝ) : ℂ) * Complex.I) := by
    intro q
    rw [SpatioTemporal.dft, mul_sum]
    refine sum_congr rfl fun j _ => ?_
    have : Complex.exp (2 * Real.pi * Complex.I * ((m : ℂ) * ((it0 + (j : ℕ) : ℕ) : ℂ) / nt)) *
        Complex.exp (-(2 * Real.pi * Complex.I * (((q : ℕ) : ℂ) * ((j : ℕ) : ℂ) / nt)))
        = Complex.exp (2 * Real.pi * Complex.I * ((m : ℂ) * it0 / nt)) *
          Complex.exp (((2 * Real.pi * (((m : ℝ) - (q : ℕ)) * (j : ℕ) / nt) : ℝ) : ℂ) * Complex.I) := by
      rw [← Complex.exp_add, ← Complex.exp_add]
      congr 1
      push_cast
      ring
    rw [hB]
    linear_combination (hanning nt j : ℂ) * A * this
  have hpos : ∀ j : Fin nt, 0 ≤ hanning nt j := fun j => (C75_window (N := nt) (n := j) (by omega) (by have := j.2; omega)).2.1
  have hle : ∀ q : Fin nt, ‖∑ j : Fin nt, (hanning nt j : ℂ) *
      Complex.exp (((2 * Real.pi * (((m : ℝ) - (q : ℕ)) * (j : ℕ) / nt) : ℝ) : ℂ) * Complex.I)‖ ≤ ∑ j : Fin nt, hanning nt j := by
    intro q
    refine (norm_sum_le _ _).trans (sum_le_sum fun j _ => ?_)
    rw [norm_mul, Complex.norm_exp_ofReal_mul_I, mul_one, Complex.norm_real, Real.norm_of_nonneg (hpos j)]
  have heq : ‖∑ j : Fin nt, (hanning nt j : ℂ) *
      Complex.exp (((2 * Real.pi * (((m : ℝ) - (m : ℕ)) * (j : ℕ) / nt) : ℝ) : ℂ) * Complex.I)‖ = ∑ j : Fin nt, hanning nt j := by
    simp only [sub_self, zero_mul, zero_div, mul_zero, Complex.ofReal_zero, Complex.exp_zero, mul_one]
    rw [← Complex.ofReal_sum, Complex.norm_real, Real.norm_of_nonneg (sum_nonneg fun j _ => hpos j)]
  by_cases h' : m' < nt
  · rw [raw, raw, dif_pos h', dif_pos hm, key ⟨m', h'⟩, key ⟨m, hm⟩]
    gcongr
    simp only [Complex.normSq_eq_norm_sq, norm_div, norm_mul]
    rw [heq]
    gcongr
    exact hle ⟨m', h'⟩
  · rw [raw, dif_neg h', raw, dif_pos hm]
    exact div_nonneg (div_nonneg (Complex.normSq_nonneg _) (by norm_num)) hdw.le

/-- C92, finding: the frequencies are wrong. For an oscillation of pulsation `2 π m / (nt dt)` saved at the times `j dt`, the spectrum of each
window is largest at the index `m`, and the pulsation given for this index is larger by the factor `nt / (nt - 1)`: a third for windows of
4 times, 1/15 for windows of 16 times. -/
theorem C92_frequency_violated {nt m : ℕ} (hnt : 2 ≤ nt) (hm : 1 ≤ m) (hm' : m ≤ nt / 2) {dt : ℝ} (hdt : 0 < dt) (A : ℂ) (it0 m' : ℕ) :
    let w : ℝ := 2 * Real.pi * m / (nt * dt)
    let t : ℕ → ℝ := fun j => j * dt
    let sig : ℕ → ℂ := fun j => A * Complex.exp (Complex.I * (w * t j : ℝ))
    raw (deltaOmega t nt) nt sig it0 m' ≤ raw (deltaOmega t nt) nt sig it0 m ∧
    omega t nt m = w * (nt / ((nt : ℝ) - 1)) ∧ w < omega t nt m := by
  intro w t sig
  have hn1 : (1 : ℝ) ≤ (nt : ℝ) - 1 := by
    have : (2 : ℝ) ≤ nt := by exact_mod_cast hnt
    linarith
  have hn0 : (0 : ℝ) < nt := by linarith
  have hT : t (nt - 1) - t 0 = ((nt : ℝ) - 1) * dt := by
    simp only [t]; rw [Nat.cast_sub (by omega)]; simp
  have hom : omega t nt m = w * (nt / ((nt : ℝ) - 1)) := by
    simp only [omega, deltaOmega, hT, w]
    have : (nt : ℝ) - 1 ≠ 0 := by linarith
    field_simp
  have hw : 0 < w := by
    have : (0 : ℝ) < m := by exact_mod_cast hm
    have := Real.pi_pos
    positivity
  refine ⟨?_, hom, ?_⟩
  · have hsig : sig = fun j : ℕ => A * Complex.exp (2 * Real.pi * Complex.I * ((m : ℂ) * j / nt)) := by
      funext j
      simp only [sig, w, t]
      congr 2
      have h1 : (nt : ℂ) ≠ 0 := by exact_mod_cast hn0.ne'
      have h2 : (dt : ℂ) ≠ 0 := by exact_mod_cast hdt.ne'
      push_cast
      field_simp
    rw [hsig]
    refine C92_peak hnt ?_ A (by omega) it0 m'
    rw [deltaOmega, hT]
    have := Real.pi_pos
    have : (0 : ℝ) < (nt : ℝ) - 1 := by linarith
    positivity
  · rw [hom]
    have h1 : 1 < (nt : ℝ) / ((nt : ℝ) - 1) := by rw [one_lt_div (by linarith)]; linarith
    nlinarith

/-- C92, finding: with 3 to 39 saved times, every spectrum is zero, whatever the signals (the windows have two times, at which the Hann window
is zero); with 2 times it is nan. -/
theorem C92_short_violated (dw : ℝ) (sig : ℕ → ℂ) : (∀ Nt, 2 < Nt → Nt < 40 → timeSpectrum dw (windowSize Nt) Nt sig = some fun _ => 0) ∧
    timeSpectrum dw (windowSize 2) 2 sig = none := by
  constructor
  · intro Nt h2 h40
    rw [(C92_window_size Nt).2.1 h40]
    have hne : starts 2 Nt 0 ≠ [] := by
      have : 0 ∈ starts 2 Nt 0 := (mem_starts (by omega) 0 0).2 ⟨0, by simp, by omega⟩
      intro h; rw [h] at this; simp at this
    have hraw : ∀ it0 m, raw dw 2 sig it0 m = 0 := by
      intro it0 m
      obtain ⟨-, -, -, -, e0, e1, -⟩ := C75_window 2 0 le_rfl (by norm_num)
      norm_num at e1
      unfold raw
      split
      · simp [SpatioTemporal.dft, Fin.sum_univ_two, e0, e1]
      · rfl
    simp only [timeSpectrum, hne, if_false, folded, hraw]
    simp
  · rw [(C92_window_size 2).2.1 (by norm_num), timeSpectrum, starts]
    simp

/-- C92, the exact condition for a spectrum without nan, with the windows of `compute_spectra`: at least 3 times. -/
theorem C92_defined (dw : ℝ) (sig : ℕ → ℂ) (Nt : ℕ) : (timeSpectrum dw (windowSize Nt) Nt sig).isSome ↔ 3 ≤ Nt := by
  have hw := C92_window_size Nt
  obtain ⟨e, he, h⟩ := hw.1
  have hmem : starts (windowSize Nt) Nt 0 ≠ [] ↔ windowSize Nt < Nt := by
    constructor
    · intro hne
      obtain ⟨a, ha⟩ := List.exists_mem_of_ne_nil _ hne
      have := ((C92_windows Nt a).2.1 ha).2
      omega
    · intro hlt hnil
      have := (C92_windows Nt 0).2.2 ⟨dvd_zero _, by omega⟩
      rw [hnil] at this; simp at this
  have : (timeSpectrum dw (windowSize Nt) Nt sig).isSome ↔ starts (windowSize Nt) Nt 0 ≠ [] := by
    unfold timeSpectrum
    by_cases h0 : starts (windowSize Nt) Nt 0 = [] <;> simp [h0]
  rw [this, hmem]
  rcases lt_or_ge Nt 40 with h40 | h40
  · rw [hw.2.1 h40]; omega
  · have := (hw.2.2 (by omega)).1
    have h2 : 0 < windowSize Nt := by rw [h]; positivity
    omega

theorem mapM_some_of {α β : Type} (l : List α) (f : α → Option β) (g : α → β) (h : ∀ a ∈ l, f a = some (g a)) :
    l.mapM f = some (l.map g) := by
  induction l with
  | nil => rfl
  | cons a l ih =>
    rw [List.mapM_cons, h a (by simp), ih fun b hb => h b (by simp [hb])]
    rfl

/-- C92: the energy in the spectrum of a shell is the mean over its signals, times the square of the coefficient of the key, of half the mean
square of the windowed signals. -/
theorem C92_shell_total {nt Nt : ℕ} (hnt : 2 ≤ nt) (hev : nt % 2 = 0) (hN : nt < Nt) {dw : ℝ} (hdw : 0 < dw) (nbK : ℕ) (coef : ℝ)
    (sig : ℕ → ℕ → ℂ) (ish : ℕ) : ∃ S : ℕ → ℝ, (∀ i, shellSpectrum dw nt Nt nbK coef sig ish i = some (S i)) ∧
    dw * ∑ i ∈ range (nt / 2 + 1), S i = (∑ p ∈ range nbK, ((starts nt Nt 0).map fun it0 : ℕ =>
      (coef ^ 2 / 2 * ((∑ j ∈ range nt, (hanning nt j) ^ 2 * ‖sig (ish * nbK + p) (it0 + j)‖ ^ 2) / nt) : ℝ)).sum / ((starts nt Nt 0).length : ℝ)) / (nbK : ℝ) := by
  choose s hs hsum using fun p => C92_total hnt hev hN hdw (fun j => coef * sig (ish * nbK + p) j)
  refine ⟨fun i => (∑ p ∈ range nbK, s p i) / nbK, fun i => ?_, ?_⟩
  · rw [shellSpectrum, mapM_some_of _ _ s fun p _ => hs p]
    simp only [List.map_map]
    congr 2
  · rw [← sum_div, sum_comm, ← mul_div_assoc, mul_sum]
    congr 1
    refine sum_congr rfl fun p _ => ?_
    rw [hsum p]
    congr 2
    refine List.map_congr_left fun it0 _ => ?_
    rw [div_mul_eq_mul_div, one_mul, div_mul_eq_mul_div]
    congr 1
    rw [← mul_div_assoc, mul_sum]
    congr 1
    refine sum_congr rfl fun j _ => ?_
    simp only [Complex.normSq_eq_norm_sq, norm_mul, Complex.norm_real, mul_pow, Real.norm_eq_abs, sq_abs]
    ring

/-- C92: the first call with at least two times succeeds and uses windows of the documented size; so do all the following ones as long as
the size does not change. -/
theorem C92_calls (Nt : ℕ) (h : 2 ≤ Nt) : call none Nt = .ok (windowSize Nt, windowSize Nt) ∧
    ∀ Nt', 2 ≤ Nt' → windowSize Nt' = windowSize Nt → call (some (windowSize Nt)) Nt' = .ok (windowSize Nt, windowSize Nt) := by
  have hle : ∀ N, 2 ≤ N → ¬N ≤ windowSize N - 1 := by
    intro N hN
    have hw := C92_window_size N
    rcases lt_or_ge N 40 with h40 | h40
    · rw [hw.2.1 h40]; omega
    · have := (hw.2.2 (by omega)).1; omega
  constructor
  · have := hle Nt h
    simp [call, this, show Nt ≠ 0 by omega]
  · intro Nt' h' he
    have := hle Nt' h'
    rw [he] at this
    simp [call, he, this, show Nt' ≠ 0 by omega]

/-- C92: when a call succeeds, whatever the previous ones: there are at least two times, the windows have the documented size, the transform is the
previous one if there is one, and it has the size of the windows unless there is no window. -/
theorem C92_call_iff (cached : Option ℕ) (Nt w sz : ℕ) : call cached Nt = .ok (w, sz) ↔
    2 ≤ Nt ∧ w = windowSize Nt ∧ sz = cached.getD (windowSize Nt) ∧ (2 < Nt → sz = windowSize Nt) := by
  have hw := C92_window_size Nt
  have h2 : ∃ e, 1 ≤ e ∧ windowSize Nt = 2 ^ e := hw.1
  have h2' : 2 ≤ windowSize Nt := by
    obtain ⟨e, he, h⟩ := h2
    rw [h]; calc 2 = 2 ^ 1 := rfl
      _ ≤ 2 ^ e := Nat.pow_le_pow_right (by norm_num) he
  have hle : 2 < Nt ↔ windowSize Nt < Nt := by
    rcases lt_or_ge Nt 40 with h40 | h40
    · rw [hw.2.1 h40]
    · have := (hw.2.2 (by omega)).1; omega
  have hle' : Nt ≤ windowSize Nt - 1 ↔ Nt < 2 := by
    rcases lt_or_ge Nt 40 with h40 | h40
    · rw [hw.2.1 h40]; omega
    · have := (hw.2.2 (by omega)).1; omega
  unfold call
  by_cases h0 : Nt = 0
  · subst h0; simp
  by_cases h1 : Nt < 2
  · simp [h0, hle'.2 h1]; omega
  · simp only [h0, if_false, hle', h1, ← hle]
    split
    · rename_i hs
      constructor
      · intro h; cases h
      · rintro ⟨-, rfl, rfl, h⟩; exact absurd (h hs.1) hs.2
    · rename_i hs
      rw [Except.ok.injEq, Prod.mk.injEq]
      constructor
      · rintro ⟨rfl, rfl⟩
        exact ⟨by omega, rfl, rfl, fun h => by by_contra hne; exact hs ⟨h, hne⟩⟩
      · rintro ⟨-, rfl, rfl, -⟩; exact ⟨rfl, rfl⟩

/-- C92, finding: the transform created by the first call is kept. When the simulation has gone on and the number of times has (at least)
doubled since then, every call fails. -/
theorem C92_second_call_violated {Nt Nt' : ℕ} (h : 20 ≤ Nt) (h' : 2 * Nt ≤ Nt') :
    call none Nt = .ok (windowSize Nt, windowSize Nt) ∧ call (some (windowSize Nt)) Nt' = .error .shape := by
  refine ⟨(C92_calls Nt (by omega)).1, ?_⟩
  have h1 := (C92_window_size Nt).2.2 h
  have h2 := (C92_window_size Nt').2.2 (by omega)
  have h3 : windowSize Nt ≠ windowSize Nt' := by
    rw [windowSize_large h, windowSize_large (by omega)]
    have : Nat.log 2 (Nt / 10) < Nat.log 2 (Nt' / 10) := by
      have h0 : Nat.log 2 (Nt / 10 * 2) = Nat.log 2 (Nt / 10) + 1 := Nat.log_mul_base (by norm_num) (by omega)
      have := Nat.log_mono_right (b := 2) (show Nt / 10 * 2 ≤ Nt' / 10 by omega)
      omega
    exact fun he => this.ne (Nat.pow_right_injective le_rfl he)
  have h4 : ¬Nt' ≤ windowSize Nt' - 1 := by omega
  have h5 : windowSize Nt' < Nt' := by
    obtain ⟨e, he, hh⟩ := (C92_window_size Nt').1
    have : 0 < windowSize Nt' := by rw [hh]; positivity
    omega
  simp [call, h3, h4, h5, show Nt' ≠ 0 by omega]

/-- 100 times: windows of 8 times, every 4 times. -/
example : windowSize 100 = 8 ∧ windowSize 200 = 16 ∧ 92 - 4 ∈ starts (windowSize 100) 100 0 ∧ 92 ∉ starts (windowSize 100) 100 0 := by
  have h8 : windowSize 100 = 8 := by rw [windowSize_large (by norm_num)]; decide +kernel
  refine ⟨h8, by rw [windowSize_large (by norm_num)]; decide +kernel, ?_, ?_⟩
  · refine (C92_windows 100 _).2.2 ?_
    rw [h8]; norm_num
  · rw [(C92_windows 100 _).2, h8]; norm_num

/-- The hypotheses of `C92_total`, `C92_shell_total` and `C92_frequency_violated` are met with 100 times. -/
example : 2 ≤ windowSize 100 ∧ windowSize 100 % 2 = 0 ∧ windowSize 100 < 100 ∧ 3 ≤ windowSize 100 / 2 := by
  have h8 : windowSize 100 = 8 := by rw [windowSize_large (by norm_num)]; decide +kernel
  rw [h8]; norm_num

end

end Verif.TimeSignals
