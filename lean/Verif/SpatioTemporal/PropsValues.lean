import Mathlib.Tactic.FieldSimp
import Mathlib.Tactic.Linarith
import Mathlib.Tactic.LinearCombination
import Mathlib.Data.Rat.Floor
import Verif.Cadence.Model
import Verif.Fourier.Lemmas
import Verif.SpatioTemporal.ModelValues

/-!
# C62 (second part): the spectra computed from the loaded series
-/

namespace Verif.SpatioTemporal

open Finset

set_option linter.unusedSectionVars false

/-! ### Parseval -/

theorem dft_parseval (n : ℕ) (hn : 0 < n) (x : Fin n → ℂ) :
    ∑ m : Fin n, Complex.normSq (dft n x m) = n * ∑ j : Fin n, Complex.normSq (x j) := by
  have hc : ((∑ m : Fin n, Complex.normSq (dft n x m) : ℝ) : ℂ)
      = ((n * ∑ j : Fin n, Complex.normSq (x j) : ℝ) : ℂ) := by
    push_cast
    have h1 : ∀ m : Fin n, (Complex.normSq (dft n x m) : ℂ) = ∑ j : Fin n, ∑ l : Fin n,
        x j * (starRingEnd ℂ) (x l) * Complex.exp (2 * Real.pi * Complex.I *
          ((((l : ℕ) : ℤ) - ((j : ℕ) : ℤ) : ℤ) * ((m : ℕ) : ℂ) / n)) := by
      intro m
      rw [← Complex.mul_conj, dft, map_sum, sum_mul_sum]
      refine sum_congr rfl fun j _ => sum_congr rfl fun l _ => ?_
      rw [map_mul, ← Complex.exp_conj]
      have : (starRingEnd ℂ) (-(2 * Real.pi * Complex.I * (((m : ℕ) : ℂ) * ((l : ℕ) : ℂ) / n)))
          = 2 * Real.pi * Complex.I * (((m : ℕ) : ℂ) * ((l : ℕ) : ℂ) / n) := by
        simp [Complex.conj_ofReal, map_div₀, show (starRingEnd ℂ) 2 = 2 from Complex.conj_ofNat 2]
      rw [this, mul_mul_mul_comm, ← Complex.exp_add]
      congr 2
      push_cast
      ring
    simp only [h1]
    rw [sum_comm, mul_sum]
    refine sum_congr rfl fun j _ => ?_
    rw [sum_comm]
    simp only [← mul_sum]
    rw [sum_eq_single j]
    · rw [Fourier.sum_exp_fin n hn]
      simp [Complex.mul_conj, mul_comm]
    · intro l _ hl
      rw [Fourier.sum_exp_fin n hn, if_neg, mul_zero]
      intro h
      apply hl
      have h2 := Fourier.dvd_small h (by
        have := l.2; have := j.2
        rw [abs_lt]; constructor <;> omega)
      exact Fin.ext (by omega)
    · simp
  exact_mod_cast hc

/-- **C62**: the first spectrum computed by an object is normalised such that its integral
over the frequencies (`sum × 2π fs / n`) is the time mean of `|x|²`, for any series. -/
theorem C62_parseval (fs : ℝ) (hfs : 0 < fs) (n : ℕ) (hn : 0 < n) (x : Fin n → ℂ) :
    (∑ m, (computeSpectrum fs none n x).1 m) * (2 * Real.pi * fs / n)
      = (∑ j, Complex.normSq (x j)) / n := by
  have hn0 : (n : ℝ) ≠ 0 := by exact_mod_cast hn.ne'
  have hd : 2 * Real.pi * fs / n ≠ 0 := by
    have := Real.pi_pos
    positivity
  simp only [computeSpectrum, Option.getD_none, periodogram]
  rw [← sum_div, div_mul_cancel₀ _ hd, ← sum_div, dft_parseval n hn]
  field_simp

example : (0 : ℝ) < 10 ∧ 0 < 8 := by norm_num

/-- **C62**, FINDING: `domega` is computed at the first call and kept. A second spectrum with
the same object, from a series with another number of times, is not normalised: its integral is
the time mean of `|x|²` times (first number of times) / (second number of times). -/
theorem C62_normalisation_violated (fs : ℝ) (hfs : 0 < fs) (n1 n2 : ℕ) (h1 : 0 < n1) (h2 : 0 < n2)
    (x1 : Fin n1 → ℂ) (x2 : Fin n2 → ℂ) :
    (∑ m, (computeSpectrum fs (computeSpectrum fs none n1 x1).2 n2 x2).1 m)
        * (2 * Real.pi * fs / n2)
      = (∑ j, Complex.normSq (x2 j)) / n2 * ((n1 : ℝ) / n2) := by
  have hn1 : (n1 : ℝ) ≠ 0 := by exact_mod_cast h1.ne'
  have hn2 : (n2 : ℝ) ≠ 0 := by exact_mod_cast h2.ne'
  have hpi := Real.pi_ne_zero
  have hfs' := hfs.ne'
  simp only [computeSpectrum, Option.getD_none, Option.getD_some, periodogram]
  rw [← sum_div, ← sum_div, dft_parseval n2 h2]
  field_simp

example : ((4 : ℕ) : ℝ) / (8 : ℕ) ≠ 1 := by norm_num

/-! ### One-sided frequencies -/

theorem fold_sum (n p : ℕ) (s : ℕ → ℝ) (hp : 2 * p + 1 ≤ n) :
    ∑ i ∈ range (p + 1), (if i = 0 then s 0 else s i + s (n - i))
      = ∑ i ∈ range (p + 1), s i + ∑ i ∈ Ico (n - p) n, s i := by
  induction p with
  | zero => simp
  | succ p ih =>
    rw [sum_range_succ, ih (by omega), sum_range_succ _ (p + 1), if_neg (by omega)]
    have : ∑ i ∈ Ico (n - (p + 1)) n, s i = s (n - (p + 1)) + ∑ i ∈ Ico (n - p) n, s i := by
      rw [Finset.sum_eq_sum_Ico_succ_bot (by omega)]
      congr 2
      congr 1
      omega
    rw [this]
    ring

/-- **C62**: with an odd number of times, no frequency is lost or counted twice: the total of
the one-sided spectrum is the one of the two-sided spectrum (both classes). -/
theorem C62_onesided_partial (n : ℕ) (hn : Odd n) (s : ℕ → ℝ) :
    total (oneSided n s) = ∑ i ∈ range n, s i ∧ total (oneSidedT n s) = ∑ i ∈ range n, s i := by
  obtain ⟨p, rfl⟩ := hn
  have h := fold_sum (2 * p + 1) p s le_rfl
  have hsum : ∑ i ∈ range (2 * p + 1), s i
      = ∑ i ∈ range (p + 1), s i + ∑ i ∈ Ico (2 * p + 1 - p) (2 * p + 1), s i := by
    rw [show 2 * p + 1 - p = p + 1 by omega, Finset.sum_range_add_sum_Ico _ (by omega)]
  constructor
  · simp only [total, oneSided]
    rw [show (2 * p + 1 + 1) / 2 = p + 1 by omega, h, hsum]
  · simp only [total, oneSidedT]
    rw [show (2 * p + 1) / 2 + 1 = p + 1 by omega, h, hsum]

example : Odd 9 := by decide

/-- **C62**, FINDING: with an even number of times, the spatiotemporal spectra lose the energy
at the Nyquist frequency, and the temporal spectra count it twice. -/
theorem C62_onesided_violated (p : ℕ) (hp : 0 < p) (s : ℕ → ℝ) :
    total (oneSided (2 * p) s) = ∑ i ∈ range (2 * p), s i - s p ∧
    total (oneSidedT (2 * p) s) = ∑ i ∈ range (2 * p), s i + s p := by
  obtain ⟨q, rfl⟩ : ∃ q, p = q + 1 := ⟨p - 1, by omega⟩
  have h := fold_sum (2 * (q + 1)) q s (by omega)
  have hsum : ∑ i ∈ range (2 * (q + 1)), s i = ∑ i ∈ range (q + 1), s i + s (q + 1)
      + ∑ i ∈ Ico (2 * (q + 1) - q) (2 * (q + 1)), s i := by
    rw [← sum_range_succ, show 2 * (q + 1) - q = q + 1 + 1 by omega,
      Finset.sum_range_add_sum_Ico _ (by omega)]
  constructor
  · simp only [total, oneSided]
    rw [show (2 * (q + 1) + 1) / 2 = q + 1 by omega, h, hsum]
    ring
  · simp only [total, oneSidedT]
    rw [show 2 * (q + 1) / 2 + 1 = q + 1 + 1 by omega, sum_range_succ, h, hsum, if_neg (by omega),
      show 2 * (q + 1) - (q + 1) = q + 1 by omega]
    ring

example : (0 : ℕ) < 4 := by norm_num

/-- **C62**, FINDING: in that case the last frequency of the temporal spectra is negative
(`-π fs`), while all the others of the one-sided spectra are non-negative. -/
theorem C62_frequencies_violated (fs : ℝ) (hfs : 0 < fs) (n : ℕ) (hn : 0 < n) :
    (∀ i < (n + 1) / 2, 0 ≤ 2 * Real.pi * fftFreq fs n i) ∧
    (Even n → 2 * Real.pi * fftFreq fs n (n / 2) = -(Real.pi * fs)) := by
  have hpi := Real.pi_pos
  have hn0 : (0 : ℝ) < n := by exact_mod_cast hn
  constructor
  · intro i hi
    rw [fftFreq, if_pos hi]
    positivity
  · rintro ⟨p, rfl⟩
    rw [fftFreq, if_neg (by omega), show (p + p) / 2 = p by omega]
    push_cast at hn0 ⊢
    have : (p : ℝ) + p ≠ 0 := hn0.ne'
    have hp : (p : ℝ) ≠ 0 := by intro h; rw [h] at this; simp at this
    field_simp
    ring

example : Even 8 ∧ (0 : ℝ) < 1 := ⟨by decide, by norm_num⟩

/-! ### Sums over the wavenumbers -/

theorem foldl_add {A : Type*} (g : A → ℝ) (l : List A) (r : ℝ) :
    l.foldl (fun r m => r + g m) r = r + (l.map g).sum := by
  induction l generalizing r with
  | nil => simp
  | cons x l ih => rw [List.foldl_cons, ih, List.map_cons, List.sum_cons]; ring

theorem sumWavenumber_eq (unit kxMax : ℝ) (modes : List Mode) :
    sumWavenumber unit kxMax modes
      = (modes.map fun m => if m.kx / unit ≠ 0 ∧ m.kx / unit ≠ kxMax then 2 * m.v else m.v).sum := by
  unfold sumWavenumber
  rw [foldl_add]
  simp

/-- A real field: its spectrum is even. -/
def EvenOn (g : ℤ × ℤ × ℤ → ℝ) : Prop := ∀ k, g (-k) = g k

/-- **C62**: the temporal spectra saved by `save_spectra_kzkhomega` are the sums over the whole
Fourier space: for the spectrum `g` of a real field (even in `k`) and a set `H` of modes with
`0 ≤ kx ≤ kxmax` (the stored ones), the sum is the one over `H` and the opposites of the modes
with `0 < kx < kxmax`, each mode counted once. -/
theorem C62_temporal_sum (g : ℤ × ℤ × ℤ → ℝ) (hg : EvenOn g) (nx : ℕ) (deltakx : ℝ)
    (hd : 0 < deltakx) (H : Finset (ℤ × ℤ × ℤ)) (hH : ∀ k ∈ H, 0 ≤ k.2.2)
    (mode : ℤ × ℤ × ℤ → Mode) (hm : ∀ k, (mode k).kx = deltakx * k.2.2 ∧ (mode k).v = g k) :
    tspectrumSave nx deltakx (H.toList.map mode)
      = ∑ k ∈ H ∪ (H.filter fun k => k.2.2 ≠ 0 ∧ k.2.2 ≠ ((nx / 2 : ℕ) : ℤ)).image fun k => -k, g k := by
  have hdis : Disjoint H ((H.filter fun k => k.2.2 ≠ 0 ∧ k.2.2 ≠ ((nx / 2 : ℕ) : ℤ)).image fun k => -k) := by
    rw [Finset.disjoint_left]
    intro k hk hk'
    rw [mem_image] at hk'
    obtain ⟨q, hq, rfl⟩ := hk'
    rw [mem_filter] at hq
    have h1 := hH q hq.1
    have h2 := hH _ hk
    have h3 : (-q).2.2 = -q.2.2 := rfl
    omega
  rw [sum_union hdis, sum_image (by intro a _ b _ h; exact neg_injective h), sum_filter]
  unfold tspectrumSave
  rw [sumWavenumber_eq, List.map_map]
  rw [← sum_add_distrib]
  have hl : (H.toList.map ((fun m : Mode => if m.kx / 1 ≠ 0 ∧ m.kx / 1 ≠ (nx / 2 : ℕ) * deltakx
      then 2 * m.v else m.v) ∘ mode)).sum
      = ∑ k ∈ H, if (mode k).kx / 1 ≠ 0 ∧ (mode k).kx / 1 ≠ (nx / 2 : ℕ) * deltakx
        then 2 * (mode k).v else (mode k).v := by
    exact Finset.sum_map_toList H _
  rw [hl]
  refine sum_congr rfl fun k _ => ?_
  obtain ⟨h1, h2⟩ := hm k
  rw [h1, h2, div_one]
  have e1 : deltakx * (k.2.2 : ℝ) ≠ 0 ↔ k.2.2 ≠ 0 := by
    rw [ne_eq, mul_eq_zero, not_or]
    constructor
    · rintro ⟨_, h⟩ h'; exact h (by rw [h']; norm_num)
    · intro h; exact ⟨hd.ne', by exact_mod_cast h⟩
  have e2 : deltakx * (k.2.2 : ℝ) ≠ ((nx / 2 : ℕ) : ℝ) * deltakx ↔ k.2.2 ≠ ((nx / 2 : ℕ) : ℤ) := by
    rw [mul_comm, ne_eq, mul_left_inj' hd.ne']
    constructor
    · intro h h'; exact h (by rw [h', Int.cast_natCast])
    · intro h h'
      apply h
      have : (k.2.2 : ℝ) = (((nx / 2 : ℕ) : ℤ) : ℝ) := by rw [h', Int.cast_natCast]
      exact Int.cast_injective this
  by_cases hc : k.2.2 ≠ 0 ∧ k.2.2 ≠ ((nx / 2 : ℕ) : ℤ)
  · rw [if_pos ⟨e1.2 hc.1, e2.2 hc.2⟩, if_pos hc, hg k]
    ring
  · rw [if_neg (by rintro ⟨a, b⟩; exact hc ⟨e1.1 a, e2.1 b⟩), if_neg hc, add_zero]

example : EvenOn (fun k => ((k.1 ^ 2 + k.2.2 ^ 2 : ℤ) : ℝ)) ∧
    ∀ k ∈ ({(0, 1, 0), (-1, 0, 2)} : Finset (ℤ × ℤ × ℤ)), 0 ≤ k.2.2 := by
  refine ⟨fun k => ?_, by decide⟩
  have h1 : (-k).1 = -k.1 := rfl
  have h2 : (-k).2.2 = -k.2.2 := rfl
  simp only [h1, h2]
  congr 1
  ring

/-- **C62**, partial: `compute_temporal_spectra` gives the same for a domain of length
`Lx = 2π` (`deltakx = 1`). -/
theorem C62_temporal_compute_partial (nx : ℕ) (modes : List Mode) :
    tspectrumCompute nx 1 modes = tspectrumSave nx 1 modes := rfl

/-- **C62**, FINDING: for another length it does not: a nondimensional wavenumber is compared
to a dimensional one. The mode of index `m` with `m = nx // 2 * deltakx` (for instance
`m = nx / 4` when `Lx = 4π`) is counted once instead of twice, and the last mode
`nx // 2` is counted twice instead of once. -/
theorem C62_temporal_compute_violated (nx m : ℕ) (deltakx : ℝ) (hd : 0 < deltakx)
    (hd1 : deltakx ≠ 1) (hm : (m : ℝ) = (nx / 2 : ℕ) * deltakx) (hm0 : 0 < m) (v kz kh : ℝ) :
    let mid : Mode := ⟨m * deltakx, kz, kh, v⟩
    let last : Mode := ⟨(nx / 2 : ℕ) * deltakx, kz, kh, v⟩
    (tspectrumCompute nx deltakx [mid] = v ∧ tspectrumSave nx deltakx [mid] = 2 * v) ∧
    (tspectrumCompute nx deltakx [last] = 2 * v ∧ tspectrumSave nx deltakx [last] = v) := by
  intro mid last
  have hd' := hd.ne'
  have hmr : (m : ℝ) ≠ 0 := by exact_mod_cast hm0.ne'
  have hN : ((nx / 2 : ℕ) : ℝ) ≠ 0 := by
    intro h; rw [h, zero_mul] at hm; exact hmr hm
  have hmN : (m : ℝ) ≠ ((nx / 2 : ℕ) : ℝ) := by
    intro h
    rw [h] at hm
    exact hd1 (mul_left_cancel₀ hN (by rw [← hm, mul_one]))
  simp only [tspectrumCompute, tspectrumSave, sumWavenumber_eq, mid, last, List.map_cons,
    List.map_nil, List.sum_cons, List.sum_nil, add_zero, mul_div_cancel_right₀ _ hd', div_one]
  refine ⟨⟨?_, ?_⟩, ?_, ?_⟩
  · rw [if_neg (by rintro ⟨_, h⟩; exact h hm)]
  · rw [if_pos ⟨mul_ne_zero hmr hd', fun h => hmN (mul_right_cancel₀ hd' h)⟩]
  · rw [if_pos ⟨hN, fun h => hmN (hm.trans h.symm)⟩]
  · rw [if_neg (by rintro ⟨_, h⟩; exact h rfl)]

example : ((2 : ℕ) : ℝ) = (8 / 2 : ℕ) * (1 / 2) ∧ (1 / 2 : ℝ) ≠ 1 := by norm_num

/-! ### Spectra in the plane (kz, kh) -/

theorem sum_addAt (nkz nkh : ℕ) (S : ℕ → ℕ → ℝ) (i j : ℕ) (v : ℝ) (w : ℕ → ℕ → ℝ)
    (hi : i < nkz) (hj : j < nkh) :
    ∑ a ∈ range nkz, ∑ b ∈ range nkh, w a b * addAt S i j v a b
      = ∑ a ∈ range nkz, ∑ b ∈ range nkh, w a b * S a b + w i j * v := by
  have h : ∀ a b, w a b * addAt S i j v a b
      = w a b * S a b + if a = i then (if b = j then w i j * v else 0) else 0 := by
    intro a b
    unfold addAt
    by_cases ha : a = i <;> by_cases hb : b = j <;> simp [ha, hb]
    ring
  simp only [h, sum_add_distrib]
  congr 1
  rw [sum_eq_single i]
  · rw [sum_eq_single j]
    · simp
    · intro b _ hb; simp [hb]
    · intro hj'; exact absurd (mem_range.2 hj) hj'
  · intro a _ ha
    exact sum_eq_zero fun b _ => by simp [ha]
  · intro hi'; exact absurd (mem_range.2 hi) hi'

/-- Weight of a mode in the kz-kh-omega spectra. -/
noncomputable def weight (m : Mode) : ℝ := if m.kx ≠ 0 then 2 else 1

theorem value_eq (m : Mode) : (if m.kx ≠ 0 then 2 * m.v else m.v) = weight m * m.v := by
  unfold weight
  split_ifs <;> ring

/-- Row of a mode. -/
noncomputable def row (nkz : ℕ) (dkz : ℝ) (m : Mode) : ℕ :=
  if (Increm.npRound (|m.kz| / dkz)).toNat ≥ nkz - 1 then nkz - 1
  else (Increm.npRound (|m.kz| / dkz)).toNat

theorem addMode_sum (nkz nkh : ℕ) (hz : 2 ≤ nkz) (hh : 2 ≤ nkh) (dkz dkh : ℝ) (hdh : 0 < dkh)
    (S : ℕ → ℕ → ℝ) (m : Mode) (wz : ℕ → ℝ) :
    (∑ a ∈ range nkz, ∑ b ∈ range nkh, wz a * addMode nkz nkh dkz dkh S m a b
      = ∑ a ∈ range nkz, ∑ b ∈ range nkh, wz a * S a b
        + wz (row nkz dkz m) * (weight m * m.v)) ∧
    (0 ≤ m.kh → m.kh ≤ dkh * (nkh - 1 : ℕ) →
      ∑ a ∈ range nkz, ∑ b ∈ range nkh, (dkh * b) * addMode nkz nkh dkz dkh S m a b
        = ∑ a ∈ range nkz, ∑ b ∈ range nkh, (dkh * b) * S a b + m.kh * (weight m * m.v)) := by
  have hrow : row nkz dkz m < nkz := by
    unfold row
    split_ifs with h <;> omega
  have hmode : addMode nkz nkh dkz dkh S m =
      if ⌊m.kh / dkh⌋₊ ≥ nkh - 1 then addAt S (row nkz dkz m) (nkh - 1) (weight m * m.v)
      else addAt (addAt S (row nkz dkz m) ⌊m.kh / dkh⌋₊
          ((1 - (m.kh - dkh * ⌊m.kh / dkh⌋₊) / dkh) * (weight m * m.v)))
        (row nkz dkz m) (⌊m.kh / dkh⌋₊ + 1)
          ((m.kh - dkh * ⌊m.kh / dkh⌋₊) / dkh * (weight m * m.v)) := by
    simp only [addMode, row, value_eq]
  rw [hmode]
  by_cases h : ⌊m.kh / dkh⌋₊ ≥ nkh - 1
  · rw [if_pos h]
    constructor
    · exact sum_addAt nkz nkh S _ _ _ (fun a _ => wz a) hrow (by omega)
    · intro h0 hmax
      rw [sum_addAt nkz nkh S _ _ _ (fun _ b => dkh * b) hrow (by omega)]
      have : m.kh = dkh * (nkh - 1 : ℕ) := by
        apply le_antisymm hmax
        have h1 := (Nat.le_floor_iff (div_nonneg h0 hdh.le)).1 h
        rw [le_div_iff₀ hdh] at h1
        linarith [mul_comm dkh ((nkh - 1 : ℕ) : ℝ)]
      rw [this]
  · rw [if_neg h]
    have hj : ⌊m.kh / dkh⌋₊ + 1 < nkh := by omega
    constructor
    · rw [sum_addAt nkz nkh _ _ _ _ (fun a _ => wz a) hrow hj,
        sum_addAt nkz nkh S _ _ _ (fun a _ => wz a) hrow (by omega)]
      ring
    · intro _ _
      rw [sum_addAt nkz nkh _ _ _ _ (fun _ b => dkh * b) hrow hj,
        sum_addAt nkz nkh S _ _ _ (fun _ b => dkh * b) hrow (by omega)]
      push_cast
      field_simp
      ring

theorem kzkh_sum (nkz nkh : ℕ) (hz : 2 ≤ nkz) (hh : 2 ≤ nkh) (dkz dkh : ℝ) (hdh : 0 < dkh)
    (wz : ℕ → ℝ) (modes : List Mode) (S : ℕ → ℕ → ℝ) :
    ∑ a ∈ range nkz, ∑ b ∈ range nkh, wz a * (modes.foldl (addMode nkz nkh dkz dkh) S) a b
      = ∑ a ∈ range nkz, ∑ b ∈ range nkh, wz a * S a b
        + (modes.map fun m => wz (row nkz dkz m) * (weight m * m.v)).sum := by
  induction modes generalizing S with
  | nil => simp
  | cons m modes ih =>
    rw [List.foldl_cons, ih, (addMode_sum nkz nkh hz hh dkz dkh hdh S m wz).1, List.map_cons,
      List.sum_cons]
    ring

theorem kzkh_moment (nkz nkh : ℕ) (hz : 2 ≤ nkz) (hh : 2 ≤ nkh) (dkz dkh : ℝ) (hdh : 0 < dkh)
    (modes : List Mode) (hm : ∀ m ∈ modes, 0 ≤ m.kh ∧ m.kh ≤ dkh * (nkh - 1 : ℕ))
    (S : ℕ → ℕ → ℝ) :
    ∑ a ∈ range nkz, ∑ b ∈ range nkh, (dkh * b) * (modes.foldl (addMode nkz nkh dkz dkh) S) a b
      = ∑ a ∈ range nkz, ∑ b ∈ range nkh, (dkh * b) * S a b
        + (modes.map fun m => m.kh * (weight m * m.v)).sum := by
  induction modes generalizing S with
  | nil => simp
  | cons m modes ih =>
    have h1 := hm m (by simp)
    rw [List.foldl_cons, ih (fun x hx => hm x (List.mem_cons_of_mem _ hx)),
      (addMode_sum nkz nkh hz hh dkz dkh hdh S m (fun _ => 1)).2 h1.1 h1.2, List.map_cons,
      List.sum_cons]
    ring

theorem sum_kzkh (nkz nkh : ℕ) (dkz dkh : ℝ) (hdz : 0 < dkz) (hdh : 0 < dkh) (modes : List Mode)
    (w : ℕ → ℕ → ℝ) :
    ∑ a ∈ range nkz, ∑ b ∈ range nkh, w a b * kzkh nkz nkh dkz dkh modes a b * (dkz * dkh)
      = ∑ a ∈ range nkz, ∑ b ∈ range nkh,
        w a b * (modes.foldl (addMode nkz nkh dkz dkh) fun _ _ => 0) a b := by
  refine sum_congr rfl fun a _ => sum_congr rfl fun b _ => ?_
  unfold kzkh
  have : dkz * dkh ≠ 0 := (mul_pos hdz hdh).ne'
  field_simp

/-- **C62**: the spectra in the plane `(kz, kh)` lose nothing: at each frequency, the integral
(`sum × deltakz × deltakh`) is the sum over all modes, those with `kx ≠ 0` counted twice, for
any number of bins (even smaller than the largest wavenumber). -/
theorem C62_kzkh_total (nkz nkh : ℕ) (hz : 2 ≤ nkz) (hh : 2 ≤ nkh) (dkz dkh : ℝ) (hdz : 0 < dkz)
    (hdh : 0 < dkh) (modes : List Mode) :
    ∑ a ∈ range nkz, ∑ b ∈ range nkh, kzkh nkz nkh dkz dkh modes a b * (dkz * dkh)
      = (modes.map fun m => if m.kx = 0 then m.v else 2 * m.v).sum := by
  have h1 := sum_kzkh nkz nkh dkz dkh hdz hdh modes (fun _ _ => 1)
  simp only [one_mul] at h1
  rw [h1]
  have := kzkh_sum nkz nkh hz hh dkz dkh hdh (fun _ => 1) modes (fun _ _ => 0)
  simp only [one_mul, sum_const_zero, zero_add] at this
  rw [this]
  congr 1
  refine List.map_congr_left fun m _ => ?_
  unfold weight
  by_cases h : m.kx = 0 <;> simp [h]

example : (2 : ℕ) ≤ 3 ∧ (0 : ℝ) < 1 / 2 := by norm_num

/-- **C62**: the sharing of a mode between two neighbouring bins keeps the mean horizontal
wavenumber (as long as the mode is not beyond the last bin). -/
theorem C62_kzkh_moment (nkz nkh : ℕ) (hz : 2 ≤ nkz) (hh : 2 ≤ nkh) (dkz dkh : ℝ) (hdz : 0 < dkz)
    (hdh : 0 < dkh) (modes : List Mode)
    (hm : ∀ m ∈ modes, 0 ≤ m.kh ∧ m.kh ≤ dkh * (nkh - 1 : ℕ)) :
    ∑ a ∈ range nkz, ∑ b ∈ range nkh, (dkh * b) * kzkh nkz nkh dkz dkh modes a b * (dkz * dkh)
      = (modes.map fun m => m.kh * if m.kx = 0 then m.v else 2 * m.v).sum := by
  rw [sum_kzkh nkz nkh dkz dkh hdz hdh modes (fun _ b => dkh * b)]
  have := kzkh_moment nkz nkh hz hh dkz dkh hdh modes hm (fun _ _ => 0)
  simp only [mul_zero, sum_const_zero, zero_add] at this
  rw [this]
  congr 1
  refine List.map_congr_left fun m _ => ?_
  unfold weight
  by_cases h : m.kx = 0 <;> simp [h]

example : ∀ m ∈ [(⟨1, 0, 5 / 4, 3⟩ : Mode), ⟨0, 1, 2, 1⟩], 0 ≤ m.kh ∧ m.kh ≤ 1 * ((3 - 1 : ℕ) : ℝ) := by
  intro m hm
  simp only [List.mem_cons, List.not_mem_nil, or_false] at hm
  rcases hm with rfl | rfl <;> norm_num

theorem npRound_int (m : ℕ) : Increm.npRound (m : ℝ) = m := by
  unfold Increm.npRound
  simp

/-- **C62**: the modes of vertical wavenumber `± j δkz` (`j` smaller than the number of rows)
are in row `j` and only there: the integral over `kh` of the row `j` is the sum over the modes
with `|kz| = j δkz`. -/
theorem C62_kzkh_rows (nkz nkh : ℕ) (hz : 2 ≤ nkz) (hh : 2 ≤ nkh) (dkz dkh : ℝ) (hdz : 0 < dkz)
    (hdh : 0 < dkh) (modes : List Mode) (idx : Mode → ℕ)
    (hkz : ∀ m ∈ modes, |m.kz| = dkz * idx m ∧ idx m < nkz) (j : ℕ) (hj : j < nkz) :
    ∑ b ∈ range nkh, kzkh nkz nkh dkz dkh modes j b * (dkz * dkh)
      = (modes.map fun m => if |m.kz| = dkz * j then (if m.kx = 0 then m.v else 2 * m.v) else 0).sum
      := by
  have h1 := sum_kzkh nkz nkh dkz dkh hdz hdh modes (fun a _ => if a = j then 1 else 0)
  have h2 := kzkh_sum nkz nkh hz hh dkz dkh hdh (fun a => if a = j then 1 else 0) modes
    (fun _ _ => 0)
  have h3 : ∑ a ∈ range nkz, ∑ b ∈ range nkh,
      (if a = j then (1 : ℝ) else 0) * kzkh nkz nkh dkz dkh modes a b * (dkz * dkh)
      = ∑ b ∈ range nkh, kzkh nkz nkh dkz dkh modes j b * (dkz * dkh) := by
    rw [sum_eq_single j]
    · simp
    · intro a _ ha
      exact sum_eq_zero fun b _ => by simp [ha]
    · intro h; exact absurd (mem_range.2 hj) h
  rw [h3] at h1
  rw [h1, h2]
  simp only [mul_zero, sum_const_zero, zero_add]
  congr 1
  refine List.map_congr_left fun m hm => ?_
  obtain ⟨hk, hi⟩ := hkz m hm
  have hrow : row nkz dkz m = idx m := by
    unfold row
    have : |m.kz| / dkz = (idx m : ℕ) := by rw [hk]; field_simp
    rw [this, npRound_int, Int.toNat_natCast]
    split_ifs with h
    · omega
    · rfl
  rw [hrow, hk]
  have hiff : dkz * (idx m : ℝ) = dkz * j ↔ idx m = j := by
    rw [mul_right_inj' hdz.ne']
    exact_mod_cast Iff.rfl
  unfold weight
  by_cases h : idx m = j
  · rw [if_pos h, if_pos (hiff.2 h)]
    by_cases hx : m.kx = 0 <;> simp [hx]
  · rw [if_neg h, if_neg (fun h' => h (hiff.1 h'))]
    simp

example : ∀ m ∈ [(⟨1, -1, 5 / 4, 3⟩ : Mode), ⟨0, 1, 2, 1⟩], |m.kz| = 1 * ((fun _ => 1 : Mode → ℕ) m) ∧
    (fun _ => 1 : Mode → ℕ) m < 2 := by
  intro m hm
  simp only [List.mem_cons, List.not_mem_nil, or_false] at hm
  rcases hm with rfl | rfl <;> norm_num

/-- **C62**: the two kinds of spectra saved by `save_spectra_kzkhomega` agree up to the modes
`kx = kxmax`: at each frequency, the integral over `(kz, kh)` of the first one is the temporal
spectrum plus the sum over the modes with `kx = kxmax ≠ 0` (which are counted twice in one and
once in the other); they agree when these modes are removed by dealiasing or are outside of
the region. -/
theorem C62_kzkh_vs_temporal (nkz nkh : ℕ) (hz : 2 ≤ nkz) (hh : 2 ≤ nkh) (dkz dkh : ℝ)
    (hdz : 0 < dkz) (hdh : 0 < dkh) (nx : ℕ) (hnx : 2 ≤ nx) (deltakx : ℝ) (hd : 0 < deltakx)
    (modes : List Mode) :
    ∑ a ∈ range nkz, ∑ b ∈ range nkh, kzkh nkz nkh dkz dkh modes a b * (dkz * dkh)
      = tspectrumSave nx deltakx modes
        + (modes.map fun m => if m.kx = (nx / 2 : ℕ) * deltakx then m.v else 0).sum := by
  rw [C62_kzkh_total nkz nkh hz hh dkz dkh hdz hdh, tspectrumSave, sumWavenumber_eq,
    ← List.sum_map_add]
  congr 1
  refine List.map_congr_left fun m _ => ?_
  have hN : ((nx / 2 : ℕ) : ℝ) * deltakx ≠ 0 := by
    refine mul_ne_zero ?_ hd.ne'
    have : 0 < nx / 2 := by omega
    exact_mod_cast this.ne'
  rw [div_one]
  by_cases h0 : m.kx = 0
  · simp only [h0, ne_eq, not_true_eq_false, false_and, if_false, if_true]
    rw [if_neg (fun h => hN h.symm), add_zero]
  · by_cases h1 : m.kx = ((nx / 2 : ℕ) : ℝ) * deltakx
    · rw [if_neg h0, if_neg (by rintro ⟨_, h⟩; exact h h1), if_pos h1]
      ring
    · rw [if_neg h0, if_pos ⟨h0, h1⟩, if_neg h1, add_zero]

example : (2 : ℕ) ≤ 8 := by norm_num

/-! ### Empirical frequency -/

/-- **C62**: the empirical frequency of a non-negative spectrum which is not zero lies between
the bounds of the frequencies where there is energy; for a single frequency it is this
frequency, with zero broadening. -/
theorem C62_omega_emp (n : ℕ) (omega S : ℕ → ℝ) (hS : ∀ i, 0 ≤ S i)
    (hpos : 0 < ∑ i ∈ range n, S i) (lo hi : ℝ)
    (hb : ∀ i < n, S i ≠ 0 → lo ≤ omega i ∧ omega i ≤ hi) :
    lo ≤ omegaEmp n omega S ∧ omegaEmp n omega S ≤ hi ∧
    (lo = hi → omegaEmp n omega S = lo ∧ deltaOmegaEmp n omega S = 0) := by
  have h1 : lo ≤ omegaEmp n omega S := by
    rw [omegaEmp, le_div_iff₀ hpos, mul_sum]
    refine sum_le_sum fun i hi => ?_
    by_cases h : S i = 0
    · simp [h]
    · exact mul_le_mul_of_nonneg_right (hb i (mem_range.1 hi) h).1 (hS i)
  have h2 : omegaEmp n omega S ≤ hi := by
    rw [omegaEmp, div_le_iff₀ hpos, mul_sum]
    refine sum_le_sum fun i hi => ?_
    by_cases h : S i = 0
    · simp [h]
    · exact mul_le_mul_of_nonneg_right (hb i (mem_range.1 hi) h).2 (hS i)
  refine ⟨h1, h2, ?_⟩
  intro he
  subst he
  have h3 : omegaEmp n omega S = lo := le_antisymm h2 h1
  refine ⟨h3, ?_⟩
  rw [deltaOmegaEmp, h3, sum_eq_zero, zero_div, Real.sqrt_zero]
  intro i hi
  by_cases h : S i = 0
  · simp [h]
  · have := hb i (mem_range.1 hi) h
    rw [le_antisymm this.2 this.1]
    ring

example : 0 < ∑ i ∈ range 3, (fun i : ℕ => if i = 1 then (2 : ℝ) else 0) i := by
  simp

/-- **C62**: the square of the empirical broadening is the variance of the frequency,
`⟨ω²⟩ - ⟨ω⟩²`. -/
theorem C62_delta_omega (n : ℕ) (omega S : ℕ → ℝ) (hS : ∀ i, 0 ≤ S i)
    (hpos : 0 < ∑ i ∈ range n, S i) :
    deltaOmegaEmp n omega S ^ 2
      = (∑ i ∈ range n, omega i ^ 2 * S i) / (∑ i ∈ range n, S i)
        - ((∑ i ∈ range n, omega i * S i) / ∑ i ∈ range n, S i) ^ 2 := by
  rw [deltaOmegaEmp, Real.sq_sqrt (div_nonneg
    (sum_nonneg fun i _ => mul_nonneg (sq_nonneg _) (hS i)) hpos.le)]
  set N := ∑ i ∈ range n, S i with hN
  have hN0 : N ≠ 0 := hpos.ne'
  set w := omegaEmp n omega S with hw
  have hexp : ∑ i ∈ range n, (omega i - w) ^ 2 * S i
      = ∑ i ∈ range n, omega i ^ 2 * S i - 2 * w * (∑ i ∈ range n, omega i * S i) + w ^ 2 * N := by
    rw [hN, mul_sum, mul_sum, ← sum_sub_distrib, ← sum_add_distrib]
    exact sum_congr rfl fun i _ => by ring
  have hw' : w = (∑ i ∈ range n, omega i * S i) / N := rfl
  rw [hexp]
  have h4 : ∑ i ∈ range n, omega i * S i = w * N := by rw [hw']; field_simp
  rw [h4]
  field_simp
  ring

example : (0 : ℝ) < ∑ i ∈ range 2, (fun _ : ℕ => (1 : ℝ)) i := by norm_num

/-! ### Files of spectra -/

/-- **C62**, partial: with a `dtype`, the file found or created for the spectra of the interval
is the one of exactly these parameters. (Missing: no `dtype`, see `C62_path_violated`.) -/
theorem C62_path_partial (dir : List PFile) (tmin tmax : ℚ) (d : String) (urud : Bool) :
    getPath dir tmin tmax (some d) urud = ⟨false, tmin, tmax, some d, urud⟩ ∧
    getPathT dir tmin tmax (some d) urud = ⟨true, tmin, tmax, some d, urud⟩ := by
  constructor
  · unfold getPath
    cases h : dir.find? _ with
    | none => rfl
    | some f =>
      have hf := List.find?_some h
      obtain ⟨a, b, c, e, u⟩ := f
      cases urud <;> simp_all [globMatch]
  · unfold getPathT
    cases h : dir.find? _ with
    | none => rfl
    | some f =>
      have hf := List.find?_some h
      obtain ⟨a, b, c, e, u⟩ := f
      cases urud <;> simp_all [globMatch]

/-- **C62**: in all cases the interval is the requested one, and a file of temporal spectra is
never taken for a file of spatiotemporal spectra. -/
theorem C62_path_interval (dir : List PFile) (tmin tmax : ℚ) (dtype : Option String) (urud : Bool) :
    (getPath dir tmin tmax dtype urud).tmin = tmin ∧ (getPath dir tmin tmax dtype urud).tmax = tmax ∧
    (getPath dir tmin tmax dtype urud).temporal = false ∧
    (getPathT dir tmin tmax dtype urud).temporal = true := by
  refine ⟨?_, ?_, ?_, ?_⟩
  · unfold getPath
    cases h : dir.find? _ with
    | none => rfl
    | some f => have hf := List.find?_some h; simp_all
  · unfold getPath
    cases h : dir.find? _ with
    | none => rfl
    | some f => have hf := List.find?_some h; simp_all
  · unfold getPath
    cases h : dir.find? _ with
    | none => rfl
    | some f => have hf := List.find?_some h; simp_all
  · unfold getPathT
    cases h : dir.find? _ with
    | none => rfl
    | some f => have hf := List.find?_some h; simp_all

/-- **C62**, FINDING: without `dtype`, a file saved with another `dtype` and with the
decomposition is found instead: it is loaded as if it was the requested one, and
`save_spectra_kzkhomega(tmin, tmax)` overwrites it. -/
theorem C62_path_violated :
    getPath [⟨false, 0, 5, some "complex64", true⟩] 0 5 none false
      = ⟨false, 0, 5, some "complex64", true⟩ := by decide +kernel

/-! ### Times in single precision -/

/-- **C62**, FINDING: the times in the files are of single precision, and at a restart the time
of the last record is read from them. With a period 0.1, a simulation stopped just after its
record at `t = 0.7` and restarted from there makes the record again: the stored time is below
0.7, so that the test for saving is fulfilled at `t = 0.7`, whereas it would not be with the
exact time. -/
theorem C62_single_precision_violated :
    f32Half (7 / 10) < 7 / 10 ∧
    Cadence.due (K := ℚ) .floor (1 / 10) (f32Half (7 / 10)) (7 / 10) = true ∧
    Cadence.due (K := ℚ) .floor (1 / 10) (7 / 10) (7 / 10) = false := by decide +kernel

end Verif.SpatioTemporal
