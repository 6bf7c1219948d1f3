import Verif.CorrelFreq.Spec
import Mathlib.Analysis.InnerProductSpace.Basic
import Mathlib.Tactic.LinearCombination

/-! # Lemmas for C75 -/

namespace Verif.CorrelFreq

open Finset

noncomputable section

theorem dft_conj (N : ℕ) (y : ℕ → ℝ) (ω : ℤ) : (starRingEnd ℂ) (dft N y ω) = dft N y (-ω) := by
  unfold dft
  rw [map_mul, map_sum, Complex.conj_ofReal]
  congr 1
  apply Finset.sum_congr rfl
  intro n _
  rw [map_mul, Complex.conj_ofReal, ← Complex.exp_conj, map_mul, map_neg, Complex.conj_ofReal, Complex.conj_I]
  congr 2
  push_cast
  ring

theorem dft_add (N : ℕ) (hN : N ≠ 0) (y : ℕ → ℝ) (ω : ℤ) : dft N y (ω + N) = dft N y ω := by
  unfold dft
  congr 1
  apply Finset.sum_congr rfl
  intro n _
  congr 1
  have hN' : (N : ℂ) ≠ 0 := by exact_mod_cast hN
  have e : (-(2 * Real.pi * ((ω + N : ℤ) : ℝ) * n / N : ℝ) * Complex.I : ℂ) =
      -(2 * Real.pi * (ω : ℝ) * n / N : ℝ) * Complex.I + ((-(n : ℤ) : ℤ) : ℂ) * (2 * Real.pi * Complex.I) := by
    push_cast
    field_simp
    ring
  rw [e, Complex.exp_add, Complex.exp_int_mul_two_pi_mul_I, mul_one]

theorem dft_sub (N : ℕ) (hN : N ≠ 0) (y : ℕ → ℝ) (ω : ℤ) : dft N y (ω - N) = dft N y ω := by
  rw [← dft_add N hN y (ω - N), sub_add_cancel]

theorem fft1_eq (N : ℕ) (y : ℕ → ℝ) (io : ℕ) : fft1 N y io = dft N y io := by
  unfold fft1 dft
  simp

theorem term_low (N nb io1 io3 io4 : ℕ) (y : ℕ → ℝ) (h : (io3 : ℤ) + io4 - io1 < nb) :
    term nb io1 io3 io4 (fft1 N y) = quartet N y io1 ((io3 : ℤ) + io4 - io1) io3 io4 := by
  unfold term quartet index
  by_cases h0 : (io3 : ℤ) + io4 - io1 < 0
  · simp only [h0, if_true, fft1_eq]
    rw [Int.toNat_of_nonneg (by omega), dft_conj N y (-_), neg_neg]
    ring
  · simp only [h0, if_false, not_le.2 h, fft1_eq]
    rw [Int.toNat_of_nonneg (by omega)]
    simp
    ring

theorem term_high (N nb io1 io3 io4 : ℕ) (y : ℕ → ℝ) (h : (nb : ℤ) ≤ (io3 : ℤ) + io4 - io1) (h3 : io3 < nb)
    (h4 : io4 < nb) :
    term nb io1 io3 io4 (fft1 N y) =
      quartet N y io1 ((io3 : ℤ) + io4 - io1 - (2 * nb - 1 : ℤ)) io3 io4 := by
  unfold term quartet index
  have h0 : ¬ (io3 : ℤ) + io4 - io1 < 0 := by omega
  simp only [h0, if_false, h, if_true, fft1_eq]
  rw [Int.toNat_of_nonneg (by omega), dft_conj N y (2 * _ - 1 - _)]
  rw [show -(2 * (nb : ℤ) - 1 - ((io3 : ℤ) + io4 - io1)) = (io3 : ℤ) + io4 - io1 - (2 * nb - 1 : ℤ) by ring]
  ring

theorem index_comm (nb io1 io3 io4 : ℕ) : index nb ((io3 : ℤ) + io4 - io1) = index nb ((io4 : ℤ) + io3 - io1) := by
  rw [add_comm (io3 : ℤ)]

theorem term_comm (nb io1 io3 io4 : ℕ) (q : ℕ → ℂ) : term nb io1 io3 io4 q = term nb io1 io4 io3 q := by
  unfold term
  rw [index_comm]
  ring

theorem correl4Seq_eq (nb io1 : ℕ) (sites : List (ℕ → ℂ)) (io3 io4 : ℕ) :
    correl4Seq nb io1 sites io3 io4 = (sites.map (term nb io1 io3 io4)).sum := by
  unfold correl4Seq
  split
  · rfl
  · congr 2
    funext q
    exact term_comm ..

theorem correl2Seq_eq (sites : List (ℕ → ℂ)) (io3 io4 : ℕ) :
    correl2Seq sites io3 io4 = (sites.map fun q => q io3 * (starRingEnd ℂ) (q io4)).sum := by
  unfold correl2Seq
  split
  · rfl
  · rw [map_list_sum, List.map_map]
    congr 2
    funext q
    simp [mul_comm]

theorem sum_flatten {P : Type} (l : List (List P)) (g : P → ℂ) :
    (l.map fun s => (s.map g).sum).sum = (l.flatten.map g).sum := by
  induction l with
  | nil => simp
  | cons a l ih => simp [ih]

theorem nbXs_eq (l : List (List (ℕ → ℂ))) : nbXs l = l.flatten.length := by
  unfold nbXs
  rw [List.length_flatten]

theorem correl4_eq (nb io1 : ℕ) (ranks : List (List (ℕ → ℂ))) (io3 io4 : ℕ) :
    correl4 nb io1 ranks io3 io4 = average ranks.flatten (term nb io1 io3 io4) := by
  unfold correl4 average
  simp only [correl4Seq_eq]
  rw [sum_flatten, nbXs_eq]

theorem correl2_eq (ranks : List (List (ℕ → ℂ))) (io3 io4 : ℕ) :
    correl2 ranks io3 io4 = average ranks.flatten fun q => q io3 * (starRingEnd ℂ) (q io4) := by
  unfold correl2 average
  simp only [correl2Seq_eq]
  rw [sum_flatten, nbXs_eq]

theorem average_map {P P' : Type} (l : List P) (f : P → P') (g : P' → ℂ) :
    average (l.map f) g = average l fun p => g (f p) := by
  unfold average
  rw [List.map_map, List.length_map]
  rfl

theorem average_congr {P : Type} (l : List P) (g h : P → ℂ) (e : ∀ p, g p = h p) : average l g = average l h := by
  rw [show g = h from funext e]

theorem spatioFft_flatten (sizes : List ℕ) (N : ℕ) (w : List (ℕ → ℕ → ℝ)) :
    (spatioFft sizes N w).flatten =
      (points sizes).map fun p => fft1 N fun n => hanning N n * (w.getD n (fun _ _ => 0)) p.1 p.2 := by
  unfold spatioFft points
  rw [← List.flatMap_def, List.map_flatMap]
  congr 1
  funext r
  rw [List.map_map]
  rfl

theorem fft1_congr (N : ℕ) (y z : ℕ → ℝ) (h : ∀ t < N, y t = z t) : fft1 N (fun n => hanning N n * y n) =
    fft1 N (fun n => hanning N n * z n) := by
  funext io
  unfold fft1
  congr 1
  apply Finset.sum_congr rfl
  intro n hn
  dsimp only
  rw [h n (Finset.mem_range.1 hn)]

/-- `spatioFft` as the transforms of the series of each point. -/
def spatioFft' (sizes : List ℕ) (N : ℕ) (y : ℕ → ℕ → ℕ → ℝ) : List (List (ℕ → ℂ)) :=
  ((List.range sizes.length).map fun r => (List.range (sizes.getD r 0)).map fun ix =>
    fun n => hanning N n * y r ix n).map fun s => s.map (fft1 N)

theorem spatioFft_eq (sizes : List ℕ) (N : ℕ) (w : List (ℕ → ℕ → ℝ)) (y : ℕ → ℕ → ℕ → ℝ)
    (h : ∀ t < N, w.getD t (fun _ _ => 0) = fun r ix => y r ix t) : spatioFft sizes N w = spatioFft' sizes N y := by
  unfold spatioFft spatioFft'
  rw [List.map_map]
  congr 1
  funext r
  simp only [Function.comp, List.map_map]
  congr 1
  funext ix
  apply fft1_congr
  intro t ht
  rw [h t ht]

theorem average_points (sizes : List ℕ) (N : ℕ) (y : ℕ → ℕ → ℕ → ℝ) (g : (ℕ → ℝ) → ℂ) :
    average ((List.range sizes.length).map fun r => (List.range (sizes.getD r 0)).map fun ix =>
      fun n => hanning N n * y r ix n).flatten g = average (points sizes) fun p => g fun n => hanning N n * y p.1 p.2 n := by
  rw [← average_map (points sizes) (fun p n => hanning N n * y p.1 p.2 n) g]
  congr 1
  unfold points
  rw [← List.flatMap_def, List.map_flatMap]
  congr 1
  funext r
  rw [List.map_map]
  rfl

/-! ### The running mean -/

variable {A V : Type} [AddCommGroup V] [Module ℝ V]

theorem meanOf_append (l : List V) (v : V) :
    meanOf (l ++ [v]) = (1 / ((l.length : ℝ) + 1)) • ((l.length : ℝ) • meanOf l + v) := by
  unfold meanOf
  rw [List.length_append, List.sum_append]
  simp only [List.length_singleton, List.sum_singleton, Nat.cast_add, Nat.cast_one]
  congr 1
  rw [smul_smul]
  by_cases h : l.length = 0
  · rw [List.length_eq_zero_iff.1 h]
    simp
  · rw [mul_one_div_cancel (by exact_mod_cast h), one_smul]

theorem meanOf_map {W : Type} [AddCommGroup W] [Module ℝ W] (φ : V →ₗ[ℝ] W) (l : List V) :
    φ (meanOf l) = meanOf (l.map φ) := by
  unfold meanOf
  rw [map_smul, map_list_sum, List.length_map]

theorem meanOf_nil : meanOf ([] : List V) = 0 := by simp [meanOf]

/-- The windows of the samples `g`. -/
def win (g : ℕ → A) (N j : ℕ) : List A := (List.range N).map fun i => g (j * N + i)

/-- What is known after `k` samples `g 0`, `g 1`, ... -/
structure Inv (c : Cfg A V) (g : ℕ → A) (k : ℕ) (s : St A V) : Prop where
  buf : s.buf = (List.range (k % c.nbTimes)).map fun i => g (k / c.nbTimes * c.nbTimes + i)
  nb : s.nbMeans = k / c.nbTimes
  mean : s.mean = meanOf ((List.range (k / c.nbTimes)).map fun j => c.corr (win g c.nbTimes j))

theorem inv_push (c : Cfg A V) (hN : 1 ≤ c.nbTimes) (g : ℕ → A) (k : ℕ) (s : St A V) (it : ℤ) (h : Inv c g k s)
    (hs : c.period - 1 ≤ (it : ℝ) - s.itLast) :
    Inv c g (k + 1) (onlineSave c s it (g k)) ∧ (onlineSave c s it (g k)).itLast = it := by
  unfold onlineSave
  rw [if_pos hs]
  have hk : k / c.nbTimes * c.nbTimes + k % c.nbTimes = k := Nat.div_add_mod' k c.nbTimes
  have hbuf : s.buf ++ [g k] = (List.range (k % c.nbTimes + 1)).map fun i => g (k / c.nbTimes * c.nbTimes + i) := by
    rw [List.range_succ, List.map_append, ← h.buf]
    simp [hk]
  have hlt := Nat.mod_lt k hN
  have hlen : (s.buf ++ [g k]).length = k % c.nbTimes + 1 := by rw [hbuf]; simp
  dsimp only
  rw [hlen]
  by_cases he : k % c.nbTimes + 1 = c.nbTimes
  · have e : k + 1 = (k / c.nbTimes + 1) * c.nbTimes := by
      rw [add_mul, one_mul]; omega
    have hd : (k + 1) / c.nbTimes = k / c.nbTimes + 1 := by rw [e]; exact Nat.mul_div_cancel _ hN
    have hm : (k + 1) % c.nbTimes = 0 := by rw [e]; exact Nat.mul_mod_left ..
    rw [if_pos he]
    refine ⟨⟨?_, ?_, ?_⟩, rfl⟩
    · simp [endWindow, hm]
    · simp [endWindow, hd, h.nb]
    · rw [hd, List.range_succ, List.map_append, List.map_singleton, meanOf_append]
      simp only [endWindow, h.nb, h.mean, List.length_map, List.length_range]
      congr 3
      rw [hbuf, he]
      rfl
  · have hd : (k + 1) / c.nbTimes = k / c.nbTimes := by
      apply Nat.div_eq_of_lt_le
      · omega
      · rw [add_mul, one_mul]; omega
    have hm : (k + 1) % c.nbTimes = k % c.nbTimes + 1 := by
      have := Nat.div_add_mod' (k + 1) c.nbTimes
      rw [hd] at this
      omega
    rw [if_neg he]
    refine ⟨⟨?_, ?_, ?_⟩, rfl⟩
    · rw [hd, hm]; exact hbuf
    · rw [hd]; exact h.nb
    · rw [hd]; exact h.mean

theorem onlineSave_skip (c : Cfg A V) (s : St A V) (it : ℤ) (x : A)
    (hs : ¬ c.period - 1 ≤ (it : ℝ) - s.itLast) : onlineSave c s it x = s := by
  unfold onlineSave
  rw [if_neg hs]

theorem run_inv (c : Cfg A V) (hN : 1 ≤ c.nbTimes) (f : ℕ → A) (n : ℕ) :
    ∃ k, (∀ i, i < k ↔ sampleIt c.itStart c.period i ≤ n) ∧
      Inv c (fun i => f (sampleIt c.itStart c.period i)) k (run c f n) ∧
      (run c f n).itLast = if k = 0 then c.itStart else ((sampleIt c.itStart c.period (k - 1) : ℕ) : ℤ) := by
  have hst : 1 ≤ stride c.period := le_max_left _ _
  have hfi : 1 ≤ first c.itStart c.period := le_max_left _ _
  induction n with
  | zero =>
    refine ⟨0, fun i => ?_, ⟨?_, ?_, ?_⟩, ?_⟩
    · constructor
      · intro h; omega
      · intro h
        unfold sampleIt at h
        omega
    · simp [run, start]
    · simp [run, start]
    · simp [run, start, meanOf_nil]
    · simp [run, start]
  | succ n ih =>
    obtain ⟨k, hk, hi, hl⟩ := ih
    have hmono : ∀ i j, i < j → sampleIt c.itStart c.period i < sampleIt c.itStart c.period j := by
      intro i j hij
      unfold sampleIt
      have := Nat.mul_lt_mul_of_pos_right hij hst
      omega
    have hkn : n < sampleIt c.itStart c.period k := by
      by_contra hc
      exact lt_irrefl k ((hk k).2 (not_lt.1 hc))
    -- the condition of the code
    have hcond : c.period - 1 ≤ (((n + 1 : ℕ) : ℤ) : ℝ) - (run c f n).itLast ↔
        sampleIt c.itStart c.period k ≤ n + 1 := by
      rw [hl]
      by_cases h0 : k = 0
      · subst h0
        simp only [if_true]
        unfold sampleIt first
        simp only [zero_mul, add_zero]
        rw [max_le_iff, Nat.ceil_le]
        push_cast
        constructor
        · intro h; exact ⟨trivial, by linarith⟩
        · rintro ⟨_, h⟩; linarith
      · rw [if_neg h0]
        have hk1 : sampleIt c.itStart c.period (k - 1) ≤ n := (hk (k - 1)).1 (by omega)
        have e : sampleIt c.itStart c.period k = sampleIt c.itStart c.period (k - 1) + stride c.period := by
          unfold sampleIt
          obtain ⟨m, rfl⟩ := Nat.exists_eq_succ_of_ne_zero h0
          simp only [Nat.succ_eq_add_one, Nat.add_sub_cancel]
          ring
        rw [e]
        generalize sampleIt c.itStart c.period (k - 1) = a at hk1 ⊢
        unfold stride
        have e2 : (((n + 1 : ℕ) : ℤ) : ℝ) - ((a : ℤ) : ℝ) = ((n + 1 - a : ℕ) : ℝ) := by
          rw [Nat.cast_sub (by omega)]
          push_cast
          ring
        rw [e2, ← Nat.ceil_le]
        omega
    have hrun : run c f (n + 1) = onlineSave c (run c f n) ((n + 1 : ℕ) : ℤ) (f (n + 1)) := rfl
    rw [hrun]
    by_cases hs : sampleIt c.itStart c.period k ≤ n + 1
    · have heq : sampleIt c.itStart c.period k = n + 1 := by omega
      have hp := inv_push c hN (fun i => f (sampleIt c.itStart c.period i)) k _ ((n + 1 : ℕ) : ℤ) hi (hcond.2 hs)
      simp only [heq] at hp
      refine ⟨k + 1, fun i => ?_, hp.1, ?_⟩
      · constructor
        · intro h
          rcases Nat.lt_succ_iff_lt_or_eq.1 h with h | h
          · have := (hk i).1 h; omega
          · rw [h]; exact hs
        · intro h
          by_contra hc
          have := hmono k i (by omega)
          omega
      · rw [hp.2]
        simp [heq]
    · rw [onlineSave_skip c _ _ _ (fun h => hs (hcond.1 h))]
      refine ⟨k, fun i => ?_, hi, hl⟩
      constructor
      · intro h; have := (hk i).1 h; omega
      · intro h
        by_contra hc
        rcases Nat.lt_or_eq_of_le (not_lt.1 hc) with h' | h'
        · have := hmono k i h'; omega
        · rw [← h'] at h; exact hs h

/-! ### Restarts -/

theorem pow2_double (m : ℕ) (h : m = 2 ^ Nat.log 2 m) : 2 * m = 2 ^ Nat.log 2 (2 * m) := by
  rw [h, ← pow_succ', Nat.log_pow (by norm_num)]

theorem pow2_big (m : ℕ) (h : m = 2 ^ Nat.log 2 m) (hm : 128 ≤ m) : m % 128 = 0 := by
  have : 7 ≤ Nat.log 2 m := by
    rw [Nat.le_log_iff_pow_le (by norm_num) (by omega)]
    omega
  rw [h]
  obtain ⟨j, hj⟩ := Nat.exists_eq_add_of_le this
  rw [hj, pow_add]
  norm_num

/-- What is true of each record and of the state. -/
structure Good (c : Cfg A V) (s : St A V) : Prop where
  mean : ∃ ws : List (List A), ws.length = s.nbMeans ∧ (∀ w ∈ ws, w.length = c.nbTimes) ∧ s.mean = meanOf (ws.map c.corr)
  file : ∀ r ∈ s.file, saved r.2 ∧ 2 ≤ r.2 ∧
    ∃ ws : List (List A), ws.length = r.2 ∧ (∀ w ∈ ws, w.length = c.nbTimes) ∧ r.1 = meanOf (ws.map c.corr)
  none : s.file.getLast? = none → s.nbMeans ≤ 1
  last : ∀ r, s.file.getLast? = some r → r.2 ≤ s.nbMeans ∧ s.nbMeans < 2 * r.2 ∧ s.nbMeans < r.2 + 128
  buf : s.buf.length < c.nbTimes

theorem good_start (c : Cfg A V) (hN : 1 ≤ c.nbTimes) (s : St A V) (h : Good c s) : Good c (start c s.file) := by
  unfold start
  cases hl : s.file.getLast? with
  | none =>
    refine ⟨⟨[], rfl, by simp, by simp [meanOf_nil]⟩, by simp, by simp, by simp, by simpa using Nat.pos_of_ne_zero (by omega)⟩
  | some r =>
    have hm := h.file r (List.mem_of_getLast? hl)
    refine ⟨hm.2.2, h.file, ?_, ?_, by simpa using Nat.pos_of_ne_zero (by omega)⟩
    · intro h'; rw [hl] at h'; cases h'
    · intro r' h'
      rw [hl] at h'
      cases h'
      have := hm.2.1
      dsimp only
      omega

theorem good_end (c : Cfg A V) (hN : 1 ≤ c.nbTimes) (s : St A V) (w : List A) (it : ℤ) (h : Good c s)
    (hw : w.length = c.nbTimes) : Good c (endWindow c { s with itLast := it, buf := w } w) := by
  obtain ⟨ws, h1, h2, h3⟩ := h.mean
  have hmean : (1 / ((s.nbMeans : ℝ) + 1)) • ((s.nbMeans : ℝ) • s.mean + c.corr w) = meanOf ((ws ++ [w]).map c.corr) := by
    rw [List.map_append, List.map_singleton, meanOf_append, ← h3, List.length_map, h1]
  have hws : ∀ v ∈ ws ++ [w], v.length = c.nbTimes := by
    intro v hv
    rcases List.mem_append.1 hv with hv | hv
    · exact h2 v hv
    · rw [List.mem_singleton.1 hv]; exact hw
  have hnew : ∃ ws : List (List A), ws.length = s.nbMeans + 1 ∧ (∀ w ∈ ws, w.length = c.nbTimes) ∧
      (1 / ((s.nbMeans : ℝ) + 1)) • ((s.nbMeans : ℝ) • s.mean + c.corr w) = meanOf (ws.map c.corr) :=
    ⟨ws ++ [w], by simp [h1], hws, hmean⟩
  by_cases hs : saved (s.nbMeans + 1)
  · refine ⟨hnew, ?_, ?_, ?_, by simpa [endWindow] using Nat.pos_of_ne_zero (by omega)⟩
    · intro r hr
      simp only [endWindow, if_pos hs] at hr
      rcases List.mem_append.1 hr with hr | hr
      · exact h.file r hr
      · rw [List.mem_singleton.1 hr]
        refine ⟨hs, ?_, hnew⟩
        have := hs.2
        dsimp only
        omega
    · intro hn
      simp [endWindow, if_pos hs] at hn
    · intro r hr
      simp only [endWindow, if_pos hs, List.getLast?_append, List.getLast?_singleton, Option.some_or,
        Option.some.injEq] at hr
      subst hr
      simp only [endWindow]
      have := hs.2
      omega
  · refine ⟨hnew, ?_, ?_, ?_, by simpa [endWindow] using Nat.pos_of_ne_zero (by omega)⟩
    · intro r hr
      simp only [endWindow, if_neg hs] at hr
      exact h.file r hr
    · intro hn
      simp only [endWindow, if_neg hs] at hn ⊢
      have hle := h.none hn
      by_contra hc
      have e : s.nbMeans = 1 := by omega
      apply hs
      rw [e]
      decide
    · intro r hr
      simp only [endWindow, if_neg hs] at hr ⊢
      have hb := h.last r hr
      have hf := h.file r (List.mem_of_getLast? hr)
      have hns : ¬ ((s.nbMeans + 1) % 128 = 0 ∨ s.nbMeans + 1 = 2 ^ Nat.log 2 (s.nbMeans + 1)) := by
        intro h'
        exact hs ⟨h', by omega⟩
      rw [not_or] at hns
      refine ⟨by omega, ?_, ?_⟩
      · by_contra hc
        have e : s.nbMeans + 1 = 2 * r.2 := by omega
        rcases hf.1.1 with h' | h'
        · exact hns.1 (by omega)
        · exact hns.2 (by rw [e]; exact pow2_double _ h')
      · by_contra hc
        have e : s.nbMeans + 1 = r.2 + 128 := by omega
        have h128 : r.2 % 128 = 0 := by
          rcases hf.1.1 with h' | h'
          · exact h'
          · exact pow2_big _ h' (by omega)
        exact hns.1 (by omega)

theorem good_save (c : Cfg A V) (hN : 1 ≤ c.nbTimes) (s : St A V) (it : ℤ) (x : A) (h : Good c s) :
    Good c (onlineSave c s it x) := by
  unfold onlineSave
  split
  · dsimp only
    split
    · rename_i hlen
      exact good_end c hN s _ it h hlen
    · rename_i hlen
      refine ⟨h.mean, h.file, h.none, h.last, ?_⟩
      have := h.buf
      simp only [List.length_append, List.length_singleton] at hlen ⊢
      omega
  · exact h

theorem good_history (c : Cfg A V) (hN : 1 ≤ c.nbTimes) (es : List (Ev A)) : Good c (history c es) := by
  have : ∀ s : St A V, Good c s → Good c (es.foldl (stepEv c) s) := by
    induction es with
    | nil => exact fun s h => h
    | cons e es ih =>
      intro s h
      refine ih _ ?_
      cases e with
      | iter it x => exact good_save c hN s it x h
      | restart => exact good_start c hN s h
  apply this
  refine ⟨⟨[], rfl, by simp, by simp [start, meanOf_nil]⟩, by simp [start], by simp [start], by simp [start],
    by simpa [start] using Nat.pos_of_ne_zero (by omega)⟩

end

end Verif.CorrelFreq
