import Verif.Floats.Lemmas
import Mathlib.Algebra.BigOperators.Group.Finset.Basic
import Mathlib.Algebra.BigOperators.Intervals
import Mathlib.Algebra.Order.Archimedean.Basic

/-!
# C89: the clock and the end of the run in floating point
-/

set_option linter.unusedSectionVars false

namespace Verif.Floats

open Finset

theorem u_pos : (0 : ℚ) < u := by unfold u; norm_num

/-- **C89 (rounding).** The model of the rounding is the one of the standard: the result is the nearest float, and when another float is as
near, the one whose significand (53 bits, or less for the subnormal numbers) is even. -/
theorem C89_rounding (x : ℚ) : Nearest x (rnd x) ∧
    ∀ z, IsFloat z → z ≠ rnd x → |x - z| = |x - rnd x| →
      ∃ m e : ℤ, rnd x = m * 2 ^ e ∧ |m| ≤ 2 ^ 53 ∧ (2 ^ 52 ≤ |m| ∧ -1074 ≤ e ∨ e = -1074) ∧ m % 2 = 0 := by
  refine ⟨rnd_nearest x, ?_⟩
  rintro z hz hne htie
  have hx : x ≠ 0 := by
    rintro rfl
    rw [rnd_zero] at hne htie
    simp at htie
    exact hne htie
  have hp := two_pos' (ulpExp x)
  -- `z` is a multiple of the unit
  obtain ⟨n, hn⟩ : ∃ n : ℤ, z = n * 2 ^ ulpExp x := by
    obtain ⟨m, k, hm, hk, rfl⟩ := hz
    by_cases hke : ulpExp x ≤ k
    · exact ⟨m * 2 ^ (k - ulpExp x).toNat, by rw [pow_mul_pow hke, ← mul_assoc]; push_cast; rfl⟩
    · rw [not_le] at hke
      have he : ulpExp x = Int.log 2 |x| - 52 := by unfold ulpExp at hke ⊢; omega
      have hL := (log_bounds hx).1
      have hzL : |(m : ℚ) * 2 ^ k| ≤ 2 ^ Int.log 2 |x| := by
        rw [abs_mul, abs_of_pos (two_pos' k)]
        have hm' : |(m : ℚ)| ≤ 2 ^ 53 := by exact_mod_cast hm
        calc |(m : ℚ)| * 2 ^ k ≤ 2 ^ 53 * 2 ^ (Int.log 2 |x| - 53) := by
              apply mul_le_mul hm' _ (two_pos' k).le (by norm_num)
              apply zpow_le_zpow_right₀ (by norm_num)
              omega
          _ = 2 ^ Int.log 2 |x| := by
              rw [← zpow_natCast, ← zpow_add₀ (by norm_num)]
              congr 1
              push_cast
              ring
      have hg : ((2 ^ 52 : ℤ) : ℚ) * 2 ^ ulpExp x = 2 ^ Int.log 2 |x| := by
        rw [he, show ((2 ^ 52 : ℤ) : ℚ) = 2 ^ (52 : ℤ) by norm_num, ← zpow_add₀ (by norm_num)]
        congr 1
        ring
      rcases le_or_gt 0 x with h0 | h0
      · have h1 := rnd_near_grid x (2 ^ 52)
        rw [hg, ← htie] at h1
        rw [abs_of_nonneg h0] at h1 hL hzL hg
        rw [abs_of_nonneg (by linarith : 0 ≤ x - 2 ^ Int.log 2 x)] at h1
        have h2 := le_abs_self (x - m * 2 ^ k)
        have h3 := (abs_le.1 hzL).2
        refine ⟨2 ^ 52, ?_⟩
        rw [hg]
        linarith
      · have h1 := rnd_near_grid x (-2 ^ 52)
        push_cast at hg h1
        rw [neg_mul, hg, ← htie] at h1
        rw [abs_of_neg h0] at h1 hL hzL hg
        rw [abs_of_nonpos (by linarith : x - -2 ^ Int.log 2 (-x) ≤ 0)] at h1
        have h2 := neg_le_abs (x - m * 2 ^ k)
        have h3 := (abs_le.1 hzL).1
        refine ⟨-2 ^ 52, ?_⟩
        push_cast
        rw [neg_mul, hg]
        linarith
  have hr : rnd x = roundEven (x / 2 ^ ulpExp x) * 2 ^ ulpExp x := rfl
  have hfl := rnd_isFloat x
  have hbound : |roundEven (x / 2 ^ ulpExp x)| ≤ 2 ^ 53 := by
    have h1 : |x / 2 ^ ulpExp x| < 2 ^ 53 := by
      rw [abs_div, abs_of_pos hp, div_lt_iff₀ hp]
      exact abs_lt_ulp hx
    have h2 := roundEven_half (x / 2 ^ ulpExp x)
    have h3 : |(roundEven (x / 2 ^ ulpExp x) : ℚ)| < 2 ^ 53 + 1 := by
      have : (roundEven (x / 2 ^ ulpExp x) : ℚ) =
          -(x / 2 ^ ulpExp x - roundEven (x / 2 ^ ulpExp x)) + x / 2 ^ ulpExp x := by ring
      rw [this]
      refine (abs_add_le _ _).trans_lt ?_
      rw [abs_neg]
      linarith
    have h4 : |roundEven (x / 2 ^ ulpExp x)| < 2 ^ 53 + 1 := by exact_mod_cast h3
    omega
  refine ⟨_, _, hr, hbound, ?_, ?_⟩
  · by_cases he : -1074 < ulpExp x
    · left
      refine ⟨?_, he.le⟩
      have hL : -1074 ≤ Int.log 2 |x| := by unfold ulpExp at he; omega
      have h1 := rnd_pos_ge hx hL
      rw [hr, abs_mul, abs_of_pos hp] at h1
      have he' : ulpExp x = Int.log 2 |x| - 52 := by unfold ulpExp at he ⊢; omega
      have h2 : (2 : ℚ) ^ Int.log 2 |x| = 2 ^ 52 * 2 ^ ulpExp x := by
        rw [he', ← zpow_natCast, ← zpow_add₀ (by norm_num)]
        congr 1
        push_cast
        ring
      rw [h2] at h1
      have h3 := le_of_mul_le_mul_right h1 hp
      exact_mod_cast h3
    · right
      exact le_antisymm (not_lt.1 he) (le_max_right _ _)
  · apply roundEven_tie (n := n)
    · rintro rfl
      exact hne (hn.trans hr.symm)
    · have key : ∀ y : ℚ, |x / 2 ^ ulpExp x - y| * 2 ^ ulpExp x = |x - y * 2 ^ ulpExp x| := by
        intro y
        conv_lhs => rw [← abs_of_pos hp, ← abs_mul]
        congr 1
        rw [abs_of_pos hp, sub_mul, div_mul_cancel₀ _ hp.ne']
      have : |x / 2 ^ ulpExp x - n| * 2 ^ ulpExp x = |x / 2 ^ ulpExp x - roundEven (x / 2 ^ ulpExp x)| * 2 ^ ulpExp x := by
        rw [key, key, ← hn, htie, ← hr]
      exact mul_right_cancel₀ hp.ne' this

/-- The literal `0.1` and a tie. -/
example : rnd (1 / 10) = 3602879701896397 / 36028797018963968 ∧ rnd (2 ^ 53 + 1) = 2 ^ 53 ∧ rnd (2 ^ 53 + 3) = 2 ^ 53 + 4 ∧
    |(2 ^ 53 + 1 : ℚ) - (2 ^ 53 + 2)| = |(2 ^ 53 + 1 : ℚ) - rnd (2 ^ 53 + 1)| := by decide +kernel

variable {t0 : ℚ} {dt : ℕ → ℚ}

theorem clock_float (h0 : IsFloat t0) : ∀ n, IsFloat (clock t0 dt n)
  | 0 => h0
  | _ + 1 => fadd_float _ _

theorem clock_step (h0 : IsFloat t0) (hd : ∀ i, 0 ≤ dt i) (n : ℕ) : clock t0 dt n ≤ clock t0 dt (n + 1) := by
  have := rnd_mono (show clock t0 dt n ≤ clock t0 dt n + dt n by linarith [hd n])
  rwa [rnd_of_float (clock_float h0 n)] at this

/-- **C89 (the time does not go back).** -/
theorem C89_clock_monotone (h0 : IsFloat t0) (hd : ∀ i, 0 ≤ dt i) : Monotone (clock t0 dt) :=
  monotone_nat_of_le_succ (clock_step h0 hd)

/-- **C89 (drift of the clock).** After `n` steps the time differs from the exact sum of the increments by at most `n` unit roundoffs (relative
to the time). -/
theorem C89_clock_drift (h0 : IsFloat t0) (hp : 0 ≤ t0) (hf : ∀ i, IsFloat (dt i)) (hd : ∀ i, 0 ≤ dt i) (n : ℕ) :
    |clock t0 dt n - (t0 + ∑ i ∈ range n, dt i)| ≤ n * u * clock t0 dt n := by
  have hm := C89_clock_monotone h0 hd
  induction n with
  | zero => simp [clock]
  | succ n ih =>
    have h1 := (add_err (clock_float (dt := dt) h0 n) (hf n)).2
    have hpos : 0 ≤ clock t0 dt (n + 1) := hp.trans (hm (Nat.zero_le (n + 1)))
    have hle := clock_step h0 hd n
    rw [show fadd (clock t0 dt n) (dt n) = clock t0 dt (n + 1) from rfl, abs_of_nonneg hpos] at h1
    have e : clock t0 dt (n + 1) - (t0 + ∑ i ∈ range (n + 1), dt i) =
        -(clock t0 dt n + dt n - clock t0 dt (n + 1)) + (clock t0 dt n - (t0 + ∑ i ∈ range n, dt i)) := by
      rw [sum_range_succ]; ring
    rw [e]
    refine (abs_add_le _ _).trans ?_
    rw [abs_neg]
    have h2 : (n : ℚ) * u * clock t0 dt n ≤ n * u * clock t0 dt (n + 1) :=
      mul_le_mul_of_nonneg_left hle (mul_nonneg (Nat.cast_nonneg n) u_pos.le)
    push_cast
    linarith

/-- What the loop returns. -/
theorem loop_iff (tEnd : ℚ) (fuel k : ℕ) (r : ℚ × ℕ) :
    loop tEnd dt fuel (clock t0 dt k) k = some r ↔
      ∃ n, r = (clock t0 dt n, n) ∧ k ≤ n ∧ n ≤ k + fuel ∧ tEnd ≤ clock t0 dt n ∧ ∀ j, k ≤ j → j < n → clock t0 dt j < tEnd := by
  induction fuel generalizing k with
  | zero =>
    unfold loop
    split_ifs with h
    · simp only [reduceCtorEq, false_iff]
      rintro ⟨n, -, h1, h2, h3, -⟩
      have : n = k := by omega
      subst this
      linarith
    · constructor
      · intro e
        cases e
        exact ⟨k, rfl, le_rfl, le_rfl, not_lt.1 h, fun j h1 h2 => absurd h1 (by omega)⟩
      · rintro ⟨n, rfl, h1, h2, -, -⟩
        have : n = k := by omega
        subst this
        rfl
  | succ fuel ih =>
    unfold loop
    split_ifs with h
    · rw [show fadd (clock t0 dt k) (dt k) = clock t0 dt (k + 1) from rfl, ih (k + 1)]
      constructor
      · rintro ⟨n, e, h1, h2, h3, h4⟩
        refine ⟨n, e, by omega, by omega, h3, fun j h5 h6 => ?_⟩
        rcases h5.eq_or_lt with rfl | h5
        · exact h
        · exact h4 j h5 h6
      · rintro ⟨n, e, h1, h2, h3, h4⟩
        have : n ≠ k := by rintro rfl; linarith
        exact ⟨n, e, by omega, by omega, h3, fun j h5 h6 => h4 j (by omega) h6⟩
    · constructor
      · intro e
        cases e
        exact ⟨k, rfl, le_rfl, by omega, not_lt.1 h, fun j h1 h2 => absurd h1 (by omega)⟩
      · rintro ⟨n, rfl, h1, h2, h3, h4⟩
        rcases h1.eq_or_lt with rfl | h1
        · rfl
        · exact absurd (h4 k le_rfl h1) h

/-- **C89 (end of the run).** When all increments are at least `d`, more than the rounding error at `t_end`, the run ends at the first step
which reaches `t_end`, after at most `(t_end - t0) / (d - u t_end) + 1` steps, and the last time exceeds `t_end` by less than the last
increment (up to the roundoff). -/
theorem C89_ends (h0 : IsFloat t0) (hp : 0 ≤ t0) (hf : ∀ i, IsFloat (dt i)) (d tEnd : ℚ) (hd : ∀ i, d ≤ dt i) (hd0 : 0 < d)
    (hu : u * tEnd < d) : ∃ fuel n, loop tEnd dt fuel t0 0 = some (clock t0 dt n, n) ∧ tEnd ≤ clock t0 dt n ∧
      (∀ j < n, clock t0 dt j < tEnd) ∧ (t0 < tEnd → (n : ℚ) < (tEnd - t0) / (d - u * tEnd) + 1 ∧
        clock t0 dt n < (1 + u) * (tEnd + dt (n - 1))) := by
  classical
  have hd' : ∀ i, 0 ≤ dt i := fun i => hd0.le.trans (hd i)
  have hm := C89_clock_monotone h0 hd'
  have hgap : 0 < d - u * tEnd := by linarith
  have grow : ∀ n, (∀ j ≤ n, clock t0 dt j < tEnd) → t0 + n * (d - u * tEnd) ≤ clock t0 dt n := by
    intro n
    induction n with
    | zero => intro _; simp [clock]
    | succ n ih =>
      intro h
      have h1 := ih fun j hj => h j (by omega)
      have h2 := (add_err (clock_float (dt := dt) h0 n) (hf n)).2
      have hpos : 0 ≤ clock t0 dt (n + 1) := hp.trans (hm (Nat.zero_le (n + 1)))
      rw [show fadd (clock t0 dt n) (dt n) = clock t0 dt (n + 1) from rfl, abs_of_nonneg hpos] at h2
      have h3 := (le_abs_self _).trans h2
      have h4 := mul_le_mul_of_nonneg_left (h (n + 1) le_rfl).le u_pos.le
      have h5 := hd n
      push_cast
      linarith
  have hex : ∃ n, tEnd ≤ clock t0 dt n := by
    by_contra hc
    push Not at hc
    obtain ⟨n, hn⟩ := exists_nat_gt ((tEnd - t0) / (d - u * tEnd))
    rw [div_lt_iff₀ hgap] at hn
    have := grow n fun j _ => hc j
    have := hc n
    linarith
  have hfind := Nat.find_spec hex
  have hmin : ∀ j < Nat.find hex, clock t0 dt j < tEnd := fun j hj => not_le.1 (Nat.find_min hex hj)
  refine ⟨Nat.find hex, Nat.find hex, ?_, hfind, hmin, ?_⟩
  · have := (loop_iff (t0 := t0) (dt := dt) tEnd (Nat.find hex) 0 (clock t0 dt (Nat.find hex), Nat.find hex)).2
      ⟨_, rfl, Nat.zero_le _, by omega, hfind, fun j _ => hmin j⟩
    exact this
  · intro ht
    have hne : Nat.find hex ≠ 0 := by
      intro h
      rw [h] at hfind
      exact absurd hfind (not_le.2 ht)
    obtain ⟨m, hm'⟩ := Nat.exists_eq_succ_of_ne_zero hne
    rw [hm'] at hmin ⊢
    have h1 := grow m fun j hj => hmin j (by omega)
    have h2 := hmin m (by omega)
    constructor
    · push_cast
      have : (m : ℚ) < (tEnd - t0) / (d - u * tEnd) := by
        rw [lt_div_iff₀ hgap]
        linarith
      linarith
    · rw [Nat.succ_sub_one]
      have h3 := (add_err (clock_float (dt := dt) h0 m) (hf m)).1
      have hpos : 0 ≤ clock t0 dt m := hp.trans (hm (Nat.zero_le m))
      rw [abs_of_nonneg (show 0 ≤ clock t0 dt m + dt m by linarith [hd' m])] at h3
      have h4 := (neg_le_abs _).trans h3
      show fadd (clock t0 dt m) (dt m) < _
      have hu1 : (0 : ℚ) < 1 + u := by linarith [u_pos]
      have : (1 + u) * (clock t0 dt m + dt m) < (1 + u) * (tEnd + dt m) := mul_lt_mul_of_pos_left (by linarith) hu1
      linarith

/-- A case which meets the hypotheses: increments 0.1 until `t = 1`. -/
example : IsFloat 0 ∧ IsFloat (rnd (1 / 10)) ∧ (0 : ℚ) < rnd (1 / 10) ∧ u * 1 < rnd (1 / 10) := by
  refine ⟨float_zero, rnd_isFloat _, by decide +kernel, by unfold u; decide +kernel⟩

/-- **C89 (a clock which stops, finding).** A run at a time `t ≥ 2^L` whose increments are smaller than half of the unit in the last place
(`2^(L - 53)`) never ends: the time does not change any more. -/
theorem C89_stuck_violated (L : ℤ) (hL : -1022 ≤ L) (h0 : IsFloat t0) (hp : 2 ^ L ≤ t0) (hd : ∀ i, 0 ≤ dt i) (hs : ∀ i, dt i < 2 ^ (L - 53))
    (tEnd : ℚ) (ht : t0 < tEnd) (fuel : ℕ) : loop tEnd dt fuel t0 0 = none := by
  have hc : ∀ n, clock t0 dt n = t0 := by
    intro n
    induction n with
    | zero => rfl
    | succ n ih =>
      show fadd (clock t0 dt n) (dt n) = t0
      rw [ih]
      exact fadd_stuck h0 hp hL (hd n) (hs n)
  rcases h : loop tEnd dt fuel t0 0 with _ | r
  · rfl
  · have := (loop_iff (t0 := t0) (dt := dt) tEnd fuel 0 r).1 h
    obtain ⟨n, -, -, -, h3, -⟩ := this
    rw [hc n] at h3
    linarith

/-- A case which meets the hypotheses: `t = 2^30` (about 1e9) and increments of 1e-7. -/
example : IsFloat (2 ^ 30) ∧ (2 : ℚ) ^ (30 : ℤ) ≤ 2 ^ 30 ∧ rnd (1 / 10 ^ 7) < (2 : ℚ) ^ ((30 : ℤ) - 53) :=
  ⟨⟨1, 30, by norm_num, by norm_num, by norm_num⟩, by norm_num, by decide +kernel⟩

/-- **C89 (number of steps).** With a constant increment, and as long as the accumulated roundoff is smaller than the increment, the number of
steps until `t_end` differs by at most one from the exact one. -/
theorem C89_steps_partial (d tEnd : ℚ) (hf : IsFloat d) (hd : 0 < d) (ht : 0 < tEnd) (fuel n : ℕ) (t : ℚ)
    (h : loop tEnd (fun _ => d) fuel 0 0 = some (t, n)) (hn : n * u * tEnd < d) :
    ⌈tEnd / d⌉ ≤ (n : ℤ) + 1 ∧ (n : ℤ) ≤ ⌈tEnd / d⌉ + 1 := by
  obtain ⟨n', e, -, -, h3, h4⟩ := (loop_iff (t0 := 0) (dt := fun _ => d) tEnd fuel 0 (t, n)).1 h
  simp only [Prod.mk.injEq] at e
  obtain ⟨-, rfl⟩ := e
  have drift := fun k => C89_clock_drift (t0 := 0) (dt := fun _ => d) float_zero le_rfl (fun _ => hf) (fun _ => hd.le) k
  simp only [sum_const, card_range, nsmul_eq_mul, zero_add] at drift
  have hm := C89_clock_monotone (t0 := 0) (dt := fun _ => d) float_zero (fun _ => hd.le)
  have hpos : ∀ k, 0 ≤ clock 0 (fun _ => d) k := fun k => hm (Nat.zero_le k)
  have hne : n ≠ 0 := by
    rintro rfl
    exact absurd h3 (not_le.2 ht)
  obtain ⟨m, rfl⟩ := Nat.exists_eq_succ_of_ne_zero hne
  have h5 := h4 m (Nat.zero_le _) (by omega)
  have d1 := (abs_le.1 (drift (m + 1)))
  have d2 := (abs_le.1 (drift m))
  have hu := u_pos
  constructor
  · rw [Int.ceil_le, div_le_iff₀ hd]
    push_cast at d1 hn ⊢
    by_cases hc : ((m : ℚ) + 1) * u ≤ 1
    · have : (1 - ((m : ℚ) + 1) * u) * tEnd ≤ (1 - ((m : ℚ) + 1) * u) * clock 0 (fun _ => d) (m + 1) :=
        mul_le_mul_of_nonneg_left h3 (by linarith)
      nlinarith
    · rw [not_le] at hc
      have h6 : tEnd < d := by nlinarith
      have : (0 : ℚ) ≤ m := Nat.cast_nonneg m
      nlinarith
  · have h6 : (m : ℚ) * d ≤ (1 + m * u) * clock 0 (fun _ => d) m := by linarith [d2.1]
    have hm0 : (0 : ℚ) ≤ m := Nat.cast_nonneg m
    have h7 : (1 + (m : ℚ) * u) * clock 0 (fun _ => d) m ≤ (1 + m * u) * tEnd :=
      mul_le_mul_of_nonneg_left h5.le (by positivity)
    have h8 : (m : ℚ) * u * tEnd ≤ ((m : ℚ) + 1) * u * tEnd := by
      have : 0 ≤ u * tEnd := by positivity
      nlinarith
    push_cast at hn
    have h9 : ((m : ℚ) - 1) * d < tEnd := by nlinarith
    have h10 : ((m : ℚ) - 1) < tEnd / d := by rwa [lt_div_iff₀ hd]
    have h11 : (((m : ℤ) - 1 : ℤ) : ℚ) < tEnd / d := by push_cast; exact h10
    have := Int.lt_ceil.2 h11
    push_cast
    omega

/-- The hypotheses are met: 0.3 until 1. -/
example : loop 1 (fun _ => rnd (3 / 10)) 20 0 0 = some (rnd (12 / 10), 4) ∧ 4 * u * 1 < rnd (3 / 10) := by
  unfold u; decide +kernel

/-- **C89 (number of steps, finding).** With `deltat0 = 0.1` and `t_end = 1` the run makes 11 steps and ends at 1.0999999999999999: after
10 steps the time is 0.9999999999999999. -/
theorem C89_steps_violated : ∃ d : ℚ, d = rnd (1 / 10) ∧ clock 0 (fun _ => d) 10 = 1 - 1 / 2 ^ 53 ∧
    loop 1 (fun _ => d) 20 0 0 = some (rnd (10999999999999999 / 10000000000000000), 11) :=
  ⟨_, rfl, by decide +kernel, by decide +kernel⟩

end Verif.Floats
