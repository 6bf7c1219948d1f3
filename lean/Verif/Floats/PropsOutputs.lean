import Verif.Floats.Props
import Mathlib.Data.List.Chain

/-!
# C89: the periodic outputs and the sums in floating point
-/

set_option linter.unusedSectionVars false

namespace Verif.Floats

open Finset

/-! ### Floor division -/

/-- The end of the floor division gives the integer near the quotient. -/
theorem snap {D : ℚ} {k : ℤ} (h : |D - k| ≤ 3 / 8) (hk : |k| ≤ 2 ^ 53) :
    (if fsub D ⌊D⌋ > 1 / 2 then fadd ⌊D⌋ 1 else (⌊D⌋ : ℚ)) = k := by
  have hb := abs_le.1 h
  have f38 : IsFloat (3 / 8) := ⟨3, -3, by norm_num, by norm_num, by norm_num⟩
  have f58 : IsFloat (5 / 8) := ⟨5, -3, by norm_num, by norm_num, by norm_num⟩
  rcases le_or_gt (k : ℚ) D with hc | hc
  · have hf : ⌊D⌋ = k := by
      rw [Int.floor_eq_iff]
      constructor <;> linarith
    rw [hf, if_neg]
    rw [not_lt]
    have := rnd_mono (show D - k ≤ 3 / 8 by linarith)
    rw [rnd_of_float f38] at this
    exact this.trans (by norm_num)
  · have hf : ⌊D⌋ = k - 1 := by
      rw [Int.floor_eq_iff]
      push_cast
      constructor <;> linarith
    rw [hf, if_pos]
    · push_cast
      rw [fadd, sub_add_cancel, rnd_of_float (float_int hk)]
    · have := rnd_mono (show (5 / 8 : ℚ) ≤ D - ((k - 1 : ℤ) : ℚ) by push_cast; linarith)
      rw [rnd_of_float f58] at this
      exact lt_of_lt_of_le (by norm_num) this

/-- The quotient of the floor division is near the truncated quotient. -/
theorem quotient_near {w : ℚ} (hw : IsFloat w) (hw0 : 0 < w) (k : ℤ) (hk : |(k : ℚ)| ≤ 2 ^ 49) :
    |fdiv (rnd (w * k)) w - k| ≤ 1 / 4 := by
  by_cases h0 : k = 0
  · subst h0
    simp [fdiv, rnd_zero]
  have h1 := (rnd_err_multiple (multiple_mul (float_multiple hw) k)).1
  have hk1 : (1 : ℚ) ≤ |(k : ℚ)| := by
    have : 1 ≤ |k| := Int.one_le_abs h0
    exact_mod_cast this
  have hu := u_pos
  have hu' : u ≤ 1 / 4 := by unfold u; norm_num
  set a := rnd (w * k) / w with ha
  have h2 : |a - k| ≤ u * |(k : ℚ)| := by
    have : a - k = -(w * k - rnd (w * k)) / w := by rw [ha]; field_simp; ring
    rw [this, abs_div, abs_neg, abs_of_pos hw0, div_le_iff₀ hw0]
    refine h1.trans (le_of_eq ?_)
    rw [abs_mul, abs_of_pos hw0]
    ring
  have h3 : |(k : ℚ)| ≤ |a| + |a - k| := by
    have : (k : ℚ) = a + -(a - k) := by ring
    calc |(k : ℚ)| = |a + -(a - k)| := by rw [← this]
      _ ≤ |a| + |-(a - k)| := abs_add_le _ _
      _ = _ := by rw [abs_neg]
  have h4 : |a| ≤ |(k : ℚ)| + |a - k| := by
    have : a = k + (a - k) := by ring
    calc |a| = |(k : ℚ) + (a - k)| := by rw [← this]
      _ ≤ _ := abs_add_le _ _
  have h5 : (2 : ℚ) ^ (-1021 : ℤ) ≤ |a| := by
    have : (2 : ℚ) ^ (-1021 : ℤ) ≤ 2 ^ (-1 : ℤ) := zpow_le_zpow_right₀ (by norm_num) (by norm_num)
    have e : (2 : ℚ) ^ (-1 : ℤ) = 1 / 2 := by norm_num
    rw [e] at this
    nlinarith
  have h6 := rnd_err_normal h5
  have : fdiv (rnd (w * k)) w - k = -(a - rnd a) + (a - k) := by rw [fdiv, ← ha]; ring
  rw [this]
  refine (abs_add_le _ _).trans ?_
  rw [abs_neg]
  have h7 : u * |a| ≤ u * (2 * |(k : ℚ)|) := mul_le_mul_of_nonneg_left (by nlinarith) hu.le
  have h8 : u * |(k : ℚ)| ≤ u * 2 ^ 49 := mul_le_mul_of_nonneg_left hk hu.le
  have h9 : u * 2 ^ 49 = 1 / 16 := by unfold u; norm_num
  linarith

/-- **C89 (floor division).** For two floats the Python operator `//` gives the exact floor of the quotient, as long as the quotient is less than
`2^49` in absolute value. -/
theorem C89_floorDiv (v w : ℚ) (hv : IsFloat v) (hw : IsFloat w) (hw0 : 0 < w) (hq : |v / w| < 2 ^ 49) : floorDiv v w = ⌊v / w⌋ := by
  have hb := abs_lt.1 hq
  have hvw : v = v / w * w := by field_simp
  rcases le_or_gt 0 (v / w) with h0 | h0
  · have hmod : fmod v w = v - w * ⌊v / w⌋ := by rw [fmod, if_pos h0]
    have h1 := Int.floor_le (v / w)
    have hm0 : ¬ fmod v w < 0 := by
      rw [hmod, not_lt]
      nlinarith [mul_le_mul_of_nonneg_right h1 hw0.le]
    have hk0 : 0 ≤ ⌊v / w⌋ := Int.floor_nonneg.2 h0
    have hk : |((⌊v / w⌋ : ℤ) : ℚ)| ≤ 2 ^ 49 := by
      rw [abs_of_nonneg (by exact_mod_cast hk0)]
      linarith
    have h2 := quotient_near hw hw0 ⌊v / w⌋ hk
    unfold floorDiv
    simp only [if_neg hm0]
    have e : fsub v (fmod v w) = rnd (w * ⌊v / w⌋) := by
      rw [fsub, hmod]; congr 1; ring
    rw [e]
    refine snap (h2.trans (by norm_num)) ?_
    have : |⌊v / w⌋| ≤ 2 ^ 49 := by exact_mod_cast hk
    omega
  · have hmod : fmod v w = v - w * ⌈v / w⌉ := by rw [fmod, if_neg (not_le.2 h0)]
    have h1 := Int.le_ceil (v / w)
    have h1' := Int.ceil_lt_add_one (v / w)
    have hk0 : ⌈v / w⌉ ≤ 0 := by
      rw [Int.ceil_le]
      push_cast
      exact h0.le
    have hk : |((⌈v / w⌉ : ℤ) : ℚ)| ≤ 2 ^ 49 := by
      rw [abs_of_nonpos (by exact_mod_cast hk0)]
      linarith
    have hk' : |⌈v / w⌉| ≤ 2 ^ 49 := by exact_mod_cast hk
    have h2 := quotient_near hw hw0 ⌈v / w⌉ hk
    have e : fsub v (fmod v w) = rnd (w * ⌈v / w⌉) := by
      rw [fsub, hmod]; congr 1; ring
    unfold floorDiv
    simp only [e]
    by_cases hm : fmod v w < 0
    · rw [if_pos hm]
      have hlt : v / w < ⌈v / w⌉ := by
        rw [hmod] at hm
        rw [div_lt_iff₀ hw0]
        linarith
      have hfl : ⌊v / w⌋ = ⌈v / w⌉ - 1 := by
        rw [Int.floor_eq_iff]
        push_cast
        constructor <;> linarith
      rw [hfl]
      set D := fdiv (rnd (w * ⌈v / w⌉)) w with hD
      refine snap ?_ (by rw [abs_le] at hk' ⊢; omega)
      have hDf : IsFloat D := rnd_isFloat _
      have h3 := (sub_err hDf (float_nat (n := 1) (by norm_num))).1
      push_cast at h3
      have hb2 := abs_le.1 h2
      have hb3 := abs_le.1 hk
      have h4 : |D - 1| ≤ 2 ^ 49 + 2 := by rw [abs_le]; constructor <;> linarith
      have h5 : u * |D - 1| ≤ 1 / 8 := by
        have := mul_le_mul_of_nonneg_left h4 u_pos.le
        have e : u * (2 ^ 49 + 2) ≤ 1 / 8 := by unfold u; norm_num
        linarith
      have h6 := abs_le.1 (h3.trans h5)
      push_cast
      rw [abs_le]
      constructor <;> linarith
    · rw [if_neg hm]
      have heq : v / w = ⌈v / w⌉ := by
        rw [hmod, not_lt] at hm
        refine le_antisymm h1 ?_
        rw [le_div_iff₀ hw0]
        linarith
      have hfl : ⌊v / w⌋ = ⌈v / w⌉ := by
        rw [Int.floor_eq_iff]
        constructor <;> linarith
      rw [hfl]
      exact snap (h2.trans (by norm_num)) (by omega)

/-- Cases which meet the hypotheses, where the rounded quotient is an integer and the exact one is not. -/
example : floorDiv 1 (rnd (1 / 10)) = 9 ∧ fdiv 1 (rnd (1 / 10)) = 10 ∧ floorDiv (-1) (rnd (3 / 10)) = -4 ∧
    |1 / rnd (1 / 10)| < 2 ^ 49 := by decide +kernel

/-! ### The tolerance of the floor test -/

theorem eps15_bounds : 0 ≤ eps15 ∧ eps15 < 2 ^ ((4 : ℤ) - 53) := by
  constructor <;> decide +kernel

/-- **C89 (the tolerance).** The tolerance `1e-15` has no effect for times from 16. -/
theorem C89_tolerance_lost (t : ℚ) (ht : IsFloat t) (h : 16 ≤ t) : fadd t eps15 = t :=
  fadd_stuck (L := 4) ht (by norm_num; exact h) (by norm_num) eps15_bounds.1 eps15_bounds.2

/-- **C89 (the tolerance).** For the times up to 3 the tolerance is at least 7 unit roundoffs (and at most 12): a clock which is late by less than that is in
the next period. -/
theorem C89_tolerance (t : ℚ) (h0 : 0 ≤ t) (h : t ≤ 3) : t + 7 * u ≤ fadd t eps15 ∧ fadd t eps15 ≤ t + 12 * u := by
  have he : 9 / 2 ^ 53 ≤ eps15 ∧ eps15 ≤ 10 / 2 ^ 53 := by constructor <;> decide +kernel
  have hx : 0 < t + eps15 := by linarith [he.1, show (0 : ℚ) < 9 / 2 ^ 53 by norm_num]
  have hlt : t + eps15 < 4 := by linarith [he.2, show (10 : ℚ) / 2 ^ 53 < 1 by norm_num]
  have hl : Int.log 2 |t + eps15| ≤ 1 := by
    rw [abs_of_pos hx]
    have := (Int.lt_zpow_iff_log_lt (R := ℚ) (b := 2) (x := 2) (by norm_num) hx).1 (by norm_num; linarith)
    omega
  have hu : ulpExp (t + eps15) ≤ -51 := by unfold ulpExp; omega
  have h1 := rnd_half_ulp (t + eps15)
  have h2 : (2 : ℚ) ^ ulpExp (t + eps15) ≤ 2 ^ (-51 : ℤ) := zpow_le_zpow_right₀ (by norm_num) hu
  have h3 : (2 : ℚ) ^ (-51 : ℤ) = 4 / 2 ^ 53 := by norm_num
  rw [h3] at h2
  have h4 := abs_le.1 h1
  unfold fadd u
  constructor <;> linarith [he.1, he.2]

/-- **C89 (floor test).** From `t = 16`, an output saves exactly when the (floating-point) time is in a later period than the one of the last
save. -/
theorem C89_floor_test (p tl t : ℚ) (hp : IsFloat p) (hp0 : 0 < p) (ht : IsFloat t) (htl : IsFloat tl) (h0 : 0 ≤ tl) (hle : tl ≤ t)
    (h16 : 16 ≤ t) (hq : t / p < 2 ^ 49) : due .floor p tl t = true ↔ ⌊tl / p⌋ < ⌊t / p⌋ := by
  have ht0 : 0 ≤ t := h0.trans hle
  have h1 := C89_floorDiv t p ht hp hp0 (by rwa [abs_of_nonneg (div_nonneg ht0 hp0.le)])
  have h2 := C89_floorDiv tl p htl hp hp0 (by
    rw [abs_of_nonneg (div_nonneg h0 hp0.le)]
    exact lt_of_le_of_lt (div_le_div_of_nonneg_right hle hp0.le) hq)
  simp only [due, C89_tolerance_lost t ht h16, h1, h2, decide_eq_true_eq]
  exact Int.cast_lt

/-- A case which meets the hypotheses. -/
example : due .floor 1 (rnd (199 / 10)) (rnd (201 / 10)) = true ∧ due .floor 1 (rnd (201 / 10)) (rnd (202 / 10)) = false := by decide +kernel

/-- **C89 (one save per period).** From `t = 16` two saves are never in the same period, and each save is made at the first call in a later period
than the last save. -/
theorem C89_floor_bins (p : ℚ) (hp : IsFloat p) (hp0 : 0 < p) (ts : List ℚ) (tl : ℚ) (i : ℕ) (hf : ∀ t ∈ ts, IsFloat t)
    (h16 : ∀ t ∈ ts, 16 ≤ t) (hq : ∀ t ∈ ts, t / p < 2 ^ 49) (htl : IsFloat tl) (h0 : 0 ≤ tl) (hs : List.IsChain (· ≤ ·) (tl :: ts)) :
    List.IsChain (fun a b => ⌊a / p⌋ < ⌊b / p⌋) (tl :: (saves .floor p ts tl i).map Prod.snd) := by
  have main : ∀ (ts : List ℚ) (tl : ℚ) (i : ℕ), (∀ t ∈ ts, IsFloat t) → (∀ t ∈ ts, 16 ≤ t) → (∀ t ∈ ts, t / p < 2 ^ 49) →
      IsFloat tl → 0 ≤ tl → List.Pairwise (· ≤ ·) (tl :: ts) →
      List.IsChain (fun a b => ⌊a / p⌋ < ⌊b / p⌋) (tl :: (saves .floor p ts tl i).map Prod.snd) := by
    intro ts
    induction ts with
    | nil => intro tl i _ _ _ _ _ _; simp [saves]
    | cons t ts ih =>
      intro tl i hf h16 hq htl h0 hs
      simp only [List.pairwise_cons] at hs
      have hle : tl ≤ t := hs.1 t (by simp)
      have hd := C89_floor_test p tl t hp hp0 (hf t (by simp)) htl h0 hle (h16 t (by simp)) (hq t (by simp))
      have hf' : ∀ t ∈ ts, IsFloat t := fun x hx => hf x (by simp [hx])
      have h16' : ∀ t ∈ ts, 16 ≤ t := fun x hx => h16 x (by simp [hx])
      have hq' : ∀ t ∈ ts, t / p < 2 ^ 49 := fun x hx => hq x (by simp [hx])
      unfold saves
      split_ifs with hdue
      · rw [List.map_cons]
        refine List.IsChain.cons_cons (hd.1 hdue) ?_
        exact ih t (i + 1) hf' h16' hq' (hf t (by simp)) (h0.trans hle) (by simp only [List.pairwise_cons]; exact hs.2)
      · exact ih tl (i + 1) hf' h16' hq' htl h0 (by
          simp only [List.pairwise_cons]; exact ⟨fun x hx => hs.1 x (by simp [hx]), hs.2.2⟩)
  exact main ts tl i hf h16 hq htl h0 (List.isChain_iff_pairwise.1 hs)

/-- The hypotheses are met: the calls of a run between 16 and 18. -/
example : (saves .floor 1 [16, rnd (165 / 10), 17, rnd (175 / 10), 18] 16 0).map Prod.fst = [2, 4] := by decide +kernel

/-- **C89 (two saves for a period, finding).** With `deltat0 = 0.1` and `period_save = 1` the output saves at the steps 10 and 11 (times
0.9999999999999999 and 1.0999999999999999), and later one step too late: at step 51 (5.099999999999998) and not at step 50
(4.999999999999998). -/
theorem C89_floor_steps_violated :
    (saves .floor 1 ((List.range 55).map fun n => clock 0 (fun _ => rnd (1 / 10)) (n + 1)) 0 1).map Prod.fst =
      [10, 11, 20, 30, 40, 51] := by decide +kernel

/-! ### The difference test -/

/-- **C89 (difference test).** The output saves if the exact difference of the times reaches the period, and only if it reaches it up to the
roundoff. -/
theorem C89_diff_test (p tl t : ℚ) (hp : IsFloat p) (ht : IsFloat t) (htl : IsFloat tl) (hle : tl ≤ t) :
    (p ≤ t - tl → due .diff p tl t = true) ∧ (due .diff p tl t = true → p ≤ (1 + u) * (t - tl)) := by
  simp only [due, decide_eq_true_eq, ge_iff_le]
  constructor
  · intro h
    have := rnd_mono h
    rwa [rnd_of_float hp] at this
  · intro h
    have h1 := (sub_err ht htl).1
    rw [abs_of_nonneg (show 0 ≤ t - tl by linarith)] at h1
    have := (neg_le_abs _).trans h1
    linarith

/-- The test can hold although the exact difference is less than the period. -/
example : due .diff (rnd (1 / 10)) (rnd (2 / 10)) (rnd (3 / 10)) = false ∧ due .diff 1 (rnd (1 / 10)) (rnd (11 / 10)) = true := by
  decide +kernel

/-- **C89 (difference test, the saves).** Two successive saves are at least one period apart (up to the roundoff), and for each call which does
not save, less than one period has elapsed since the last save: the first call at which a whole period has elapsed saves. -/
theorem C89_diff_saves (p : ℚ) (hp : IsFloat p) (ts : List ℚ) (tl : ℚ) (i : ℕ) (hf : ∀ t ∈ ts, IsFloat t) (htl : IsFloat tl)
    (hs : List.IsChain (· ≤ ·) (tl :: ts)) :
    List.IsChain (fun a b => p ≤ (1 + u) * (b - a)) (tl :: (saves .diff p ts tl i).map Prod.snd) ∧
      ∀ t ∈ ts, t ∉ (saves .diff p ts tl i).map Prod.snd → ∃ s ∈ tl :: (saves .diff p ts tl i).map Prod.snd, s ≤ t ∧ t - s < p := by
  have main : ∀ (ts : List ℚ) (tl : ℚ) (i : ℕ), (∀ t ∈ ts, IsFloat t) → IsFloat tl → List.Pairwise (· ≤ ·) (tl :: ts) →
      List.IsChain (fun a b => p ≤ (1 + u) * (b - a)) (tl :: (saves .diff p ts tl i).map Prod.snd) ∧
      ∀ t ∈ ts, t ∉ (saves .diff p ts tl i).map Prod.snd →
        ∃ s ∈ tl :: (saves .diff p ts tl i).map Prod.snd, s ≤ t ∧ t - s < p := by
    intro ts
    induction ts with
    | nil => intro tl i _ _ _; simp [saves]
    | cons t ts ih =>
      intro tl i hf htl hs
      simp only [List.pairwise_cons] at hs
      have hle : tl ≤ t := hs.1 t (by simp)
      have hd := C89_diff_test p tl t hp (hf t (by simp)) htl hle
      have hf' : ∀ t ∈ ts, IsFloat t := fun x hx => hf x (by simp [hx])
      unfold saves
      split_ifs with hdue
      · obtain ⟨h1, h2⟩ := ih t (i + 1) hf' (hf t (by simp)) (by simp only [List.pairwise_cons]; exact hs.2)
        rw [List.map_cons]
        refine ⟨List.IsChain.cons_cons (hd.2 hdue) h1, ?_⟩
        intro x hx hn
        simp only [List.mem_cons, not_or] at hx hn
        rcases hx with rfl | hx
        · exact absurd rfl hn.1
        · obtain ⟨s, hs1, hs2⟩ := h2 x hx hn.2
          exact ⟨s, List.mem_cons_of_mem _ hs1, hs2⟩
      · obtain ⟨h1, h2⟩ := ih tl (i + 1) hf' htl (by
          simp only [List.pairwise_cons]; exact ⟨fun x hx => hs.1 x (by simp [hx]), hs.2.2⟩)
        refine ⟨h1, ?_⟩
        intro x hx hn
        simp only [List.mem_cons] at hx
        rcases hx with rfl | hx
        · exact ⟨tl, by simp, hle, not_le.1 fun h => hdue (hd.1 h)⟩
        · exact h2 x hx hn
  exact main ts tl i hf htl (List.isChain_iff_pairwise.1 hs)

/-- **C89 (uneven saves, finding).** With `deltat0 = 0.1` and `period_save = 0.3` the saves are made at the steps 3, 7, 11, 14, 17: the period is
not the one of the parameters. -/
theorem C89_diff_steps_violated :
    (saves .diff (rnd (3 / 10)) ((List.range 18).map fun n => clock 0 (fun _ => rnd (1 / 10)) (n + 1)) 0 1).map Prod.fst =
      [3, 7, 11, 14, 17] := by decide +kernel

/-! ### Sums -/

theorem Sum.length_pos : ∀ s : Sum, 1 ≤ s.terms.length
  | .one _ => by simp [Sum.terms]
  | .add a b => by
    have := a.length_pos
    simp only [Sum.terms, List.length_append]
    omega

theorem Sum.float : ∀ s : Sum, (∀ x ∈ s.terms, IsFloat x) → IsFloat s.eval
  | .one x, h => h x (by simp [Sum.terms])
  | .add _ _, _ => fadd_float _ _

theorem Sum.abs_nonneg (s : Sum) : 0 ≤ (s.terms.map abs).sum :=
  List.sum_nonneg (by simp only [List.mem_map]; rintro _ ⟨x, -, rfl⟩; exact _root_.abs_nonneg x)

theorem Sum.abs_le (l : List ℚ) : |l.sum| ≤ (l.map abs).sum := by
  induction l with
  | nil => simp
  | cons x l ih =>
    simp only [List.sum_cons, List.map_cons]
    exact (abs_add_le _ _).trans (by linarith)

/-- **C89 (sums).** However the `n` numbers are added two by two (the order of the processes, of the elements of the arrays, and the splitting
among the processes), the error is at most `((1 + u)^(n - 1) - 1)` times the sum of the absolute values. -/
theorem C89_sum (s : Sum) (hf : ∀ x ∈ s.terms, IsFloat x) :
    |s.eval - s.terms.sum| ≤ ((1 + u) ^ (s.terms.length - 1) - 1) * (s.terms.map abs).sum := by
  induction s with
  | one x => simp [Sum.eval, Sum.terms]
  | add a b iha ihb =>
    have ha := iha fun x hx => hf x (by simp [Sum.terms, hx])
    have hb := ihb fun x hx => hf x (by simp [Sum.terms, hx])
    have hfa := a.float fun x hx => hf x (by simp [Sum.terms, hx])
    have hfb := b.float fun x hx => hf x (by simp [Sum.terms, hx])
    have hla := a.length_pos
    have hlb := b.length_pos
    have hu1 : (1 : ℚ) ≤ 1 + u := by linarith [u_pos]
    have he := (add_err hfa hfb).1
    simp only [Sum.eval, Sum.terms, List.sum_append, List.length_append, List.map_append]
    set A := (a.terms.map abs).sum with hA
    set B := (b.terms.map abs).sum with hB
    have hA0 : 0 ≤ A := a.abs_nonneg
    have hB0 : 0 ≤ B := b.abs_nonneg
    set m := a.terms.length + b.terms.length - 2 with hm
    have hpa : (1 + u) ^ (a.terms.length - 1) ≤ (1 + u) ^ m := pow_le_pow_right₀ hu1 (by omega)
    have hpb : (1 + u) ^ (b.terms.length - 1) ≤ (1 + u) ^ m := pow_le_pow_right₀ hu1 (by omega)
    have ha' : |a.eval - a.terms.sum| ≤ ((1 + u) ^ m - 1) * A := ha.trans (mul_le_mul_of_nonneg_right (by linarith) hA0)
    have hb' : |b.eval - b.terms.sum| ≤ ((1 + u) ^ m - 1) * B := hb.trans (mul_le_mul_of_nonneg_right (by linarith) hB0)
    have hsa := Sum.abs_le a.terms
    have hsb := Sum.abs_le b.terms
    have hab : |a.eval + b.eval| ≤ (1 + u) ^ m * (A + B) := by
      have : a.eval + b.eval = (a.eval - a.terms.sum) + (b.eval - b.terms.sum) + (a.terms.sum + b.terms.sum) := by ring
      rw [this]
      have h1 := abs_add_le ((a.eval - a.terms.sum) + (b.eval - b.terms.sum)) (a.terms.sum + b.terms.sum)
      have h2 := abs_add_le (a.eval - a.terms.sum) (b.eval - b.terms.sum)
      have h3 := abs_add_le a.terms.sum b.terms.sum
      linarith
    have e : fadd a.eval b.eval - (a.terms.sum + b.terms.sum) =
        -(a.eval + b.eval - fadd a.eval b.eval) + ((a.eval - a.terms.sum) + (b.eval - b.terms.sum)) := by ring
    rw [e]
    refine (abs_add_le _ _).trans ?_
    rw [abs_neg]
    have h2 := abs_add_le (a.eval - a.terms.sum) (b.eval - b.terms.sum)
    have h3 : u * |a.eval + b.eval| ≤ u * ((1 + u) ^ m * (A + B)) := mul_le_mul_of_nonneg_left hab u_pos.le
    have e2 : a.terms.length + b.terms.length - 1 = m + 1 := by omega
    rw [e2, pow_succ]
    nlinarith

/-- **C89 (number of processes).** Two ways to add the same numbers (for instance with different numbers of processes) give results which differ
by at most twice this error. -/
theorem C89_sum_order (s s' : Sum) (hf : ∀ x ∈ s.terms, IsFloat x) (hperm : s.terms.Perm s'.terms) :
    |s.eval - s'.eval| ≤ 2 * (((1 + u) ^ (s.terms.length - 1) - 1) * (s.terms.map abs).sum) := by
  have h1 := C89_sum s hf
  have h2 := C89_sum s' fun x hx => hf x (hperm.mem_iff.2 hx)
  rw [← hperm.sum_eq, ← hperm.length_eq, ← (hperm.map abs).sum_eq] at h2
  have : s.eval - s'.eval = (s.eval - s.terms.sum) + -(s'.eval - s.terms.sum) := by ring
  rw [this]
  refine (abs_add_le _ _).trans ?_
  rw [abs_neg]
  linarith

/-- **C89 (number of processes, finding).** The results are not equal in general: the mean of three numbers on one process, and on two processes
(one number on the first one). -/
theorem C89_sum_violated : ∃ x y z : ℚ, IsFloat x ∧ IsFloat y ∧ IsFloat z ∧
    fdiv (Sum.add (.add (.one x) (.one y)) (.one z)).eval 3 ≠ fdiv (Sum.add (.one x) (.add (.one y) (.one z))).eval 3 :=
  ⟨rnd (1 / 10), rnd (2 / 10), rnd (3 / 10), rnd_isFloat _, rnd_isFloat _, rnd_isFloat _, by decide +kernel⟩

/-- **C89 (means).** The mean over the domain of `n` values: the relative error of the division is added. -/
theorem C89_mean (s : Sum) (hf : ∀ x ∈ s.terms, IsFloat x) (hn : (2 : ℚ) ^ (-1021 : ℤ) ≤ |s.eval / s.terms.length| ∨ s.eval = 0) :
    |fdiv s.eval s.terms.length - s.terms.sum / s.terms.length| ≤
      ((1 + u) ^ s.terms.length - 1) * ((s.terms.map abs).sum / s.terms.length) := by
  have h1 := C89_sum s hf
  have hl := s.length_pos
  have hL : (0 : ℚ) < s.terms.length := by exact_mod_cast hl
  set n : ℚ := (s.terms.length : ℚ) with hnn
  set A := (s.terms.map abs).sum with hA
  have hA0 : 0 ≤ A := s.abs_nonneg
  have hd : |s.eval / n - fdiv s.eval n| ≤ u * |s.eval / n| := by
    rcases hn with hn | hn
    · exact rnd_err_normal hn
    · rw [hn]; simp [fdiv, rnd_zero]
  obtain ⟨m, hm⟩ := Nat.exists_eq_succ_of_ne_zero (by omega : s.terms.length ≠ 0)
  rw [hm, Nat.succ_sub_one] at h1
  have hS := Sum.abs_le s.terms
  have he : |s.eval| ≤ (1 + u) ^ m * A := by
    have : s.eval = (s.eval - s.terms.sum) + s.terms.sum := by ring
    rw [this]
    refine (abs_add_le _ _).trans ?_
    linarith
  rw [hm, Nat.succ_eq_add_one, pow_succ]
  have e : fdiv s.eval n - s.terms.sum / n = -(s.eval / n - fdiv s.eval n) + (s.eval - s.terms.sum) / n := by ring
  rw [e]
  refine (abs_add_le _ _).trans ?_
  rw [abs_neg, abs_div (s.eval - s.terms.sum), abs_of_pos hL]
  rw [abs_div, abs_of_pos hL] at hd
  have h3 : |s.eval| / n ≤ (1 + u) ^ m * A / n := div_le_div_of_nonneg_right he hL.le
  have h4 : |s.eval - s.terms.sum| / n ≤ ((1 + u) ^ m - 1) * A / n := div_le_div_of_nonneg_right h1 hL.le
  have h5 := mul_le_mul_of_nonneg_left h3 u_pos.le
  have e3 : ((1 + u) ^ m * (1 + u) - 1) * (A / n) = u * ((1 + u) ^ m * A / n) + ((1 + u) ^ m - 1) * A / n := by ring
  rw [e3]
  linarith

/-- The hypotheses are met by a sum of four floats on two processes. -/
example : let s := Sum.add (.add (.one (rnd (1 / 10))) (.one 1)) (.add (.one (rnd (3 / 10))) (.one (-2)))
    (∀ x ∈ s.terms, IsFloat x) ∧ (1 : ℚ) / 8 ≤ |s.eval / s.terms.length| := by
  refine ⟨?_, by decide +kernel⟩
  intro x hx
  simp only [Sum.terms, List.cons_append, List.nil_append, List.mem_cons, List.not_mem_nil, or_false] at hx
  rcases hx with rfl | rfl | rfl | rfl
  · exact rnd_isFloat _
  · exact_mod_cast float_nat (n := 1) (by norm_num)
  · exact rnd_isFloat _
  · exact_mod_cast float_int (n := -2) (by norm_num)

end Verif.Floats
