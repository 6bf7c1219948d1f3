import Verif.Floats.Model
import Verif.Floats.Spec
import Mathlib.Tactic.Linarith
import Mathlib.Tactic.Ring
import Mathlib.Tactic.FieldSimp
import Mathlib.Tactic.Positivity
import Mathlib.Tactic.NormNum
import Mathlib.Algebra.Order.Field.Power

/-! # Lemmas on the rounding -/

namespace Verif.Floats

/-! ### Nearest integer -/

theorem roundEven_near (x : ℚ) (n : ℤ) : |x - roundEven x| ≤ |x - n| := by
  have h1 := Int.floor_le x
  have h2 := Int.lt_floor_add_one x
  rcases le_or_gt n ⌊x⌋ with hn | hn
  · have hn' : (n : ℚ) ≤ ⌊x⌋ := by exact_mod_cast hn
    rw [abs_of_nonneg (by linarith : 0 ≤ x - n)]
    unfold roundEven
    split_ifs
    · rw [abs_le]; constructor <;> linarith
    · push_cast; rw [abs_le]; constructor <;> linarith
    · rw [abs_le]; constructor <;> linarith
    · push_cast; rw [abs_le]; constructor <;> linarith
  · have hn' : (⌊x⌋ : ℚ) + 1 ≤ n := by exact_mod_cast hn
    rw [abs_of_nonpos (by linarith : x - n ≤ 0)]
    unfold roundEven
    split_ifs
    · rw [abs_le]; constructor <;> linarith
    · push_cast; rw [abs_le]; constructor <;> linarith
    · rw [abs_le]; constructor <;> linarith
    · push_cast; rw [abs_le]; constructor <;> linarith

theorem roundEven_half (x : ℚ) : |x - roundEven x| ≤ 1 / 2 := by
  have h1 := Int.floor_le x
  have h2 := Int.lt_floor_add_one x
  unfold roundEven
  split_ifs
  · rw [abs_le]; constructor <;> linarith
  · push_cast; rw [abs_le]; constructor <;> linarith
  · rw [abs_le]; constructor <;> linarith
  · push_cast; rw [abs_le]; constructor <;> linarith

theorem roundEven_eq {x : ℚ} {n : ℤ} (h : |x - n| < 1 / 2) : roundEven x = n := by
  have h1 := roundEven_near x n
  have h2 : |(roundEven x : ℚ) - n| < 1 := by
    have : (roundEven x : ℚ) - n = -(x - roundEven x) + (x - n) := by ring
    rw [this]
    calc _ ≤ |-(x - roundEven x)| + |x - n| := abs_add_le _ _
      _ = |x - roundEven x| + |x - n| := by rw [abs_neg]
      _ < 1 := by linarith
  have h3 : |roundEven x - n| < 1 := by exact_mod_cast h2
  have := Int.abs_lt_one_iff.1 h3
  omega

theorem roundEven_int (n : ℤ) : roundEven (n : ℚ) = n := roundEven_eq (by simp)

/-- A tie goes to the even integer. -/
theorem roundEven_tie {x : ℚ} {n : ℤ} (hn : n ≠ roundEven x) (h : |x - n| = |x - roundEven x|) : roundEven x % 2 = 0 := by
  have h1 := Int.floor_le x
  have h2 := Int.lt_floor_add_one x
  have hh := roundEven_half x
  have hx : x - ⌊x⌋ = 1 / 2 := by
    by_contra hne
    have hlt : |x - roundEven x| < 1 / 2 := by
      unfold roundEven
      split_ifs with a b
      · rw [abs_lt]; constructor <;> linarith
      · push_cast; rw [abs_lt]; constructor <;> linarith
      · exact absurd (le_antisymm (not_lt.1 b) (not_lt.1 a)) hne
      · exact absurd (le_antisymm (not_lt.1 b) (not_lt.1 a)) hne
    exact hn (roundEven_eq (h ▸ hlt)).symm
  unfold roundEven
  rw [if_neg (by rw [hx]; norm_num), if_neg (by rw [hx]; norm_num)]
  split_ifs with a
  · exact a
  · omega

/-! ### The exponent -/

theorem two_pos' (e : ℤ) : (0 : ℚ) < 2 ^ e := zpow_pos (by norm_num) e

theorem log_bounds {x : ℚ} (hx : x ≠ 0) : (2 : ℚ) ^ Int.log 2 |x| ≤ |x| ∧ |x| < 2 ^ (Int.log 2 |x| + 1) := by
  have h := abs_pos.2 hx
  exact ⟨by exact_mod_cast Int.zpow_log_le_self (R := ℚ) (b := 2) (by norm_num) h,
    by exact_mod_cast Int.lt_zpow_succ_log_self (R := ℚ) (b := 2) (by norm_num) |x|⟩

theorem rnd_zero : rnd 0 = 0 := by
  have h : roundEven 0 = 0 := by exact_mod_cast roundEven_int 0
  simp [rnd, h]

/-- A power of two is a multiple of a smaller one. -/
theorem pow_mul_pow {e k : ℤ} (h : e ≤ k) : (2 : ℚ) ^ k = ((2 ^ (k - e).toNat : ℤ) : ℚ) * 2 ^ e := by
  push_cast
  rw [← zpow_natCast, Int.toNat_of_nonneg (by omega), ← zpow_add₀ (by norm_num)]
  congr 1
  omega

/-- The rounded number is the nearest multiple of its unit. -/
theorem rnd_near_grid (x : ℚ) (n : ℤ) : |x - rnd x| ≤ |x - n * 2 ^ ulpExp x| := by
  have hp := two_pos' (ulpExp x)
  have key : ∀ y : ℚ, |x - y * 2 ^ ulpExp x| = |x / 2 ^ ulpExp x - y| * 2 ^ ulpExp x := by
    intro y
    conv_rhs => rw [← abs_of_pos hp, ← abs_mul]
    congr 1
    rw [abs_of_pos hp, sub_mul, div_mul_cancel₀ _ hp.ne']
  rw [rnd, key, key]
  exact mul_le_mul_of_nonneg_right (roundEven_near _ n) hp.le

theorem rnd_half_ulp (x : ℚ) : |x - rnd x| ≤ 2 ^ ulpExp x / 2 := by
  have hp := two_pos' (ulpExp x)
  have : x - rnd x = (x / 2 ^ ulpExp x - roundEven (x / 2 ^ ulpExp x)) * 2 ^ ulpExp x := by
    rw [rnd]; field_simp
  rw [this, abs_mul, abs_of_pos hp]
  have := mul_le_mul_of_nonneg_right (roundEven_half (x / 2 ^ ulpExp x)) hp.le
  linarith

theorem abs_lt_ulp {x : ℚ} (hx : x ≠ 0) : |x| < 2 ^ 53 * 2 ^ ulpExp x := by
  refine (log_bounds hx).2.trans_le ?_
  rw [← zpow_natCast, ← zpow_add₀ (by norm_num)]
  apply zpow_le_zpow_right₀ (by norm_num)
  unfold ulpExp
  push_cast
  omega

theorem rnd_isFloat (x : ℚ) : IsFloat (rnd x) := by
  by_cases hx : x = 0
  · subst hx; rw [rnd_zero]; exact ⟨0, 0, by norm_num, by norm_num, by simp⟩
  refine ⟨roundEven (x / 2 ^ ulpExp x), ulpExp x, ?_, le_max_right _ _, rfl⟩
  have hp := two_pos' (ulpExp x)
  have h1 : |x / 2 ^ ulpExp x| < 2 ^ 53 := by
    rw [abs_div, abs_of_pos hp, div_lt_iff₀ hp]
    exact abs_lt_ulp hx
  have h2 := roundEven_half (x / 2 ^ ulpExp x)
  have h3 : |(roundEven (x / 2 ^ ulpExp x) : ℚ)| < 2 ^ 53 + 1 := by
    have : (roundEven (x / 2 ^ ulpExp x) : ℚ) =
        -(x / 2 ^ ulpExp x - roundEven (x / 2 ^ ulpExp x)) + x / 2 ^ ulpExp x := by ring
    rw [this]
    refine (abs_add_le _ _).trans_lt ?_
    rw [abs_neg]
    linarith
  have h4 : |roundEven (x / 2 ^ ulpExp x)| < 2 ^ 53 + 1 := by exact_mod_cast h3
  omega

theorem rnd_nearest (x : ℚ) : Nearest x (rnd x) := by
  refine ⟨rnd_isFloat x, ?_⟩
  rintro z ⟨m, k, hm, hk, rfl⟩
  by_cases hx : x = 0
  · subst hx; rw [rnd_zero]; simpa using mul_nonneg (abs_nonneg _) (two_pos' k).le
  by_cases hke : ulpExp x ≤ k
  · rw [pow_mul_pow hke, ← mul_assoc]
    have := rnd_near_grid x (m * 2 ^ (k - ulpExp x).toNat)
    push_cast at this ⊢
    exact this
  · rw [not_le] at hke
    have he : ulpExp x = Int.log 2 |x| - 52 := by
      unfold ulpExp at hke ⊢
      omega
    have hL := (log_bounds hx).1
    have hz : |(m : ℚ) * 2 ^ k| ≤ 2 ^ Int.log 2 |x| := by
      rw [abs_mul, abs_of_pos (two_pos' k)]
      have hm' : |(m : ℚ)| ≤ 2 ^ 53 := by exact_mod_cast hm
      calc |(m : ℚ)| * 2 ^ k ≤ 2 ^ 53 * 2 ^ (Int.log 2 |x| - 53) := by
            apply mul_le_mul hm' _ (two_pos' k).le (by norm_num)
            apply zpow_le_zpow_right₀ (by norm_num)
            omega
        _ = 2 ^ Int.log 2 |x| := by
            rw [← zpow_natCast, ← zpow_add₀ (by norm_num)]
            congr 1
            push_cast
            ring
    have hg : ((2 ^ 52 : ℤ) : ℚ) * 2 ^ ulpExp x = 2 ^ Int.log 2 |x| := by
      rw [he, show ((2 ^ 52 : ℤ) : ℚ) = 2 ^ (52 : ℤ) by norm_num, ← zpow_add₀ (by norm_num)]
      congr 1
      ring
    rcases le_or_gt 0 x with h0 | h0
    · have h1 := rnd_near_grid x (2 ^ 52)
      rw [hg] at h1
      rw [abs_of_nonneg h0] at h1 hL hz
      rw [abs_of_nonneg (by linarith : 0 ≤ x - 2 ^ Int.log 2 x)] at h1
      have h2 := le_abs_self (x - m * 2 ^ k)
      have h3 := (abs_le.1 hz).2
      linarith
    · have h1 := rnd_near_grid x (-2 ^ 52)
      push_cast at hg h1
      rw [neg_mul, hg] at h1
      rw [abs_of_neg h0] at h1 hL hz
      rw [abs_of_nonpos (by linarith : x - -2 ^ Int.log 2 (-x) ≤ 0)] at h1
      have h2 := neg_le_abs (x - m * 2 ^ k)
      have h3 := (abs_le.1 hz).1
      linarith

theorem rnd_of_float {x : ℚ} (h : IsFloat x) : rnd x = x := by
  have := (rnd_nearest x).2 x h
  rw [sub_self, abs_zero] at this
  have := abs_nonpos_iff.1 this
  linarith

theorem rnd_mono {x y : ℚ} (h : x ≤ y) : rnd x ≤ rnd y := by
  rcases h.eq_or_lt with rfl | h
  · exact le_rfl
  by_contra hc
  rw [not_le] at hc
  have h1 := (rnd_nearest x).2 _ (rnd_isFloat y)
  have h2 := (rnd_nearest y).2 _ (rnd_isFloat x)
  generalize rnd x = a at *
  generalize rnd y = b at *
  rw [← sq_le_sq] at h1 h2
  nlinarith

theorem float_zero : IsFloat 0 := ⟨0, 0, by norm_num, by norm_num, by simp⟩

theorem float_neg {x : ℚ} (h : IsFloat x) : IsFloat (-x) := by
  obtain ⟨m, e, hm, he, rfl⟩ := h
  exact ⟨-m, e, by rwa [abs_neg], he, by push_cast; ring⟩

theorem float_pow {e : ℤ} (h : -1074 ≤ e) : IsFloat (2 ^ e) := ⟨1, e, by norm_num, h, by simp⟩

theorem float_nat {n : ℕ} (h : n ≤ 2 ^ 53) : IsFloat n :=
  ⟨n, 0, by rw [abs_of_nonneg (by positivity)]; exact_mod_cast h, by norm_num, by simp⟩

theorem float_int {n : ℤ} (h : |n| ≤ 2 ^ 53) : IsFloat n := ⟨n, 0, h, by norm_num, by simp⟩

/-- A float is a multiple of the smallest one. -/
theorem float_multiple {x : ℚ} (h : IsFloat x) : ∃ n : ℤ, x = n * 2 ^ (-1074 : ℤ) := by
  obtain ⟨m, e, hm, he, rfl⟩ := h
  refine ⟨m * 2 ^ (e - -1074).toNat, ?_⟩
  rw [pow_mul_pow he, ← mul_assoc]
  push_cast
  rfl

theorem multiple_add {x y : ℚ} (hx : ∃ n : ℤ, x = n * 2 ^ (-1074 : ℤ)) (hy : ∃ n : ℤ, y = n * 2 ^ (-1074 : ℤ)) :
    ∃ n : ℤ, x + y = n * 2 ^ (-1074 : ℤ) := by
  obtain ⟨a, rfl⟩ := hx
  obtain ⟨b, rfl⟩ := hy
  exact ⟨a + b, by push_cast; ring⟩

theorem multiple_neg {x : ℚ} (hx : ∃ n : ℤ, x = n * 2 ^ (-1074 : ℤ)) : ∃ n : ℤ, -x = n * 2 ^ (-1074 : ℤ) := by
  obtain ⟨a, rfl⟩ := hx
  exact ⟨-a, by push_cast; ring⟩

theorem multiple_mul {x : ℚ} (hx : ∃ n : ℤ, x = n * 2 ^ (-1074 : ℤ)) (k : ℤ) : ∃ n : ℤ, x * k = n * 2 ^ (-1074 : ℤ) := by
  obtain ⟨a, rfl⟩ := hx
  exact ⟨a * k, by push_cast; ring⟩

/-- The exponent of the unit of a number which is not subnormal. -/
theorem half_ulp_eq {x : ℚ} (h : -1074 < ulpExp x) : (2 : ℚ) ^ ulpExp x / 2 = u * 2 ^ Int.log 2 |x| := by
  have he : ulpExp x = Int.log 2 |x| - 52 := by
    unfold ulpExp at h ⊢
    omega
  rw [he, u, show (1 : ℚ) / 2 ^ 53 = 2 ^ (-53 : ℤ) by norm_num, ← zpow_add₀ (by norm_num),
    show (2 : ℚ) ^ (Int.log 2 |x| - 52) / 2 = 2 ^ (Int.log 2 |x| - 52) * 2 ^ (-1 : ℤ) by rw [zpow_neg_one]; rfl,
    ← zpow_add₀ (by norm_num)]
  congr 1
  ring

theorem rnd_pos_ge {x : ℚ} (hx : x ≠ 0) (h : -1074 ≤ Int.log 2 |x|) : (2 : ℚ) ^ Int.log 2 |x| ≤ |rnd x| := by
  have hL := (log_bounds hx).1
  rcases le_or_gt 0 x with h0 | h0
  · rw [abs_of_nonneg h0] at hL h ⊢
    have := rnd_mono hL
    rw [rnd_of_float (float_pow h)] at this
    exact this.trans (le_abs_self _)
  · rw [abs_of_neg h0] at hL h ⊢
    have := rnd_mono (show x ≤ -2 ^ Int.log 2 (-x) by linarith)
    rw [rnd_of_float (float_neg (float_pow h))] at this
    exact le_trans (by linarith) (neg_le_abs _)

/-- The relative error of an operation whose exact result is a multiple of the smallest float. -/
theorem rnd_err_multiple {x : ℚ} (h : ∃ n : ℤ, x = n * 2 ^ (-1074 : ℤ)) : |x - rnd x| ≤ u * |x| ∧ |x - rnd x| ≤ u * |rnd x| := by
  have hu : (0 : ℚ) ≤ u := by unfold u; norm_num
  by_cases hx : x = 0
  · subst hx; simp [rnd_zero]
  by_cases he : -1074 < ulpExp x
  · have h1 := rnd_half_ulp x
    rw [half_ulp_eq he] at h1
    have hL : -1074 ≤ Int.log 2 |x| := by unfold ulpExp at he; omega
    exact ⟨h1.trans (mul_le_mul_of_nonneg_left (log_bounds hx).1 hu),
      h1.trans (mul_le_mul_of_nonneg_left (rnd_pos_ge hx hL) hu)⟩
  · have he' : ulpExp x = -1074 := le_antisymm (not_lt.1 he) (le_max_right _ _)
    obtain ⟨n, hn⟩ := h
    have h1 := rnd_near_grid x n
    rw [he', ← hn, sub_self, abs_zero] at h1
    exact ⟨h1.trans (by positivity), h1.trans (by positivity)⟩

/-- The relative error for a number which is not too small. -/
theorem rnd_err_normal {x : ℚ} (h : (2 : ℚ) ^ (-1021 : ℤ) ≤ |x|) : |x - rnd x| ≤ u * |x| := by
  have hu : (0 : ℚ) ≤ u := by unfold u; norm_num
  have hx : x ≠ 0 := by
    rintro rfl
    have := two_pos' (-1021)
    simp only [abs_zero] at h
    linarith
  have hL : -1021 ≤ Int.log 2 |x| := by
    by_contra hc
    rw [not_le] at hc
    have h2 := (log_bounds hx).2
    have h3 : (2 : ℚ) ^ (Int.log 2 |x| + 1) ≤ 2 ^ (-1021 : ℤ) := zpow_le_zpow_right₀ (by norm_num) (by omega)
    linarith
  have he : -1074 < ulpExp x := by
    have : Int.log 2 |x| - 52 ≤ ulpExp x := le_max_left _ _
    omega
  have h1 := rnd_half_ulp x
  rw [half_ulp_eq he] at h1
  exact h1.trans (mul_le_mul_of_nonneg_left (log_bounds hx).1 hu)

theorem add_err {x y : ℚ} (hx : IsFloat x) (hy : IsFloat y) :
    |x + y - fadd x y| ≤ u * |x + y| ∧ |x + y - fadd x y| ≤ u * |fadd x y| :=
  rnd_err_multiple (multiple_add (float_multiple hx) (float_multiple hy))

theorem sub_err {x y : ℚ} (hx : IsFloat x) (hy : IsFloat y) :
    |x - y - fsub x y| ≤ u * |x - y| ∧ |x - y - fsub x y| ≤ u * |fsub x y| := by
  have := rnd_err_multiple (multiple_add (float_multiple hx) (multiple_neg (float_multiple hy)))
  rw [← sub_eq_add_neg] at this
  exact this

theorem fadd_float (x y : ℚ) : IsFloat (fadd x y) := rnd_isFloat _

/-- A float is a multiple of its unit. -/
theorem float_grid {x : ℚ} (h : IsFloat x) : ∃ n : ℤ, x = n * 2 ^ ulpExp x := by
  have := rnd_of_float h
  exact ⟨_, this.symm.trans rfl⟩

/-- An increment which is smaller than half a unit does not change the number. -/
theorem fadd_stuck {t d : ℚ} {L : ℤ} (ht : IsFloat t) (hL : (2 : ℚ) ^ L ≤ t) (hn : -1022 ≤ L) (h0 : 0 ≤ d) (hd : d < 2 ^ (L - 53)) :
    fadd t d = t := by
  have htp : 0 < t := (two_pos' L).trans_le hL
  have hlog : L ≤ Int.log 2 |t| := by
    rw [abs_of_pos htp]
    exact (Int.zpow_le_iff_le_log (R := ℚ) (b := 2) (by norm_num) htp).1 (by exact_mod_cast hL)
  obtain ⟨n, hg⟩ := float_grid ht
  have he : ulpExp t = Int.log 2 |t| - 52 := by unfold ulpExp; omega
  have hb := (log_bounds htp.ne').2
  have hbl := (log_bounds htp.ne').1
  rw [abs_of_pos htp] at hb hbl he hlog
  generalize Int.log 2 t = l at *
  rw [he] at hg
  have hp := two_pos' (l - 52)
  have hd' : d < 2 ^ (l - 52) / 2 := by
    refine hd.trans_le ?_
    rw [show (2 : ℚ) ^ (l - 52) / 2 = 2 ^ (l - 53) by
      rw [show (l - 52 : ℤ) = (l - 53) + 1 by ring, zpow_add₀ (by norm_num)]; norm_num]
    exact zpow_le_zpow_right₀ (by norm_num) (by omega)
  have h53 : (2 : ℚ) ^ (l + 1) = ((2 ^ 53 : ℤ) : ℚ) * 2 ^ (l - 52) := by
    rw [show ((2 ^ 53 : ℤ) : ℚ) = 2 ^ (53 : ℤ) by norm_num, ← zpow_add₀ (by norm_num)]
    congr 1
    ring
  have hn53 : n + 1 ≤ 2 ^ 53 := by
    rw [hg, h53] at hb
    have := lt_of_mul_lt_mul_right hb hp.le
    have : n < 2 ^ 53 := by exact_mod_cast this
    omega
  have hlt : t + d < 2 ^ (l + 1) := by
    have h1 : ((n : ℚ) + 1) ≤ ((2 ^ 53 : ℤ) : ℚ) := by exact_mod_cast hn53
    have h2 := mul_le_mul_of_nonneg_right h1 hp.le
    rw [h53]
    linarith
  have hlog' : Int.log 2 |t + d| = l := by
    rw [abs_of_pos (by linarith)]
    apply le_antisymm
    · have := (Int.lt_zpow_iff_log_lt (R := ℚ) (b := 2) (by norm_num) (by linarith : 0 < t + d)).1
        (show t + d < ((2 : ℕ) : ℚ) ^ (l + 1) by exact_mod_cast hlt)
      omega
    · exact (Int.zpow_le_iff_le_log (R := ℚ) (b := 2) (by norm_num) (by linarith : 0 < t + d)).1
        (show ((2 : ℕ) : ℚ) ^ l ≤ t + d by push_cast; linarith)
  have he' : ulpExp (t + d) = l - 52 := by unfold ulpExp; rw [hlog']; omega
  rw [fadd, rnd, he', roundEven_eq (n := n)]
  · exact hg.symm
  · rw [hg, add_div, mul_div_cancel_right₀ _ hp.ne', add_sub_cancel_left, abs_of_nonneg (div_nonneg h0 hp.le),
      div_lt_iff₀ hp]
    linarith

end Verif.Floats
