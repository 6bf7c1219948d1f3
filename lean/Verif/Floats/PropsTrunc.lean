import Verif.Floats.ModelTrunc
import Verif.Floats.Props
import Mathlib.Algebra.Order.Ring.Pow

/-!
# C89: the modes removed by the spherical truncation in floating point
-/

set_option linter.unusedSectionVars false

namespace Verif.Floats

/-! ### Relative errors -/

/-- `y` is `x ≥ 0` up to `m` relative errors. -/
def Rel (m : ℕ) (x y : ℚ) : Prop := 0 ≤ x ∧ x * (1 - u) ^ m ≤ y ∧ y ≤ x * (1 + u) ^ m

theorem u_small : u ≤ 1 / 2 ^ 50 := by unfold u; norm_num

theorem one_sub_u : (0 : ℚ) < 1 - u := by
  have := u_small
  norm_num at this
  linarith

theorem Rel.refl {x : ℚ} (h : 0 ≤ x) : Rel 0 x x := ⟨h, by simp, by simp⟩

theorem Rel.nonneg {m x y} (h : Rel m x y) : 0 ≤ y := le_trans (mul_nonneg h.1 (pow_nonneg one_sub_u.le _)) h.2.1

theorem Rel.mono {m k x y} (h : Rel m x y) (hk : m ≤ k) : Rel k x y := by
  refine ⟨h.1, le_trans (mul_le_mul_of_nonneg_left ?_ h.1) h.2.1, h.2.2.trans (mul_le_mul_of_nonneg_left ?_ h.1)⟩
  · exact pow_le_pow_of_le_one one_sub_u.le (by linarith [u_pos]) hk
  · exact pow_le_pow_right₀ (by linarith [u_pos]) hk

theorem Rel.mul {m k x y x' y'} (h : Rel m x y) (h' : Rel k x' y') : Rel (m + k) (x * x') (y * y') := by
  refine ⟨mul_nonneg h.1 h'.1, ?_, ?_⟩
  · calc x * x' * (1 - u) ^ (m + k) = (x * (1 - u) ^ m) * (x' * (1 - u) ^ k) := by rw [pow_add]; ring
      _ ≤ y * y' := mul_le_mul h.2.1 h'.2.1 (mul_nonneg h'.1 (pow_nonneg one_sub_u.le _)) h.nonneg
  · calc y * y' ≤ (x * (1 + u) ^ m) * (x' * (1 + u) ^ k) :=
          mul_le_mul h.2.2 h'.2.2 h'.nonneg (mul_nonneg h.1 (pow_nonneg (by linarith [u_pos]) _))
      _ = x * x' * (1 + u) ^ (m + k) := by rw [pow_add]; ring

theorem Rel.add {m x y x' y'} (h : Rel m x y) (h' : Rel m x' y') : Rel m (x + x') (y + y') := by
  refine ⟨add_nonneg h.1 h'.1, ?_, ?_⟩
  · rw [add_mul]; exact add_le_add h.2.1 h'.2.1
  · rw [add_mul]; exact add_le_add h.2.2 h'.2.2

theorem Rel.half {m x y} (h : Rel m x y) : Rel m (x / 2) (y / 2) := by
  refine ⟨by linarith [h.1], ?_, ?_⟩
  · have := h.2.1; linarith
  · have := h.2.2; linarith

/-- One more rounding. -/
theorem Rel.rnd {m x y} (h : Rel m x y) (hy : y = 0 ∨ (2 : ℚ) ^ (-1021 : ℤ) ≤ y) : Rel (m + 1) x (rnd y) := by
  have hy0 := h.nonneg
  have he : |y - Floats.rnd y| ≤ u * y := by
    rcases hy with rfl | hy
    · simp [rnd_zero]
    · have := rnd_err_normal (x := y) (by rwa [abs_of_nonneg hy0])
      rwa [abs_of_nonneg hy0] at this
  have h1 := abs_le.1 he
  refine ⟨h.1, ?_, ?_⟩
  · rw [pow_succ, ← mul_assoc]
    have := mul_le_mul_of_nonneg_right h.2.1 one_sub_u.le
    linarith
  · rw [pow_succ, ← mul_assoc]
    have := mul_le_mul_of_nonneg_right h.2.2 (show (0 : ℚ) ≤ 1 + u by linarith [u_pos])
    linarith

/-- The sum of two floats: never subnormal. -/
theorem Rel.fadd {m x y x' y'} (h : Rel m x y) (h' : Rel m x' y') (hf : IsFloat y) (hf' : IsFloat y') :
    Rel (m + 1) (x + x') (fadd y y') := by
  have h2 := h.add h'
  have hy0 := h2.nonneg
  have he := (add_err hf hf').1
  rw [abs_of_nonneg hy0] at he
  have h1 := abs_le.1 he
  refine ⟨h2.1, ?_, ?_⟩
  · rw [pow_succ, ← mul_assoc]
    have := mul_le_mul_of_nonneg_right h2.2.1 one_sub_u.le
    linarith
  · rw [pow_succ, ← mul_assoc]
    have := mul_le_mul_of_nonneg_right h2.2.2 (show (0 : ℚ) ≤ 1 + u by linarith [u_pos])
    linarith

/-! ### The largest wavenumber -/

theorem coef23_val : coef23 = 6004799503160661 / 2 ^ 53 := by decide +kernel

/-- The product of the literal `2.0 / 3` and of a float is never rounded above two thirds of the float. -/
theorem coef_mul_le {d : ℚ} (hd : IsFloat d) (h0 : (2 : ℚ) ^ (-1000 : ℤ) ≤ d) : fmul coef23 d ≤ 2 / 3 * d := by
  have hdp : 0 < d := (two_pos' _).trans_le h0
  obtain ⟨m, hm⟩ := float_grid hd
  set e := ulpExp d with he
  have hlog : -1001 ≤ Int.log 2 |d| := by
    rw [abs_of_pos hdp]
    have := (Int.zpow_le_iff_le_log (R := ℚ) (b := 2) (by norm_num) hdp).1 (show ((2 : ℕ) : ℚ) ^ (-1000 : ℤ) ≤ d by exact_mod_cast h0)
    omega
  have hee : e = Int.log 2 |d| - 52 := by rw [he]; unfold ulpExp; omega
  have hb := log_bounds hdp.ne'
  rw [abs_of_pos hdp] at hb hee hlog
  have hp := two_pos' e
  -- bounds of the significand
  have hm1 : (2 : ℤ) ^ 52 ≤ m := by
    have h1 := hb.1
    rw [show Int.log 2 d = e + 52 by omega, zpow_add₀ (by norm_num), hm, mul_comm] at h1
    have := le_of_mul_le_mul_right h1 hp
    exact_mod_cast this
  have hm2 : m < 2 ^ 53 := by
    have h1 := hb.2
    rw [show Int.log 2 d + 1 = e + 53 by omega, zpow_add₀ (by norm_num), hm, mul_comm] at h1
    have := lt_of_mul_lt_mul_left h1 hp.le
    exact_mod_cast this
  -- the exact product
  have hx : coef23 * d = (6004799503160661 * m : ℚ) / 2 ^ 53 * 2 ^ e := by rw [coef23_val, hm]; ring
  have hxpos : 0 < coef23 * d := mul_pos (by rw [coef23_val]; norm_num) hdp
  set x := coef23 * d with hxd
  -- two cases for the exponent
  have key : ∀ (f : ℤ) (s : ℕ), ulpExp x = f → (2 : ℚ) ^ e = 2 ^ s * 2 ^ f →
      (2 * (6004799503160661 * m) * 3 * 2 ^ s : ℤ) < 2 ^ 53 * (2 * (2 * m * 2 ^ s) + 3 - 2 * ((2 * m * 2 ^ s) % 3)) →
      Floats.rnd x ≤ 2 / 3 * d := by
    intro f s hf hs hlt
    have hpf := two_pos' f
    have hq : x / 2 ^ f = (6004799503160661 * m * 2 ^ s : ℚ) / 2 ^ 53 := by
      rw [hx, hs]; field_simp
    -- the integer part of two thirds
    have hdiv := Int.emod_add_mul_ediv (2 * m * 2 ^ s) 3
    set q := (2 * m * 2 ^ s) / 3 with hqd
    set r := (2 * m * 2 ^ s) % 3 with hrd
    have hr0 : 0 ≤ r := Int.emod_nonneg _ (by norm_num)
    have hle : roundEven (x / 2 ^ f) ≤ q := by
      by_contra hc
      rw [not_le] at hc
      have hc' : q + 1 ≤ roundEven (x / 2 ^ f) := hc
      have hnear := roundEven_near (x / 2 ^ f) q
      have hc'' : ((q : ℚ) + 1) ≤ (roundEven (x / 2 ^ f) : ℚ) := by exact_mod_cast hc'
      have hval : x / 2 ^ f < q + 1 / 2 := by
        rw [hq, div_lt_iff₀ (by norm_num)]
        have h1 : (2 * (6004799503160661 * m) * 3 * 2 ^ s : ℚ) < 2 ^ 53 * (2 * (2 * m * 2 ^ s) + 3 - 2 * r) := by exact_mod_cast hlt
        have h2 : (r : ℚ) + 3 * q = 2 * m * 2 ^ s := by exact_mod_cast hdiv
        rw [← h2] at h1
        linarith
      have h1 : |x / 2 ^ f - (roundEven (x / 2 ^ f) : ℚ)| = roundEven (x / 2 ^ f) - x / 2 ^ f := by
        rw [abs_sub_comm, abs_of_nonneg]
        linarith
      rw [h1] at hnear
      rcases abs_cases (x / 2 ^ f - (q : ℚ)) with ⟨h, _⟩ | ⟨h, _⟩ <;> rw [h] at hnear <;> linarith
    have : Floats.rnd x = roundEven (x / 2 ^ f) * 2 ^ f := by rw [Floats.rnd, hf]
    rw [this]
    have h3 : (roundEven (x / 2 ^ f) : ℚ) ≤ q := by exact_mod_cast hle
    have h4 : (3 * q : ℚ) ≤ 2 * m * 2 ^ s := by
      have : 3 * q ≤ 2 * m * 2 ^ s := by omega
      exact_mod_cast this
    have h5 := mul_le_mul_of_nonneg_right h3 hpf.le
    rw [hm, hs]
    have h6 := mul_le_mul_of_nonneg_right h4 hpf.le
    linarith
  have hlogx : ∀ L : ℤ, (2 : ℚ) ^ L ≤ x → x < 2 ^ (L + 1) → Int.log 2 |x| = L := by
    intro L h1 h2
    rw [abs_of_pos hxpos]
    have a := (Int.zpow_le_iff_le_log (R := ℚ) (b := 2) (by norm_num) hxpos).1 (show ((2 : ℕ) : ℚ) ^ L ≤ x by exact_mod_cast h1)
    have b := (Int.lt_zpow_iff_log_lt (R := ℚ) (b := 2) (by norm_num) hxpos).1 (show x < ((2 : ℕ) : ℚ) ^ (L + 1) by exact_mod_cast h2)
    omega
  have hr0 : ∀ z : ℤ, 0 ≤ z % 3 ∧ z % 3 ≤ 2 := fun z => by omega
  by_cases hc : (2 : ℤ) ^ 105 ≤ 6004799503160661 * m
  · refine key e 0 ?_ (by simp) ?_
    · have : Int.log 2 |x| = e + 52 := by
        refine hlogx _ ?_ ?_
        · rw [hx, zpow_add₀ (by norm_num), mul_comm]
          refine mul_le_mul_of_nonneg_right ?_ hp.le
          rw [le_div_iff₀ (by norm_num)]
          have : ((2 ^ 105 : ℤ) : ℚ) ≤ 6004799503160661 * m := by exact_mod_cast hc
          norm_num at this ⊢
          linarith
        · rw [hx, show e + 52 + 1 = 53 + e by ring, zpow_add₀ (by norm_num)]
          refine mul_lt_mul_of_pos_right ?_ hp
          rw [div_lt_iff₀ (by norm_num)]
          have : (m : ℚ) < 2 ^ 53 := by exact_mod_cast hm2
          norm_num at this ⊢
          linarith
      unfold ulpExp
      omega
    · have := hr0 (2 * m * 2 ^ 0)
      norm_num at this hc hm1 hm2 ⊢
      omega
  · rw [not_le] at hc
    refine key (e - 1) 1 ?_ ?_ ?_
    · have : Int.log 2 |x| = e + 51 := by
        refine hlogx _ ?_ ?_
        · rw [hx, zpow_add₀ (by norm_num), mul_comm]
          refine mul_le_mul_of_nonneg_right ?_ hp.le
          rw [le_div_iff₀ (by norm_num)]
          have : (2 : ℚ) ^ 52 ≤ m := by exact_mod_cast hm1
          norm_num at this ⊢
          linarith
        · rw [hx, show e + 51 + 1 = 52 + e by ring, zpow_add₀ (by norm_num)]
          refine mul_lt_mul_of_pos_right ?_ hp
          rw [div_lt_iff₀ (by norm_num)]
          have : (6004799503160661 * m : ℚ) < ((2 ^ 105 : ℤ) : ℚ) := by exact_mod_cast hc
          norm_num at this ⊢
          linarith
      unfold ulpExp
      omega
    · rw [zpow_sub₀ (by norm_num)]; norm_num
      ring
    · have := hr0 (2 * m * 2 ^ 1)
      norm_num at this hc hm1 hm2 ⊢
      omega

/-! ### Symmetry and scaling of the rounding -/

theorem roundEven_neg (x : ℚ) : roundEven (-x) = -roundEven x := by
  by_contra hne
  have h1 := roundEven_near (-x) (-roundEven x)
  have h2 := roundEven_near x (-roundEven (-x))
  have e1 : |-x - ((-roundEven x : ℤ) : ℚ)| = |x - roundEven x| := by
    rw [← abs_neg]; congr 1; push_cast; ring
  have e2 : |x - ((-roundEven (-x) : ℤ) : ℚ)| = |-x - roundEven (-x)| := by
    rw [← abs_neg]; congr 1; push_cast; ring
  have heq : |-x - (roundEven (-x) : ℚ)| = |x - roundEven x| := le_antisymm (h1.trans e1.le) (h2.trans e2.le)
  have t1 := roundEven_tie (x := x) (n := -roundEven (-x)) (fun h => hne (by omega)) (by rw [e2, heq])
  have t2 := roundEven_tie (x := -x) (n := -roundEven x) (fun h => hne (by omega)) (by rw [e1, heq])
  have b1 := abs_le.1 (roundEven_half x)
  have b2 := abs_le.1 (roundEven_half (-x))
  have c1 : (roundEven (-x) + roundEven x : ℚ) ≤ 1 := by linarith
  have c2 : (-1 : ℚ) ≤ roundEven (-x) + roundEven x := by linarith
  have c1' : roundEven (-x) + roundEven x ≤ 1 := by exact_mod_cast c1
  have c2' : -1 ≤ roundEven (-x) + roundEven x := by exact_mod_cast c2
  omega

theorem rnd_neg (x : ℚ) : rnd (-x) = -rnd x := by
  unfold rnd ulpExp
  rw [abs_neg, neg_div, roundEven_neg]
  push_cast
  ring

theorem rnd_abs (x : ℚ) : |rnd x| = rnd |x| := by
  have h0 : ∀ y : ℚ, 0 ≤ y → 0 ≤ rnd y := fun y hy => by have := rnd_mono hy; rwa [rnd_zero] at this
  rcases le_total 0 x with h | h
  · rw [abs_of_nonneg h, abs_of_nonneg (h0 _ h)]
  · rw [abs_of_nonpos h, rnd_neg, abs_of_nonpos]
    have := h0 (-x) (by linarith)
    rw [rnd_neg] at this
    linarith

theorem rnd_double {x : ℚ} (h : (2 : ℚ) ^ (-1021 : ℤ) ≤ x) : rnd (2 * x) = 2 * rnd x := by
  have hx : 0 < x := (two_pos' _).trans_le h
  have hl : Int.log 2 |2 * x| = Int.log 2 |x| + 1 := by
    have hb := log_bounds hx.ne'
    have h2 : (0 : ℚ) < 2 * x := by linarith
    rw [abs_of_pos hx] at hb
    rw [abs_of_pos hx, abs_of_pos h2]
    have e1 : (2 : ℚ) ^ (Int.log 2 x + 1) = 2 * 2 ^ Int.log 2 x := by rw [zpow_add₀ (by norm_num)]; ring
    have e2 : (2 : ℚ) ^ (Int.log 2 x + 1 + 1) = 2 * 2 ^ (Int.log 2 x + 1) := by rw [zpow_add₀ (a := (2 : ℚ)) (by norm_num) (Int.log 2 x + 1)]; ring
    have a := (Int.zpow_le_iff_le_log (R := ℚ) (b := 2) (by norm_num) h2).1
      (show ((2 : ℕ) : ℚ) ^ (Int.log 2 x + 1) ≤ 2 * x by push_cast; rw [e1]; linarith [hb.1])
    have b := (Int.lt_zpow_iff_log_lt (R := ℚ) (b := 2) (by norm_num) h2).1
      (show 2 * x < ((2 : ℕ) : ℚ) ^ (Int.log 2 x + 1 + 1) by push_cast; rw [e2]; linarith [hb.2])
    omega
  have hlog : -1021 ≤ Int.log 2 |x| := by
    rw [abs_of_pos hx]
    exact (Int.zpow_le_iff_le_log (R := ℚ) (b := 2) (by norm_num) hx).1 (show ((2 : ℕ) : ℚ) ^ (-1021 : ℤ) ≤ x by exact_mod_cast h)
  have hu : ulpExp (2 * x) = ulpExp x + 1 := by unfold ulpExp; omega
  unfold rnd
  rw [hu, zpow_add₀ (by norm_num)]
  have : 2 * x / (2 ^ ulpExp x * 2 ^ (1 : ℤ)) = x / 2 ^ ulpExp x := by
    have := (two_pos' (ulpExp x)).ne'
    field_simp
  rw [this]
  ring

theorem rnd_nonneg {x : ℚ} (h : 0 ≤ x) : 0 ≤ rnd x := by have := rnd_mono h; rwa [rnd_zero] at this

/-! ### The modes -/

/-- The increments of the wavenumbers: floats which are not tiny. -/
def Increment (dk : ℚ) : Prop := IsFloat dk ∧ (2 : ℚ) ^ (-400 : ℤ) ≤ dk

theorem Increment.pos {dk} (h : Increment dk) : 0 < dk := (two_pos' _).trans_le h.2

theorem pow_le_pow' {a b : ℤ} (h : a ≤ b) : (2 : ℚ) ^ a ≤ 2 ^ b := zpow_le_zpow_right₀ (by norm_num) h

/-- The largest wavenumber is not larger than the wavenumbers of the modes from `nx / 3`. -/
theorem kmax_le {dk : ℚ} {n : ℕ} {k : ℤ} (h : Increment dk) (hn : (n : ℤ) ≤ 3 * |k|) : kmax dk n ≤ |wavenumber dk k| := by
  have hd := h.pos
  unfold wavenumber fmul
  rw [rnd_abs, abs_mul, abs_of_pos hd]
  rcases eq_or_ne k 0 with rfl | hk
  · have : n = 0 := by simp at hn; omega
    subst this
    unfold kmax fdiv fmul
    simp [rnd_zero]
  have hk1 : (1 : ℚ) ≤ |(k : ℚ)| := by
    have := Int.one_le_abs hk
    exact_mod_cast this
  have hn' : (n : ℚ) ≤ 3 * |(k : ℚ)| := by exact_mod_cast hn
  have hx : (2 : ℚ) ^ (-1021 : ℤ) ≤ dk * |(k : ℚ)| := by
    have h1 := pow_le_pow' (show (-1021 : ℤ) ≤ -400 by norm_num)
    have h2 := mul_le_mul h.2 hk1 (by norm_num) hd.le
    linarith
  have hc := coef_mul_le h.1 ((pow_le_pow' (by norm_num)).trans h.2)
  have h1 : fmul coef23 dk * n ≤ 2 * (dk * |(k : ℚ)|) := by
    have a := mul_le_mul_of_nonneg_right hc (Nat.cast_nonneg (α := ℚ) n)
    have b := mul_le_mul_of_nonneg_left hn' (show (0 : ℚ) ≤ 2 / 3 * dk by linarith)
    linarith
  have h2 := rnd_mono h1
  rw [rnd_double hx] at h2
  unfold kmax fdiv
  rw [show fmul (fmul coef23 dk) (n : ℚ) = rnd (fmul coef23 dk * n) from rfl]
  refine (rnd_mono (show rnd (fmul coef23 dk * n) / 2 ≤ rnd (dk * |(k : ℚ)|) by linarith)).trans ?_
  rw [rnd_of_float (rnd_isFloat _)]

theorem kmax_nonneg {dk : ℚ} (h : Increment dk) (n : ℕ) : 0 ≤ kmax dk n := by
  unfold kmax fdiv fmul
  refine rnd_nonneg (div_nonneg (rnd_nonneg (mul_nonneg (rnd_nonneg (mul_nonneg ?_ h.pos.le)) (Nat.cast_nonneg _))) (by norm_num))
  rw [coef23_val]
  norm_num

theorem k2_fold_ge {dk : ℚ} : ∀ (ks : List ℤ) (s : ℚ), 0 ≤ s → IsFloat s →
    s ≤ ks.foldl (fun s k => fadd s (fmul (wavenumber dk k) (wavenumber dk k))) s ∧
    ∀ k ∈ ks, fmul (wavenumber dk k) (wavenumber dk k) ≤ ks.foldl (fun s k => fadd s (fmul (wavenumber dk k) (wavenumber dk k))) s
  | [], s, _, _ => ⟨le_rfl, by simp⟩
  | k :: ks, s, h0, hf => by
    have hsq : 0 ≤ fmul (wavenumber dk k) (wavenumber dk k) := rnd_nonneg (mul_self_nonneg _)
    have hs : s ≤ fadd s (fmul (wavenumber dk k) (wavenumber dk k)) := by
      have := rnd_mono (show s ≤ s + fmul (wavenumber dk k) (wavenumber dk k) by linarith)
      rwa [rnd_of_float hf] at this
    have hs' : fmul (wavenumber dk k) (wavenumber dk k) ≤ fadd s (fmul (wavenumber dk k) (wavenumber dk k)) := by
      have := rnd_mono (show fmul (wavenumber dk k) (wavenumber dk k) ≤ s + fmul (wavenumber dk k) (wavenumber dk k) by linarith)
      rwa [rnd_of_float (show IsFloat (fmul _ _) from rnd_isFloat _)] at this
    have ih := k2_fold_ge (dk := dk) ks _ (h0.trans hs) (fadd_float _ _)
    refine ⟨hs.trans ih.1, ?_⟩
    intro k' hk'
    rcases List.mem_cons.1 hk' with rfl | hk'
    · exact hs'.trans ih.1
    · exact ih.2 k' hk'

theorem k2_ge {dk : ℚ} {ks : List ℤ} {k : ℤ} (hk : k ∈ ks) : fmul (wavenumber dk k) (wavenumber dk k) ≤ k2 dk ks := by
  cases ks with
  | nil => simp at hk
  | cons k0 ks =>
    have := k2_fold_ge (dk := dk) ks (fmul (wavenumber dk k0) (wavenumber dk k0)) (rnd_nonneg (mul_self_nonneg _)) (rnd_isFloat _)
    rcases List.mem_cons.1 hk with rfl | hk
    · exact this.1
    · exact this.2 k hk

/-! ### Relative errors of the two sides of the test -/

theorem wavenumber_rel {dk : ℚ} (h : Increment dk) (k : ℤ) : Rel 1 (dk * |(k : ℚ)|) |wavenumber dk k| ∧
    (k = 0 → wavenumber dk k = 0) ∧ (k ≠ 0 → (2 : ℚ) ^ (-401 : ℤ) ≤ |wavenumber dk k|) := by
  have hd := h.pos
  have hab : |wavenumber dk k| = rnd (dk * |(k : ℚ)|) := by
    unfold wavenumber fmul
    rw [rnd_abs, abs_mul, abs_of_pos hd]
  rcases eq_or_ne k 0 with rfl | hk
  · simp [wavenumber, fmul, rnd_zero, Rel]
  have hk1 : (1 : ℚ) ≤ |(k : ℚ)| := by
    have := Int.one_le_abs hk
    exact_mod_cast this
  have h2 : (2 : ℚ) ^ (-400 : ℤ) ≤ dk * |(k : ℚ)| := by
    have h2 := mul_le_mul h.2 hk1 (by norm_num) hd.le
    linarith
  refine ⟨?_, fun h => absurd h hk, fun _ => ?_⟩
  · rw [hab]
    exact (Rel.refl (by positivity)).rnd (Or.inr ((pow_le_pow' (by norm_num)).trans h2))
  · rw [hab]
    refine (pow_le_pow' (show (-401 : ℤ) ≤ -400 by norm_num)).trans ?_
    have := rnd_mono h2
    rwa [rnd_of_float (float_pow (by norm_num))] at this

theorem square_rel {dk : ℚ} (h : Increment dk) (k : ℤ) : Rel 3 (dk ^ 2 * (k : ℚ) ^ 2) (fmul (wavenumber dk k) (wavenumber dk k)) := by
  obtain ⟨h1, h2, h3⟩ := wavenumber_rel h k
  have h4 := h1.mul h1
  rw [abs_mul_abs_self, show dk * |(k : ℚ)| * (dk * |(k : ℚ)|) = dk ^ 2 * (|(k : ℚ)| ^ 2) by ring, sq_abs] at h4
  refine h4.rnd ?_
  by_cases hk : k = 0
  · left; rw [h2 hk]; ring
  · right
    have h5 := h3 hk
    have h6 := mul_le_mul h5 h5 (two_pos' _).le (abs_nonneg _)
    rw [abs_mul_abs_self, ← zpow_add₀ (by norm_num)] at h6
    exact (pow_le_pow' (by norm_num)).trans h6

theorem k2_fold_rel {dk : ℚ} (h : Increment dk) : ∀ (ks : List ℤ) (S s : ℚ) (m : ℕ), 3 ≤ m → IsFloat s → Rel m S s →
    Rel (m + ks.length) (S + dk ^ 2 * (ks.map (fun k : ℤ => (k : ℚ) ^ 2)).sum)
      (ks.foldl (fun s k => fadd s (fmul (wavenumber dk k) (wavenumber dk k))) s)
  | [], S, s, m, _, _, hr => by simpa using hr
  | k :: ks, S, s, m, hm, hf, hr => by
    have := k2_fold_rel h ks _ _ (m + 1) (by omega) (fadd_float _ _) (hr.fadd ((square_rel h k).mono hm) hf (rnd_isFloat _))
    simp only [List.foldl_cons, List.map_cons, List.sum_cons, List.length_cons]
    rw [show m + (ks.length + 1) = m + 1 + ks.length by ring,
      show S + dk ^ 2 * ((k : ℚ) ^ 2 + (ks.map (fun k : ℤ => (k : ℚ) ^ 2)).sum) =
        S + dk ^ 2 * (k : ℚ) ^ 2 + dk ^ 2 * (ks.map (fun k : ℤ => (k : ℚ) ^ 2)).sum by ring]
    exact this

theorem k2_rel {dk : ℚ} (h : Increment dk) {ks : List ℤ} (hl : ks.length ≤ 3) :
    Rel 5 (dk ^ 2 * (ks.map (fun k : ℤ => (k : ℚ) ^ 2)).sum) (k2 dk ks) := by
  cases ks with
  | nil => simp [k2, Rel]
  | cons k ks =>
    have := k2_fold_rel h ks _ _ 3 le_rfl (rnd_isFloat _) (square_rel h k)
    simp only [List.length_cons] at hl
    simp only [List.map_cons, List.sum_cons, mul_add]
    exact this.mono (by omega)

theorem kmax_rel {dk : ℚ} (h : Increment dk) {n : ℕ} (hn : 1 ≤ n) : Rel 4 (dk * n / 3) (kmax dk n) ∧ (2 : ℚ) ^ (-405 : ℤ) ≤ kmax dk n := by
  have hd := h.pos
  have hn' : (1 : ℚ) ≤ n := by exact_mod_cast hn
  have hn0 : (0 : ℚ) ≤ n := by linarith
  have hc : Rel 1 (2 / 3) coef23 := by
    rw [coef23_val]
    unfold Rel u
    norm_num
  have low : ∀ {a b : ℤ} {x : ℚ}, a + 1 ≤ b → (2 : ℚ) ^ b ≤ x → (2 : ℚ) ^ a ≤ x / 2 := by
    intro a b x hab hx
    have := (pow_le_pow' hab).trans hx
    rw [zpow_add₀ (by norm_num)] at this
    norm_num at this ⊢
    linarith
  have rl : ∀ {a : ℤ} {x : ℚ}, -1074 ≤ a → (2 : ℚ) ^ a ≤ x → (2 : ℚ) ^ a ≤ rnd x := by
    intro a x ha hx
    have := rnd_mono hx
    rwa [rnd_of_float (float_pow ha)] at this
  -- the three operations
  have a1 : (2 : ℚ) ^ (-401 : ℤ) ≤ coef23 * dk := by
    have h1 := low (show (-401 : ℤ) + 1 ≤ -400 by norm_num) h.2
    have h2 : (1 / 2 : ℚ) ≤ coef23 := by rw [coef23_val]; norm_num
    have := mul_le_mul_of_nonneg_right h2 hd.le
    linarith
  have r1 := (hc.mul (Rel.refl hd.le)).rnd (Or.inr ((pow_le_pow' (by norm_num)).trans a1))
  have b1 := rl (by norm_num) a1
  have a2 : (2 : ℚ) ^ (-401 : ℤ) ≤ rnd (coef23 * dk) * n := by
    have := mul_le_mul b1 hn' (by norm_num) ((two_pos' _).le.trans b1)
    linarith
  have r2 := (r1.mul (Rel.refl hn0)).rnd (Or.inr ((pow_le_pow' (by norm_num)).trans a2))
  have b2 := rl (by norm_num) a2
  have a3 := low (show (-402 : ℤ) + 1 ≤ -401 by norm_num) b2
  have r3 := r2.half.rnd (Or.inr ((pow_le_pow' (by norm_num)).trans a3))
  have b3 := rl (by norm_num) a3
  refine ⟨?_, (pow_le_pow' (by norm_num)).trans b3⟩
  have e : 2 / 3 * dk * (n : ℚ) / 2 = dk * n / 3 := by ring
  rw [e] at r3
  exact r3

theorem pow_bounds : (1 + u) ^ 9 ≤ 1 + 10 * u ∧ 1 - 5 * u ≤ (1 - u) ^ 5 ∧ (1 + u) ^ 5 ≤ 1 + 6 * u ∧ 1 - 9 * u ≤ (1 - u) ^ 9 := by
  unfold u
  norm_num

/-! ### Theorems -/

/-- With floats, `2.0 / 3 * deltak * nx / 2` is never above the wavenumber of a mode `|k| ≥ nx / 3`: the test of the multiple aliases is true for all
these modes, whatever the size of the domain and the number of points. -/
theorem C89_aliased {dk : ℚ} {n : ℕ} {k : ℤ} (h : Increment dk) (hk : (n : ℤ) ≤ 3 * |k|) : aliased dk n k = true := by
  unfold aliased
  rw [decide_eq_true_iff]
  exact kmax_le h hk

/-- ... and up to `2^24` points it is false for all the other modes: the floats give the exact test. -/
theorem C89_aliased_iff {dk : ℚ} {n : ℕ} {k : ℤ} (h : Increment dk) (hn : n ≤ 2 ^ 24) : aliased dk n k = true ↔ (n : ℤ) ≤ 3 * |k| := by
  refine ⟨fun ha => ?_, C89_aliased h⟩
  by_contra hc
  rw [not_le] at hc
  unfold aliased at ha
  rw [decide_eq_true_iff] at ha
  have hn1 : 1 ≤ n := by have := abs_nonneg k; omega
  have r1 := (kmax_rel h hn1).1
  have r2 := (wavenumber_rel h k).1
  have h1 := r1.2.1
  have h2 := r2.2.2
  have hk : 3 * |(k : ℚ)| + 1 ≤ n := by exact_mod_cast hc
  have hn' : (n : ℚ) ≤ 2 ^ 24 := by exact_mod_cast hn
  have hd := h.pos
  have key : dk * |(k : ℚ)| * (1 + u) ^ 1 < dk * n / 3 * (1 - u) ^ 4 := by
    have hp : 1 - 4 * u ≤ (1 - u) ^ 4 := by unfold u; norm_num
    have ha0 := abs_nonneg (k : ℚ)
    have e1 : |(k : ℚ)| * (1 + u) < n / 3 * (1 - 4 * u) := by
      have : u = 1 / 2 ^ 53 := rfl
      have hn'' : (n : ℚ) ≤ 16777216 := by norm_num at hn'; exact_mod_cast hn'
      rw [this]
      norm_num
      linarith
    have e2 : (n : ℚ) / 3 * (1 - 4 * u) ≤ n / 3 * (1 - u) ^ 4 := mul_le_mul_of_nonneg_left hp (by positivity)
    have e3 := mul_lt_mul_of_pos_left (e1.trans_le e2) hd
    rw [pow_one]
    linarith
  linarith

/-- **The truncation in floating point.** Same increments of the wavenumbers and same numbers of points in the directions. The spherical truncation removes
all the modes with a component `|k| ≥ nx / 3` (rule of the two thirds) although `kmax` and `K2` are rounded, whatever the size of the domain and the
number of points. -/
theorem C89_spherical_two_thirds {dk : ℚ} {n : ℕ} {ks : List ℤ} (h : Increment dk) {k : ℤ} (hk : k ∈ ks) (hn : (n : ℤ) ≤ 3 * |k|) :
    removed dk n ks = true := by
  unfold removed
  rw [decide_eq_true_iff]
  refine le_trans ?_ (k2_ge hk)
  refine rnd_mono ?_
  rw [← abs_mul_abs_self (wavenumber dk k)]
  have h1 := kmax_le (k := k) h hn
  exact mul_le_mul h1 h1 (kmax_nonneg h n) (abs_nonneg _)

/-- Up to three directions and `2^24` points by direction, the modes outside the sphere of radius `nx / 3` are removed and the modes inside are kept. -/
theorem C89_spherical {dk : ℚ} {n : ℕ} {ks : List ℤ} (h : Increment dk) (hn : n ≤ 2 ^ 24) (hl : ks.length ≤ 3) :
    ((n : ℤ) ^ 2 < 9 * (ks.map (fun k => k ^ 2)).sum → removed dk n ks = true) ∧
    (9 * (ks.map (fun k => k ^ 2)).sum < (n : ℤ) ^ 2 → removed dk n ks = false) := by
  have hd := h.pos
  have hd2 : 0 < dk ^ 2 := by positivity
  set S : ℤ := (ks.map (fun k => k ^ 2)).sum with hS
  have hcast : (ks.map (fun k : ℤ => (k : ℚ) ^ 2)).sum = (S : ℚ) := by
    rw [hS]
    generalize ks = l
    induction l with
    | nil => simp
    | cons a l ih => simp [ih]
  have hS0 : 0 ≤ (S : ℚ) := by
    rw [← hcast]
    refine List.sum_nonneg ?_
    intro x hx
    obtain ⟨k, _, rfl⟩ := List.mem_map.1 hx
    positivity
  have r2 := k2_rel h hl
  rw [hcast] at r2
  have hn' : (n : ℚ) ^ 2 ≤ 2 ^ 48 := by
    have : (n : ℚ) ≤ 2 ^ 24 := by exact_mod_cast hn
    have := pow_le_pow_left₀ (Nat.cast_nonneg n) this 2
    norm_num at this ⊢
    linarith
  have hu : u = 1 / 2 ^ 53 := rfl
  obtain ⟨p1, p2, p3, p4⟩ := pow_bounds
  have sq : 1 ≤ n → Rel 9 (dk ^ 2 * ((n : ℚ) ^ 2 / 9)) (fmul (kmax dk n) (kmax dk n)) := by
    intro hn1
    obtain ⟨r, b⟩ := kmax_rel h hn1
    have := (r.mul r).rnd (Or.inr (by
      have h6 := mul_le_mul b b (two_pos' _).le ((two_pos' _).le.trans b)
      rw [← zpow_add₀ (by norm_num)] at h6
      exact (pow_le_pow' (by norm_num)).trans h6))
    rwa [show dk * (n : ℚ) / 3 * (dk * n / 3) = dk ^ 2 * ((n : ℚ) ^ 2 / 9) by ring] at this
  constructor
  · intro hlt
    unfold removed
    rw [decide_eq_true_iff]
    rcases Nat.eq_zero_or_pos n with rfl | hn1
    · have : fmul (kmax dk 0) (kmax dk 0) = 0 := by simp [kmax, fmul, fdiv, rnd_zero]
      rw [this]
      exact r2.nonneg
    · have h9 : (n : ℚ) ^ 2 + 1 ≤ 9 * S := by exact_mod_cast hlt
      refine (sq hn1).2.2.trans (le_trans ?_ r2.2.1)
      rw [mul_assoc, mul_assoc]
      refine mul_le_mul_of_nonneg_left ?_ hd2.le
      have e1 : (n : ℚ) ^ 2 / 9 * (1 + u) ^ 9 ≤ (n : ℚ) ^ 2 / 9 * (1 + 10 * u) := mul_le_mul_of_nonneg_left p1 (by positivity)
      have e2 : (S : ℚ) * (1 - 5 * u) ≤ S * (1 - u) ^ 5 := mul_le_mul_of_nonneg_left p2 hS0
      refine e1.trans (le_trans ?_ e2)
      rw [hu]
      norm_num at hn' ⊢
      linarith
  · intro hlt
    unfold removed
    rw [decide_eq_false_iff_not, ge_iff_le, not_le]
    have h9 : 9 * (S : ℚ) + 1 ≤ (n : ℚ) ^ 2 := by exact_mod_cast hlt
    have hn1 : 1 ≤ n := by
      rcases Nat.eq_zero_or_pos n with rfl | h
      · norm_num at h9; linarith
      · exact h
    refine lt_of_le_of_lt r2.2.2 (lt_of_lt_of_le ?_ (sq hn1).2.1)
    rw [mul_assoc, mul_assoc]
    refine mul_lt_mul_of_pos_left ?_ hd2
    have e1 : (S : ℚ) * (1 + u) ^ 5 ≤ S * (1 + 6 * u) := mul_le_mul_of_nonneg_left p3 hS0
    have e2 : (n : ℚ) ^ 2 / 9 * (1 - 9 * u) ≤ (n : ℚ) ^ 2 / 9 * (1 - u) ^ 9 := mul_le_mul_of_nonneg_left p4 (by positivity)
    refine lt_of_le_of_lt e1 (lt_of_lt_of_le ?_ e2)
    rw [hu]
    norm_num at hn' ⊢
    linarith

/-- For the domain of length 10 (increment `2 pi / 10` as a float). -/
theorem increment_ten : Increment (176855943800711 / 2 ^ 48) := by
  refine ⟨⟨176855943800711, -48, by norm_num, by norm_num, by norm_num⟩, ?_⟩
  refine (pow_le_pow' (show (-400 : ℤ) ≤ -1 by norm_num)).trans ?_
  norm_num

example : removed (176855943800711 / 2 ^ 48) 48 [3, -16] = true := C89_spherical_two_thirds increment_ten (k := -16) (by simp) (by norm_num)

example : removed (176855943800711 / 2 ^ 48) 48 [15, 5, 1] = false :=
  (C89_spherical increment_ten (by norm_num) (by simp)).2 (by norm_num)

example : removed (176855943800711 / 2 ^ 48) 48 [15, 5, 3] = true :=
  (C89_spherical increment_ten (by norm_num) (by simp)).1 (by norm_num)

example : aliased (176855943800711 / 2 ^ 48) 48 (-16) = true ∧ ¬ aliased (176855943800711 / 2 ^ 48) 48 15 = true :=
  ⟨C89_aliased increment_ten (by norm_num), by rw [C89_aliased_iff increment_ten (by norm_num)]; norm_num⟩

/-- Finding: the modes exactly on the sphere which are not on an axis are removed or kept depending on the roundings. Here the mode (64, 120), at the
distance 136 = 408 / 3, with 408 points: removed for a domain of length 10, kept for a domain of length 22.9. -/
theorem C89_spherical_violated : ∃ dk dk' : ℚ, Increment dk ∧ Increment dk' ∧ (408 : ℤ) ^ 2 = 9 * (([64, 120] : List ℤ).map (fun k => k ^ 2)).sum ∧
    removed dk 408 [64, 120] = true ∧ removed dk' 408 [64, 120] = false := by
  refine ⟨176855943800711 / 2 ^ 48, 617837358255759 / 2 ^ 51, increment_ten, ⟨⟨617837358255759, -51, by norm_num, by norm_num, by norm_num⟩, ?_⟩,
    by norm_num, by decide +kernel, by decide +kernel⟩
  refine (pow_le_pow' (show (-400 : ℤ) ≤ -2 by norm_num)).trans ?_
  norm_num

/-- Finding: in one dimension, the last mode `nx / 3` is removed or kept depending on the size of the domain: with 30 points, the mode 10 is removed for
a domain of length 1 and kept for a domain of length 3. -/
theorem C89_1d_violated : ∃ dk dk' : ℚ, Increment dk ∧ Increment dk' ∧ removed1d dk 30 10 = true ∧ removed1d dk' 30 10 = false := by
  refine ⟨884279719003555 / 2 ^ 47, 4716158501352293 / 2 ^ 51, ⟨⟨884279719003555, -47, by norm_num, by norm_num, by norm_num⟩, ?_⟩,
    ⟨⟨4716158501352293, -51, by norm_num, by norm_num, by norm_num⟩, ?_⟩, by decide +kernel, by decide +kernel⟩
  · refine (pow_le_pow' (show (-400 : ℤ) ≤ 0 by norm_num)).trans ?_
    norm_num
  · refine (pow_le_pow' (show (-400 : ℤ) ≤ 0 by norm_num)).trans ?_
    norm_num

end Verif.Floats
