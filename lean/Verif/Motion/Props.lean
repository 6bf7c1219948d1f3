import Verif.Motion.Lemmas
import Mathlib.Analysis.SpecialFunctions.Trigonometric.Deriv

/-!
# C35: the motions of the milestone forcing
-/

namespace Verif.Motion

open Filter Topology

/-- C35: for every non-zero speed and lengths with `0 < 2 * length_acc ≤ length`, the location and the
speed given by `PeriodicUniform` are functions `x` and `v` defined at every time, periodic with the
period of the object, continuous, `v` is the derivative of `x`, `|v|` never exceeds the prescribed
speed and is reached, and `x` stays between the two points at distance `length / 2` of the middle of
the domain, which are reached. -/
theorem C35_genuine_motion {speed length lengthAcc : ℝ} (lx : ℝ) (hspeed : speed ≠ 0)
    (hla : 0 < lengthAcc) (hL : 2 * lengthAcc ≤ length) :
    ∃ x v : ℝ → ℝ,
      (∀ t, getLocation (mkPU speed length lengthAcc lx) t = some (x t)) ∧
      (∀ t, getSpeed (mkPU speed length lengthAcc lx) t = some (v t)) ∧
      (∀ t, x (t + (mkPU speed length lengthAcc lx).period) = x t) ∧
      (∀ t, v (t + (mkPU speed length lengthAcc lx).period) = v t) ∧
      Continuous x ∧ Continuous v ∧ (∀ t, HasDerivAt x (v t) t) ∧
      (∀ t, |v t| ≤ |speed|) ∧ (∃ t, v t = speed) ∧ (∃ t, v t = -speed) ∧
      (∀ t, |x t - lx / 2| ≤ length / 2) ∧
      (∃ t, x t = lx / 2 - length / 2) ∧ (∃ t, x t = lx / 2 + length / 2) := by
  obtain ⟨s, hsgn, hg⟩ := good_mk lx hspeed hla hL
  set p := mkPU speed length lengthAcc lx with hp
  obtain ⟨o1, o2, o3, o4, o5⟩ := hg.order
  have hT : 0 < p.period := by linarith
  have hle := hg.loc_period
  have hpm0 : ∀ u, 0 ≤ u → u < p.period → pymod u p.period = u := fun u h0 h1 => by
    rw [pymod_of_mem hT 0 (by simpa using h0) (by simpa using h1)]; simp
  have hmem : ∀ t, 0 ≤ pymod t p.period ∧ pymod t p.period ≤ p.period := fun t =>
    ⟨(pymod_mem hT t).1, (pymod_mem hT t).2.le⟩
  have hderiv : ∀ t, HasDerivAt (fun t => loc p (pymod t p.period)) (spd p (pymod t p.period)) t :=
    hasDeriv_periodic hT hg.hasDeriv_loc hle.1 hle.2
  have hsp : p.speedMax = speed := rfl
  have hss : s * s = 1 := by rcases hg.hs with rfl | rfl <;> norm_num
  have hx0 := hg.x0
  -- the two ends are reached
  have hend0 : loc p (pymod 0 p.period) = lx / 2 - s * (length / 2) := by
    rw [hpm0 0 le_rfl hT, loc, if_pos o1.le, hx0]; ring
  have hta := hg.acc_ta
  have htm : p.t2 + p.t1 ≤ p.t3 := by
    rw [hg.t1, hg.t2, hg.t3]; linarith [hg.pos.1]
  have hend1 : loc p (pymod (p.t2 + p.t1) p.period) = lx / 2 + s * (length / 2) := by
    rw [hpm0 _ (by linarith) (by linarith), loc, if_neg (by linarith), if_neg (by linarith),
      if_pos htm, add_sub_cancel_left, hg.x2, hx0, hg.t1]
    have hV := hg.hV
    have e : p.speedMax * (2 * lengthAcc / |speed|) - p.acc / 2 * (2 * lengthAcc / |speed|) ^ 2 =
        s * lengthAcc := by
      rw [hg.speedMax, hg.acc]; field_simp; ring
    linear_combination e
  refine ⟨fun t => loc p (pymod t p.period), fun t => spd p (pymod t p.period),
    getLocation_eq p, getSpeed_eq p, fun t => by simp only [pymod_add hT],
    fun t => by simp only [pymod_add hT], ?_, continuous_periodic hT hg.spd_continuous hle.2,
    hderiv, fun t => hg.spd_le (hmem t).1 (hmem t).2, ⟨p.t1, ?_⟩, ⟨p.t3, ?_⟩, fun t => ?_, ?_, ?_⟩
  · exact continuous_iff_continuousAt.2 fun t => (hderiv t).continuousAt
  · simp only []
    rw [hpm0 _ o1.le (by linarith), spd, if_pos le_rfl, hg.t1, hta, hsp]
  · have hta3 : p.t3 - p.t2 = 2 * (2 * lengthAcc / |speed|) := by rw [hg.t3, hg.t2]; ring
    simp only []
    rw [hpm0 _ (by linarith) (by linarith), spd, if_neg (by linarith), if_neg (by linarith),
      if_pos le_rfl, hta3]
    linear_combination (-2 : ℝ) * hta - hsp
  · obtain ⟨y, hy0, hy1, hy⟩ := hg.loc_mem (hmem t).1 (hmem t).2
    simp only [hy, hx0]
    rcases hg.hs with rfl | rfl
    · rw [abs_le]; constructor <;> linarith
    · rw [abs_le]; constructor <;> linarith
  · rcases hg.hs with rfl | rfl
    · exact ⟨0, by simpa using hend0⟩
    · exact ⟨p.t2 + p.t1, by simp only [hend1]; ring⟩
  · rcases hg.hs with rfl | rfl
    · exact ⟨p.t2 + p.t1, by simp only [hend1]; ring⟩
    · exact ⟨0, by simp only [hend0]; ring⟩

/-- C35: the period is the time needed to go and come back: twice the time of the uniform part plus
four times the time of an acceleration over `length_acc`. -/
theorem C35_period {speed length lengthAcc : ℝ} (lx : ℝ) (hspeed : speed ≠ 0)
    (hla : 0 < lengthAcc) (hL : 2 * lengthAcc ≤ length) :
    (mkPU speed length lengthAcc lx).period =
      2 * ((length - 2 * lengthAcc) / |speed|) + 4 * (2 * lengthAcc / |speed|) ∧
    0 < (mkPU speed length lengthAcc lx).period := by
  obtain ⟨s, -, hg⟩ := good_mk lx hspeed hla hL
  obtain ⟨o1, o2, o3, o4, o5⟩ := hg.order
  exact ⟨by rw [hg.period]; ring, by linarith⟩

/-- A case of the hypotheses of C35. -/
example : (-3 : ℝ) ≠ 0 ∧ (0 : ℝ) < 1 / 4 ∧ 2 * (1 / 4 : ℝ) ≤ 2 := by norm_num

/-- C35 (finding): the condition `2 * length_acc ≤ length` is not checked, and the default parameters
(length 1, length_acc 1, speed 1) do not satisfy it: the location jumps by a quarter of the length at
time 2. -/
theorem C35_default_parameters_violated (lx : ℝ) :
    ∃ x : ℝ → ℝ, (∀ t, getLocation (defaultPU lx) t = some (x t)) ∧ ¬ ContinuousAt x 2 := by
  have hsg : ((SignType.sign (1 : ℝ) : SignType) : ℝ) = 1 := by rw [sign_pos one_pos]; rfl
  refine ⟨fun t => loc (defaultPU lx) (pymod t (defaultPU lx).period), getLocation_eq _, ?_⟩
  have hper : (defaultPU lx).period = 6 := by
    simp only [defaultPU, mkPU, hsg, abs_one]; norm_num
  have h1 : (defaultPU lx).t1 = 2 := by simp only [defaultPU, mkPU, hsg, abs_one]; norm_num
  have h2 : (defaultPU lx).t2 = 1 := by simp only [defaultPU, mkPU, hsg, abs_one]; norm_num
  have h3 : (defaultPU lx).t3 = 5 := by simp only [defaultPU, mkPU, hsg, abs_one]; norm_num
  have ha : (defaultPU lx).acc = 1 / 2 := by simp only [defaultPU, mkPU, hsg]; norm_num
  have hs : (defaultPU lx).speedMax = 1 := rfl
  have hx2 : (defaultPU lx).x2 = (defaultPU lx).x0 := by
    simp only [defaultPU, mkPU, hsg]; norm_num
  intro hc
  rw [hper] at hc
  have hat2 : loc (defaultPU lx) (pymod 2 6) = (defaultPU lx).x0 + 1 := by
    rw [pymod_of_mem (by norm_num) 0 (by norm_num) (by norm_num), loc, h1, ha]
    norm_num
  have hright : ∀ t : ℝ, 2 < t → t < 3 → loc (defaultPU lx) (pymod t 6) =
      (defaultPU lx).x0 + (t - 1) - 1 / 4 * (t - 1) ^ 2 := fun t h h' => by
    rw [pymod_of_mem (by norm_num) 0 (by simp; linarith) (by simp; linarith), loc, h1, h2, h3, ha,
      hs, hx2]
    simp only [Int.cast_zero, mul_zero, sub_zero]
    rw [if_neg (by linarith), if_neg (by linarith), if_pos (by linarith)]
    ring
  have hlim : Tendsto (fun t : ℝ => (defaultPU lx).x0 + (t - 1) - 1 / 4 * (t - 1) ^ 2) (𝓝[>] 2)
      (𝓝 ((defaultPU lx).x0 + (2 - 1) - 1 / 4 * (2 - 1) ^ 2)) := by
    have : Continuous (fun t : ℝ => (defaultPU lx).x0 + (t - 1) - 1 / 4 * (t - 1) ^ 2) := by
      fun_prop
    exact this.continuousAt.continuousWithinAt
  have hlim2 : Tendsto (fun t : ℝ => loc (defaultPU lx) (pymod t 6)) (𝓝[>] 2)
      (𝓝 ((defaultPU lx).x0 + 1)) := by
    rw [← hat2]; exact hc.continuousWithinAt
  have hlim3 : Tendsto (fun t : ℝ => (defaultPU lx).x0 + (t - 1) - 1 / 4 * (t - 1) ^ 2) (𝓝[>] 2)
      (𝓝 ((defaultPU lx).x0 + 1)) := by
    refine hlim2.congr' ?_
    have : Set.Iio (3 : ℝ) ∈ 𝓝[>] (2 : ℝ) :=
      mem_nhdsWithin_of_mem_nhds (Iio_mem_nhds (by norm_num))
    filter_upwards [this, self_mem_nhdsWithin] with t ht ht'
    exact hright t ht' ht
  have := tendsto_nhds_unique hlim hlim3
  linarith

/-- C35: the sinusoidal motion: periodic, the speed is the derivative of the location, and the
location stays within the prescribed length. -/
theorem C35_sinusoidal (lx length : ℝ) {period : ℝ} (hp : period ≠ 0) (hL : 0 ≤ length) (t : ℝ) :
    locSin lx length period (t + period) = locSin lx length period t ∧
      speedSin length period (t + period) = speedSin length period t ∧
      HasDerivAt (locSin lx length period) (speedSin length period t) t ∧
      |locSin lx length period t - lx / 2| ≤ length / 2 ∧
      locSin lx length period 0 = lx / 2 - length / 2 := by
  have e : 2 * Real.pi / period * (t + period) - Real.pi / 2 =
      (2 * Real.pi / period * t - Real.pi / 2) + 2 * Real.pi := by field_simp; ring
  refine ⟨?_, ?_, ?_, ?_, ?_⟩
  · simp only [locSin, e, Real.sin_add_two_pi]
  · simp only [speedSin, e, Real.cos_add_two_pi]
  · have h1 : HasDerivAt (fun t => 2 * Real.pi / period * t - Real.pi / 2) (2 * Real.pi / period) t := by
      simpa using ((hasDerivAt_id t).const_mul (2 * Real.pi / period)).sub_const (Real.pi / 2)
    have h2 := ((h1.sin).const_mul (length / 2)).const_add (lx / 2)
    refine h2.congr_deriv ?_
    simp only [speedSin]; ring
  · simp only [locSin, add_sub_cancel_left, abs_mul, abs_of_nonneg (by linarith : 0 ≤ length / 2)]
    calc length / 2 * |Real.sin _| ≤ length / 2 * 1 :=
          mul_le_mul_of_nonneg_left (Real.abs_sin_le_one _) (by linarith)
      _ = length / 2 := mul_one _
  · simp only [locSin, mul_zero, zero_sub, Real.sin_neg, Real.sin_pi_div_two]; ring

/-- C35: the uniform motion: the location is in the domain and equals `speed * time` up to an
integer number of lengths. -/
theorem C35_uniform {lx : ℝ} (hlx : 0 < lx) (speed t : ℝ) :
    0 ≤ locUni lx speed t ∧ locUni lx speed t < lx ∧
      ∃ n : ℤ, locUni lx speed t = speed * t - n * lx := by
  obtain ⟨h1, h2⟩ := pymod_mem hlx (speed * t)
  exact ⟨h1, h2, ⌊speed * t / lx⌋, by simp only [locUni, pymod]; ring⟩

end Verif.Motion
