import Verif.Motion.Model
import Mathlib.Analysis.Calculus.Deriv.Pow
import Mathlib.Analysis.Calculus.Deriv.Mul
import Mathlib.Analysis.Calculus.Deriv.Add
import Mathlib.Analysis.Calculus.Deriv.Comp
import Mathlib.Analysis.Calculus.Deriv.Shift
import Mathlib.Tactic.Ring
import Mathlib.Tactic.NormNum
import Mathlib.Tactic.Linarith
import Mathlib.Tactic.FieldSimp
import Mathlib.Tactic.Positivity
import Mathlib.Tactic.LinearCombination

/-!
# Helper lemmas for the motions
-/

namespace Verif.Motion

open Set Filter Topology

theorem hasDeriv_glue {f g h : ℝ → ℝ} {d t a b : ℝ} (ha : a < t) (hb : t < b)
    (hfg : ∀ s, a < s → s ≤ t → f s = g s) (hfh : ∀ s, t ≤ s → s < b → f s = h s)
    (hg : HasDerivAt g d t) (hh : HasDerivAt h d t) : HasDerivAt f d t := by
  have h1 : HasDerivWithinAt f d (Iic t) t := by
    refine hg.hasDerivWithinAt.congr_of_eventuallyEq ?_ (hfg t ha le_rfl)
    have : Ioi a ∈ 𝓝[≤] t := mem_nhdsWithin_of_mem_nhds (Ioi_mem_nhds ha)
    filter_upwards [this, self_mem_nhdsWithin] with s hs hs'
    exact hfg s hs hs'
  have h2 : HasDerivWithinAt f d (Ici t) t := by
    refine hh.hasDerivWithinAt.congr_of_eventuallyEq ?_ (hfh t le_rfl hb)
    have : Iio b ∈ 𝓝[≥] t := mem_nhdsWithin_of_mem_nhds (Iio_mem_nhds hb)
    filter_upwards [this, self_mem_nhdsWithin] with s hs hs'
    exact hfh s hs' hs
  have := h1.union h2
  rwa [Iic_union_Ici, hasDerivWithinAt_univ] at this

/-- Gluing of two functions at a point. -/
theorem hasDeriv_ite {g h g' h' : ℝ → ℝ} {a : ℝ} (hg : ∀ t, HasDerivAt g (g' t) t)
    (hh : ∀ t, HasDerivAt h (h' t) t) (e : g a = h a) (e' : g' a = h' a) (t : ℝ) :
    HasDerivAt (fun s => if s ≤ a then g s else h s) (if t ≤ a then g' t else h' t) t := by
  rcases lt_trichotomy t a with hlt | rfl | hgt
  · rw [if_pos hlt.le]
    refine hasDeriv_glue (a := t - 1) (b := a) (by linarith) hlt ?_ ?_ (hg t) (hg t)
    · intro s _ hs; rw [if_pos (hs.trans hlt.le)]
    · intro s _ hs; rw [if_pos hs.le]
  · rw [if_pos le_rfl]
    refine hasDeriv_glue (a := t - 1) (b := t + 1) (by linarith) (by linarith) ?_ ?_ (hg t)
      (e' ▸ hh t)
    · intro s _ hs; rw [if_pos hs]
    · intro s hs _
      rcases hs.eq_or_lt with rfl | hs
      · rw [if_pos le_rfl, e]
      · rw [if_neg (not_le.2 hs)]
  · rw [if_neg (not_le.2 hgt)]
    refine hasDeriv_glue (a := a) (b := t + 1) hgt (by linarith) ?_ ?_ (hh t) (hh t)
    · intro s hs _; rw [if_neg (not_le.2 hs)]
    · intro s hs _; rw [if_neg (not_le.2 (hgt.trans_le hs))]

theorem pymod_of_mem {T s : ℝ} (hT : 0 < T) (n : ℤ) (h0 : T * n ≤ s) (h1 : s < T * (n + 1)) :
    pymod s T = s - T * n := by
  have : ⌊s / T⌋ = n := by
    rw [Int.floor_eq_iff, le_div_iff₀ hT, div_lt_iff₀ hT]
    exact ⟨by linarith, by linarith⟩
  rw [pymod, this]

theorem pymod_mem {T : ℝ} (hT : 0 < T) (s : ℝ) : 0 ≤ pymod s T ∧ pymod s T < T := by
  have h1 := Int.floor_le (s / T)
  have h2 := Int.lt_floor_add_one (s / T)
  rw [le_div_iff₀ hT] at h1
  rw [div_lt_iff₀ hT] at h2
  constructor <;> simp only [pymod] <;> linarith

theorem pymod_add {T : ℝ} (hT : 0 < T) (s : ℝ) : pymod (s + T) T = pymod s T := by
  have : (s + T) / T = s / T + 1 := by field_simp
  rw [pymod, pymod, this, Int.floor_add_one]
  push_cast; ring

/-- Periodic extension of a differentiable function. -/
theorem hasDeriv_periodic {p v : ℝ → ℝ} {T : ℝ} (hT : 0 < T) (hp : ∀ t, HasDerivAt p (v t) t)
    (e : p T = p 0) (e' : v T = v 0) (t : ℝ) :
    HasDerivAt (fun s => p (pymod s T)) (v (pymod t T)) t := by
  have hshift : ∀ n : ℤ, HasDerivAt (fun s => p (s - T * n)) (v (t - T * n)) t := fun n =>
    HasDerivAt.comp_sub_const t (T * n) (hp (t - T * n))
  have hm := pymod_mem hT t
  set n := ⌊t / T⌋ with hn
  have hpm : pymod t T = t - T * n := rfl
  rw [hpm] at hm
  have hright : ∀ s, t ≤ s → s < T * (n + 1) → p (pymod s T) = p (s - T * n) := fun s h1 h2 => by
    rw [pymod_of_mem hT n (by linarith) h2]
  rcases hm.1.eq_or_lt with h0 | h0
  · -- end of a period
    refine hasDeriv_glue (a := T * ((n - 1 : ℤ) : ℝ)) (b := T * (n + 1)) ?_ (by linarith) ?_ hright
      (g := fun s => p (s - T * ((n - 1 : ℤ) : ℝ))) ?_ ?_
    · push_cast; linarith
    · intro s h1 h2
      rcases h2.eq_or_lt with rfl | h2
      · have : s - T * ((n - 1 : ℤ) : ℝ) = T := by push_cast; linarith
        simp only [this, hpm, ← h0, e]
      · rw [pymod_of_mem hT (n - 1) h1.le (by push_cast; linarith)]
    · have := hshift (n - 1)
      have ht : t - T * ((n - 1 : ℤ) : ℝ) = T := by push_cast; linarith
      rw [ht] at this
      rw [hpm, ← h0, ← e']
      exact this
    · rw [hpm]; exact hshift n
  · refine hasDeriv_glue (a := T * n) (b := T * (n + 1)) (by linarith) (by linarith) ?_ hright
      (g := fun s => p (s - T * n)) ?_ ?_
    · intro s h1 h2; rw [pymod_of_mem hT n h1.le (by linarith)]
    · rw [hpm]; exact hshift n
    · rw [hpm]; exact hshift n

/-! ### the reduced functions -/

/-- Speed as a function of the reduced time. -/
noncomputable def spd (p : PU) (t : ℝ) : ℝ :=
  if t ≤ p.t1 then p.acc * t
  else if t ≤ p.t2 then p.speedMax
  else if t ≤ p.t3 then p.speedMax - p.acc * (t - p.t2)
  else if t ≤ p.t4 then -p.speedMax
  else -p.speedMax + p.acc * (t - p.t4)

/-- Location as a function of the reduced time. -/
noncomputable def loc (p : PU) (t : ℝ) : ℝ :=
  if t ≤ p.t1 then p.x0 + p.acc / 2 * t ^ 2
  else if t ≤ p.t2 then p.x1 + p.speedMax * (t - p.t1)
  else if t ≤ p.t3 then p.x2 + p.speedMax * (t - p.t2) - p.acc / 2 * (t - p.t2) ^ 2
  else if t ≤ p.t4 then p.x3 - p.speedMax * (t - p.t3)
  else p.x4 - p.speedMax * (t - p.t4) + p.acc / 2 * (t - p.t4) ^ 2

theorem getSpeed_eq (p : PU) (t : ℝ) : getSpeed p t = some (spd p (pymod t p.period)) := by
  simp only [getSpeed, spd]
  repeat' split
  all_goals first | rfl | (exfalso; simp_all)

theorem getLocation_eq (p : PU) (t : ℝ) : getLocation p t = some (loc p (pymod t p.period)) := by
  simp only [getLocation, loc]
  repeat' split
  all_goals first | rfl | (exfalso; simp_all)

/-- The relations between the attributes, for admissible parameters. -/
structure Good (p : PU) (s V L la lx : ℝ) : Prop where
  hs : s = 1 ∨ s = -1
  hV : 0 < V
  hla : 0 < la
  hL : 2 * la ≤ L
  speedMax : p.speedMax = s * V
  acc : p.acc = s * (V ^ 2 / (2 * la))
  t1 : p.t1 = 2 * la / V
  t2 : p.t2 = 2 * la / V + (L - 2 * la) / V
  t3 : p.t3 = 2 * la / V + (L - 2 * la) / V + 2 * (2 * la / V)
  t4 : p.t4 = 2 * la / V + (L - 2 * la) / V + 2 * (2 * la / V) + (L - 2 * la) / V
  period : p.period = 4 * (2 * la / V) + 2 * ((L - 2 * la) / V)
  x0 : p.x0 = lx / 2 - s * (L / 2)
  x1 : p.x1 = p.x0 + s * la
  x2 : p.x2 = p.x0 + s * (L - la)
  x3 : p.x3 = p.x0 + s * (L - la)
  x4 : p.x4 = p.x0 + s * la

theorem good_mk {speed L la : ℝ} (lx : ℝ) (hspeed : speed ≠ 0) (hla : 0 < la) (hL : 2 * la ≤ L) :
    ∃ s, (s = 1 ∧ 0 < speed ∨ s = -1 ∧ speed < 0) ∧
      Good (mkPU speed L la lx) s |speed| L la lx := by
  have hV : 0 < |speed| := abs_pos.2 hspeed
  rcases lt_or_gt_of_ne hspeed with h | h
  · refine ⟨-1, Or.inr ⟨rfl, h⟩, ?_⟩
    have hsg : (SignType.sign speed : ℝ) = -1 := by rw [sign_neg h]; rfl
    have hab : |speed| = -speed := abs_of_neg h
    have hta : speed / (-1 * speed ^ 2 / (2 * la)) = 2 * la / |speed| := by
      rw [hab]; field_simp
    constructor <;> first
      | exact Or.inr rfl | exact hV | exact hla | exact hL
      | (simp only [mkPU, hsg, hta]; done)
      | (simp only [mkPU, hsg]; ring1)
      | (simp only [mkPU, hsg, hab]; ring1)
  · refine ⟨1, Or.inl ⟨rfl, h⟩, ?_⟩
    have hsg : (SignType.sign speed : ℝ) = 1 := by rw [sign_pos h]; rfl
    have hab : |speed| = speed := abs_of_pos h
    have hta : speed / (1 * speed ^ 2 / (2 * la)) = 2 * la / |speed| := by
      rw [hab]; field_simp
    constructor <;> first
      | exact Or.inl rfl | exact hV | exact hla | exact hL
      | (simp only [mkPU, hsg, hta]; done)
      | (simp only [mkPU, hsg]; ring1)
      | (simp only [mkPU, hsg, hab]; ring1)

variable {p : PU} {s V L la lx : ℝ}

theorem Good.pos (h : Good p s V L la lx) : 0 < 2 * la / V ∧ 0 ≤ (L - 2 * la) / V := by
  have := h.hV; have := h.hla
  exact ⟨by positivity, div_nonneg (by linarith [h.hL]) h.hV.le⟩

theorem Good.order (h : Good p s V L la lx) :
    0 < p.t1 ∧ p.t1 ≤ p.t2 ∧ p.t2 < p.t3 ∧ p.t3 ≤ p.t4 ∧ p.t4 < p.period := by
  obtain ⟨h1, h2⟩ := h.pos
  rw [h.t1, h.t2, h.t3, h.t4, h.period]
  refine ⟨h1, ?_, ?_, ?_, ?_⟩ <;> linarith

/-- Speeds at the junctions. -/
theorem Good.acc_ta (h : Good p s V L la lx) : p.acc * (2 * la / V) = p.speedMax := by
  have := h.hV; have := h.hla
  rw [h.acc, h.speedMax]; field_simp

theorem Good.hasDeriv_loc (h : Good p s V L la lx) (t : ℝ) : HasDerivAt (loc p) (spd p t) t := by
  obtain ⟨o1, o2, o3, o4, o5⟩ := h.order
  have hV := h.hV
  have hla := h.hla
  have hacc := h.acc_ta
  have hta1 : p.t1 = 2 * la / V := h.t1
  have hta3 : p.t3 - p.t2 = 2 * (2 * la / V) := by rw [h.t3, h.t2]; ring
  have q : ∀ a b c d t : ℝ, HasDerivAt (fun s => a + b * (s - d) + c / 2 * (s - d) ^ 2)
      (b + c * (t - d)) t := fun a b c d t => by
    have h1 := (hasDerivAt_id t).sub_const d
    have h2 := ((h1.const_mul b).const_add a).add ((h1.pow 2).const_mul (c / 2))
    refine h2.congr_deriv ?_
    simp; ring
  have d1 : ∀ t, HasDerivAt (fun s => p.x0 + p.acc / 2 * s ^ 2) (p.acc * t) t := fun t => by
    simpa using q p.x0 0 p.acc 0 t
  have d2 : ∀ t, HasDerivAt (fun s => p.x1 + p.speedMax * (s - p.t1)) p.speedMax t := fun t => by
    simpa using q p.x1 p.speedMax 0 p.t1 t
  have d3 : ∀ t, HasDerivAt (fun s => p.x2 + p.speedMax * (s - p.t2) - p.acc / 2 * (s - p.t2) ^ 2)
      (p.speedMax - p.acc * (t - p.t2)) t := fun t => by
    have := q p.x2 p.speedMax (-p.acc) p.t2 t
    refine (this.congr_deriv (by ring)).congr_of_eventuallyEq (Eventually.of_forall fun s => ?_)
    simp only []; ring
  have d4 : ∀ t, HasDerivAt (fun s => p.x3 - p.speedMax * (s - p.t3)) (-p.speedMax) t := fun t => by
    have := q p.x3 (-p.speedMax) 0 p.t3 t
    refine (this.congr_deriv (by ring)).congr_of_eventuallyEq (Eventually.of_forall fun s => ?_)
    simp only []; ring
  have d5 : ∀ t, HasDerivAt (fun s => p.x4 - p.speedMax * (s - p.t4) + p.acc / 2 * (s - p.t4) ^ 2)
      (-p.speedMax + p.acc * (t - p.t4)) t := fun t => by
    have := q p.x4 (-p.speedMax) p.acc p.t4 t
    refine this.congr_of_eventuallyEq (Eventually.of_forall fun s => ?_)
    simp only []; ring
  have hss : s * s = 1 := by rcases h.hs with rfl | rfl <;> norm_num
  have d45 := hasDeriv_ite d4 d5 (a := p.t4)
    (by rw [h.x3, h.x4, h.t4, h.t3, h.speedMax]; field_simp; ring) (by ring)
  have d345 := hasDeriv_ite d3 d45 (a := p.t3)
    (by
      rw [if_pos o4, hta3, h.x2, h.x3]
      linear_combination (-2 * (2 * la / V)) * hacc)
    (by rw [if_pos o4, hta3]; linear_combination (-2 : ℝ) * hacc)
  have d2345 := hasDeriv_ite d2 d345 (a := p.t2)
    (by
      rw [if_pos o3.le, h.x1, h.x2, h.t1, h.t2, h.speedMax]
      field_simp
      ring)
    (by rw [if_pos o3.le]; ring)
  have d12345 := hasDeriv_ite d1 d2345 (a := p.t1)
    (by
      rw [if_pos o2, h.x1, hta1, h.acc]
      field_simp
      ring)
    (by rw [if_pos o2, hta1]; exact hacc)
  exact d12345 t

theorem Good.loc_period (h : Good p s V L la lx) :
    loc p p.period = loc p 0 ∧ spd p p.period = spd p 0 := by
  obtain ⟨o1, o2, o3, o4, o5⟩ := h.order
  have hV := h.hV
  have hla := h.hla
  have hacc := h.acc_ta
  have hd : p.period - p.t4 = 2 * la / V := by rw [h.period, h.t4]; ring
  simp only [loc, spd, if_pos o1.le, if_neg (not_le.2 o5), if_neg (not_le.2 (o4.trans_lt o5)),
    if_neg (not_le.2 (o3.trans_le (o4.trans o5.le))),
    if_neg (not_le.2 (o2.trans_lt (o3.trans_le (o4.trans o5.le)))), hd]
  constructor
  · rw [h.x4, h.speedMax, h.acc]; field_simp; ring
  · linear_combination hacc

theorem Good.spd_le (h : Good p s V L la lx) {t : ℝ} (h0 : 0 ≤ t) (h1 : t ≤ p.period) :
    |spd p t| ≤ V := by
  have hV := h.hV
  have hla := h.hla
  have hacc := h.acc_ta
  have hA : |p.acc| = V ^ 2 / (2 * la) := by
    rw [h.acc, abs_mul, abs_of_pos (by positivity : (0 : ℝ) < V ^ 2 / (2 * la))]
    rcases h.hs with rfl | rfl <;> simp
  have hS : |p.speedMax| = V := by
    rw [h.speedMax, abs_mul, abs_of_pos hV]; rcases h.hs with rfl | rfl <;> simp
  have key : ∀ u, |u| ≤ 2 * la / V → |p.acc * u| ≤ V := fun u hu => by
    rw [abs_mul, hA]
    calc V ^ 2 / (2 * la) * |u| ≤ V ^ 2 / (2 * la) * (2 * la / V) :=
          mul_le_mul_of_nonneg_left hu (by positivity)
      _ = V := by field_simp
  simp only [spd]
  split
  · rename_i c; exact key t (abs_le.2 ⟨by linarith [h.pos.1], by rw [← h.t1]; exact c⟩)
  split
  · exact hS.le
  split
  · rename_i c1 c2 c3
    have : p.speedMax - p.acc * (t - p.t2) = p.acc * (2 * la / V - (t - p.t2)) := by
      rw [← hacc]; ring
    rw [this]
    refine key _ (abs_le.2 ⟨?_, ?_⟩)
    · rw [h.t3] at c3; rw [h.t2]; linarith
    · linarith
  split
  · rw [abs_neg]; exact hS.le
  · rename_i c1 c2 c3 c4
    have : -p.speedMax + p.acc * (t - p.t4) = p.acc * ((t - p.t4) - 2 * la / V) := by
      rw [← hacc]; ring
    rw [this]
    refine key _ (abs_le.2 ⟨?_, ?_⟩)
    · linarith
    · rw [h.period] at h1; rw [h.t4]; linarith [h.pos.1]

/-- The position relative to the first end, in the direction of the motion. -/
theorem Good.loc_mem (h : Good p s V L la lx) {t : ℝ} (h0 : 0 ≤ t) (h1 : t ≤ p.period) :
    ∃ y, 0 ≤ y ∧ y ≤ L ∧ loc p t = p.x0 + s * y := by
  have hV := h.hV
  have hla := h.hla
  have hL := h.hL
  have hAV : V ^ 2 / (2 * la) / 2 * (2 * la / V) ^ 2 = la := by field_simp
  have hA : 0 < V ^ 2 / (2 * la) / 2 := by positivity
  have hVV : V = V ^ 2 / (2 * la) / 2 * (2 * (2 * la / V)) := by field_simp
  have hta : V * (2 * la / V) = 2 * la := by field_simp
  have htu : V * ((L - 2 * la) / V) = L - 2 * la := by field_simp
  set A := V ^ 2 / (2 * la) / 2 with hAdef
  set ta := 2 * la / V with htadef
  have hacc : p.acc / 2 = s * A := by rw [h.acc, hAdef]; ring
  simp only [loc]
  split
  · rename_i c
    rw [h.t1] at c
    refine ⟨A * t ^ 2, by positivity, ?_, by rw [hacc]; ring⟩
    have : A * t ^ 2 ≤ A * ta ^ 2 := mul_le_mul_of_nonneg_left (pow_le_pow_left₀ h0 c 2) hA.le
    linarith
  split
  · rename_i c1 c2
    rw [h.t1] at c1 ⊢
    rw [h.t2] at c2
    refine ⟨la + V * (t - ta), ?_, ?_, by rw [h.x1, h.speedMax]; ring⟩
    · have := mul_nonneg hV.le (sub_nonneg.2 (not_le.1 c1).le); linarith
    · have : V * (t - ta) ≤ V * ((L - 2 * la) / V) :=
        mul_le_mul_of_nonneg_left (by linarith) hV.le
      linarith
  split
  · rename_i c1 c2 c3
    set u := t - p.t2 with hu
    have hu0 : 0 ≤ u := by linarith
    have hu1 : u ≤ 2 * ta := by rw [h.t3] at c3; rw [hu, h.t2]; linarith
    refine ⟨L - la + V * u - A * u ^ 2, ?_, ?_, by rw [h.x2, h.speedMax, hacc]; ring⟩
    · have : 0 ≤ A * (u * (2 * ta - u)) :=
        mul_nonneg hA.le (mul_nonneg hu0 (by linarith))
      nlinarith
    · have : 0 ≤ A * (u - ta) ^ 2 := by positivity
      nlinarith
  split
  · rename_i c1 c2 c3 c4
    set u := t - p.t3 with hu
    have hu0 : 0 ≤ u := by linarith
    have hu1 : u ≤ (L - 2 * la) / V := by rw [h.t4] at c4; rw [hu, h.t3]; linarith
    refine ⟨L - la - V * u, ?_, ?_, by rw [h.x3, h.speedMax]; ring⟩
    · have := mul_le_mul_of_nonneg_left hu1 hV.le
      linarith
    · have := mul_nonneg hV.le hu0; linarith
  · rename_i c1 c2 c3 c4
    set u := t - p.t4 with hu
    have hu0 : 0 ≤ u := by linarith
    have hu1 : u ≤ ta := by rw [h.period] at h1; rw [hu, h.t4]; linarith
    refine ⟨la - V * u + A * u ^ 2, ?_, ?_, by rw [h.x4, h.speedMax, hacc]; ring⟩
    · have : 0 ≤ A * (u - ta) ^ 2 := by positivity
      nlinarith
    · have : 0 ≤ A * (u * (2 * ta - u)) :=
        mul_nonneg hA.le (mul_nonneg hu0 (by linarith))
      nlinarith

/-- Continuity of the speed. -/
theorem Good.spd_continuous (h : Good p s V L la lx) : Continuous (spd p) := by
  obtain ⟨o1, o2, o3, o4, o5⟩ := h.order
  have hacc := h.acc_ta
  have hta3 : p.t3 - p.t2 = 2 * (2 * la / V) := by rw [h.t3, h.t2]; ring
  have e4 : Continuous fun t => if t ≤ p.t4 then -p.speedMax
      else -p.speedMax + p.acc * (t - p.t4) :=
    Continuous.if_le (by fun_prop) (by fun_prop) (by fun_prop) (by fun_prop)
      (fun t ht => by rw [ht]; ring)
  have e3 : Continuous fun t => if t ≤ p.t3 then p.speedMax - p.acc * (t - p.t2)
      else if t ≤ p.t4 then -p.speedMax else -p.speedMax + p.acc * (t - p.t4) :=
    Continuous.if_le (by fun_prop) e4 (by fun_prop) (by fun_prop)
      (fun t ht => by rw [ht, if_pos o4, hta3]; linear_combination (-2 : ℝ) * hacc)
  have e2 : Continuous fun t => if t ≤ p.t2 then p.speedMax
      else if t ≤ p.t3 then p.speedMax - p.acc * (t - p.t2)
      else if t ≤ p.t4 then -p.speedMax else -p.speedMax + p.acc * (t - p.t4) :=
    Continuous.if_le (by fun_prop) e3 (by fun_prop) (by fun_prop)
      (fun t ht => by rw [ht, if_pos o3.le]; ring)
  exact Continuous.if_le (by fun_prop) e2 (by fun_prop) (by fun_prop)
    (fun t ht => by rw [ht, if_pos o2, h.t1]; exact hacc)

/-- The periodic extension of a continuous function. -/
theorem continuous_periodic {v : ℝ → ℝ} {T : ℝ} (hT : 0 < T) (hv : Continuous v)
    (e : v T = v 0) : Continuous fun t => v (pymod t T) := by
  rw [continuous_iff_continuousAt]
  intro t
  have hm := pymod_mem hT t
  set n := ⌊t / T⌋ with hn
  have hpm : pymod t T = t - T * n := rfl
  rw [hpm] at hm
  rw [continuousAt_iff_continuous_left'_right']
  have hsh : ∀ n : ℤ, ContinuousAt (fun s => v (s - T * n)) t := fun n => by fun_prop
  constructor
  · rcases hm.1.eq_or_lt with h0 | h0
    · have hc : ContinuousWithinAt (fun s => v (s - T * ((n - 1 : ℤ) : ℝ))) (Iio t) t :=
        (hsh (n - 1)).continuousWithinAt
      refine hc.congr_of_eventuallyEq ?_ ?_
      · have : Ioi (T * ((n - 1 : ℤ) : ℝ)) ∈ 𝓝[<] t :=
          mem_nhdsWithin_of_mem_nhds (Ioi_mem_nhds (by push_cast; linarith))
        filter_upwards [this, self_mem_nhdsWithin] with s hs hs'
        rw [pymod_of_mem hT (n - 1) (le_of_lt hs)
          (by have := mem_Iio.1 hs'; push_cast; linarith)]
      · have ht : t - T * ((n - 1 : ℤ) : ℝ) = T := by push_cast; linarith
        simp only [hpm, ht, ← h0, e]
    · refine (hsh n).continuousWithinAt.congr_of_eventuallyEq ?_ (by simp only [hpm])
      have : Ioi (T * (n : ℝ)) ∈ 𝓝[<] t :=
        mem_nhdsWithin_of_mem_nhds (Ioi_mem_nhds (by linarith))
      filter_upwards [this, self_mem_nhdsWithin] with s hs hs'
      rw [pymod_of_mem hT n (le_of_lt hs) (by have := mem_Iio.1 hs'; linarith)]
  · refine (hsh n).continuousWithinAt.congr_of_eventuallyEq ?_ (by simp only [hpm])
    have : Iio (T * ((n : ℝ) + 1)) ∈ 𝓝[>] t :=
      mem_nhdsWithin_of_mem_nhds (Iio_mem_nhds (by linarith))
    filter_upwards [this, self_mem_nhdsWithin] with s hs hs'
    rw [pymod_of_mem hT n (by have := mem_Ioi.1 hs'; linarith) hs]

end Verif.Motion
