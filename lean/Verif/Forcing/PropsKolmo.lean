import Verif.Forcing.ModelKolmo
import Verif.Forcing.Lemmas
import Verif.Forcing.Spec
import Mathlib.Tactic.LinearCombination
import Mathlib.Tactic.Linarith
import Mathlib.Tactic.FieldSimp
import Mathlib.Tactic.NormNum

/-! # C31: the Kolmogorov flow with a constant injection rate -/

namespace Verif.Forcing.Kolmo

open Verif.Forcing

noncomputable section

variable {ι : Type} [Fintype ι]

/-- At each call `np.roots` returns the roots of the equation for the present array and the present flow. -/
def RootsOk (w : ι → ℝ) (rate : ℝ) (which : String) : (ι → ℂ) → List (KCall ι) → Prop
  | _, [] => True
  | f, c :: l => NpRoots (coefA w c.dt f) (coefB w c.v f) (-rate) c.roots ∧ ∀ g, kolmoCall which f c = .ok g → RootsOk w rate which g l

theorem scale_scale (s x : ℝ) (f : ι → ℂ) : scale x (scale s f) = scale (s * x) f := by
  funext i
  simp only [scale]
  push_cast
  ring

/-- One call: the array is multiplied by a root of the equation for the initial array, and the other root is known. -/
theorem kolmo_roots {w : ι → ℝ} {rate s : ℝ} (hs : s ≠ 0) {f : ι → ℂ} {c : KCall ι} (hA : coefA w c.dt f ≠ 0)
    (h : NpRoots (coefA w c.dt (scale s f)) (coefB w c.v (scale s f)) (-rate) c.roots) :
    ∃ x y, c.roots = some (x, y) ∧
      ∀ t, coefA w c.dt f * t ^ 2 + coefB w c.v f * t - rate = coefA w c.dt f * (t - s * x) * (t - s * y) := by
  rw [coefA_scale, coefB_scale] at h
  cases e : c.roots with
  | none =>
    rw [e] at h
    exact absurd h (mul_ne_zero (pow_ne_zero 2 hs) hA)
  | some r =>
    rw [e] at h
    refine ⟨r.1, r.2, rfl, fun t => ?_⟩
    have := h.2 (t / s)
    field_simp at this
    linear_combination this

/-- The sum and the product of the roots. -/
theorem vieta {a b c x y : ℝ} (h : ∀ t, a * t ^ 2 + b * t - c = a * (t - x) * (t - y)) : a * (x * y) = -c ∧ a * (x + y) = -b := by
  have h0 := h 0
  have h1 := h 1
  constructor
  · linear_combination -h0
  · linear_combination h1 - h0

/-- What is kept for each way to choose the root: the array is the initial one multiplied by `s`. -/
theorem kolmo_step_positive {w : ι → ℝ} {rate s : ℝ} (hr : 0 < rate) (hs : 0 < s) {f : ι → ℂ} {c : KCall ι} (hA : 0 < coefA w c.dt f)
    (h : NpRoots (coefA w c.dt (scale s f)) (coefB w c.v (scale s f)) (-rate) c.roots) :
    ∃ z > 0, kolmoCall "positive" (scale s f) c = .ok (scale z f) ∧ coefA w c.dt f * z ^ 2 + coefB w c.v f * z = rate := by
  obtain ⟨x, y, e, key⟩ := kolmo_roots hs.ne' hA.ne' h
  have hv := (vieta key).1
  have hxy : x * y < 0 := by
    by_contra hn
    have : 0 ≤ coefA w c.dt f * (s * x * (s * y)) := by
      have h2 : s * x * (s * y) = s ^ 2 * (x * y) := by ring
      rw [h2]
      exact mul_nonneg hA.le (mul_nonneg (sq_nonneg s) (not_lt.1 hn))
    linarith
  simp only [kolmoCall, normalize2nd, e, coefNormalization]
  by_cases hy : y > 0
  · refine ⟨s * y, mul_pos hs hy, ?_, by have := key (s * y); linear_combination this⟩
    simp [hy, scale_scale, bind, Except.bind, pure, Except.pure]
  · have hx : 0 < x := by
      by_contra hn
      exact absurd hxy (not_lt.2 (mul_nonneg_of_nonpos_of_nonpos (not_lt.1 hn) (not_lt.1 hy)))
    refine ⟨s * x, mul_pos hs hx, ?_, by have := key (s * x); linear_combination this⟩
    simp [hy, scale_scale, bind, Except.bind, pure, Except.pure]

theorem kolmo_step_minabs {w : ι → ℝ} {rate s : ℝ} (hr : rate ≠ 0) (hs : s ≠ 0) {f : ι → ℂ} {c : KCall ι} (hA : coefA w c.dt f ≠ 0)
    (h : NpRoots (coefA w c.dt (scale s f)) (coefB w c.v (scale s f)) (-rate) c.roots) :
    ∃ z ≠ 0, kolmoCall "minabs" (scale s f) c = .ok (scale z f) ∧ coefA w c.dt f * z ^ 2 + coefB w c.v f * z = rate ∧
      ∀ t, coefA w c.dt f * t ^ 2 + coefB w c.v f * t = rate → |z| ≤ |t| := by
  obtain ⟨x, y, e, key⟩ := kolmo_roots hs hA h
  have hv := (vieta key).1
  have hx : s * x ≠ 0 := fun h0 => hr (by rw [h0] at hv; linarith)
  have hy : s * y ≠ 0 := fun h0 => hr (by rw [h0] at hv; linarith)
  have hroot : ∀ t, coefA w c.dt f * t ^ 2 + coefB w c.v f * t = rate → t = s * x ∨ t = s * y := by
    intro t ht
    have := key t
    rw [ht, sub_self] at this
    rcases mul_eq_zero.1 this.symm with h | h
    · rcases mul_eq_zero.1 h with h | h
      · exact absurd h hA
      · exact .inl (by linarith)
    · exact .inr (by linarith)
  simp only [kolmoCall, normalize2nd, e, coefNormalization]
  by_cases hc : |y| < |x|
  · refine ⟨s * y, hy, by simp [hc, scale_scale, bind, Except.bind, pure, Except.pure], by have := key (s * y); linear_combination this,
      fun t ht => ?_⟩
    rcases hroot t ht with rfl | rfl
    · rw [abs_mul, abs_mul]; exact mul_le_mul_of_nonneg_left hc.le (abs_nonneg s)
    · exact le_rfl
  · refine ⟨s * x, hx, by simp [hc, scale_scale, bind, Except.bind, pure, Except.pure], by have := key (s * x); linear_combination this,
      fun t ht => ?_⟩
    rcases hroot t ht with rfl | rfl
    · exact le_rfl
    · rw [abs_mul, abs_mul]; exact mul_le_mul_of_nonneg_left (not_lt.1 hc) (abs_nonneg s)

theorem kolmo_invariant {w : ι → ℝ} {rate : ℝ} {which : String} {P : ℝ → Prop} {Q : KCall ι → ℝ → Prop} {f : ι → ℂ}
    (hA : ∀ c : KCall ι, ∀ s, P s → 0 < c.dt → NpRoots (coefA w c.dt (scale s f)) (coefB w c.v (scale s f)) (-rate) c.roots →
      ∃ z, P z ∧ kolmoCall which (scale s f) c = .ok (scale z f) ∧ Q c z) :
    ∀ (l : List (KCall ι)) (c : KCall ι) (s : ℝ), P s → (∀ d ∈ l ++ [c], 0 < d.dt) → RootsOk w rate which (scale s f) (l ++ [c]) →
      ∃ z, P z ∧ kolmoCalls which (scale s f) (l ++ [c]) = .ok (scale z f) ∧ Q c z := by
  intro l
  induction l with
  | nil =>
    intro c s hs hdt hok
    obtain ⟨z, hz, e, hq⟩ := hA c s hs (hdt c (by simp)) hok.1
    exact ⟨z, hz, by simp only [List.nil_append, kolmoCalls, e], hq⟩
  | cons d l ih =>
    intro c s hs hdt hok
    obtain ⟨z, hz, e, -⟩ := hA d s hs (hdt d (by simp)) hok.1
    obtain ⟨z', hz', e', hq⟩ := ih c z hz (fun x hx => hdt x (by simp at hx ⊢; exact .inr hx)) (hok.2 _ e)
    exact ⟨z', hz', by simp only [List.cons_append, kolmoCalls, e]; exact e', hq⟩

theorem scale_one' (f : ι → ℂ) : scale 1 f = f := by
  funext i; simp [scale]

theorem coefA_pos {w : ι → ℝ} {f : ι → ℂ} (hf : 0 < sumK w fun i => ‖f i‖ ^ 2) {dt : ℝ} (h : 0 < dt) : 0 < coefA w dt f := by
  simp only [coefA]; positivity

/-- C31 (Kolmogorov flow, `which_root = "positive"`): after any number of calls, although each call starts from the force of the previous one,
the force is the initial sine multiplied by the only positive number for which the prescribed power is injected: it does not depend on the
previous calls. -/
theorem C31_kolmogorov_positive {w : ι → ℝ} {rate : ℝ} (hr : 0 < rate) {f : ι → ℂ} (hf : 0 < sumK w fun i => ‖f i‖ ^ 2)
    (l : List (KCall ι)) (c : KCall ι) (hdt : ∀ d ∈ l ++ [c], 0 < d.dt) (h : RootsOk w rate "positive" f (l ++ [c])) :
    ∃ z > 0, kolmoCalls "positive" f (l ++ [c]) = .ok (scale z f) ∧ energyInput w c.dt c.v (scale z f) = rate ∧
      ∀ t > 0, energyInput w c.dt c.v (scale t f) = rate → t = z := by
  have hd0 := (hdt c (by simp)).ne'
  simp only [input_scale w hd0]
  rw [← scale_one' f] at h
  obtain ⟨z, hz, e, hq⟩ := kolmo_invariant (P := fun s => 0 < s) (Q := fun c z => coefA w c.dt f * z ^ 2 + coefB w c.v f * z = rate)
    (fun c s hs hd hn => by
      obtain ⟨z, a, b⟩ := kolmo_step_positive hr hs (coefA_pos hf hd) hn
      exact ⟨z, a, b⟩) l c 1 one_pos hdt h
  rw [scale_one'] at e
  refine ⟨z, hz, e, hq, fun t ht hqt => ?_⟩
  have ha := coefA_pos hf (hdt c (by simp))
  have hp : (t - z) * (coefA w c.dt f * (t * z) + rate) = 0 := by
    linear_combination z * hqt - t * hq
  rcases mul_eq_zero.1 hp with h | h
  · linarith
  · have := mul_pos ha (mul_pos ht hz); linarith

/-- C31 (Kolmogorov flow, `which_root = "minabs"`, the default): the force is the initial sine multiplied by a number for which
the prescribed power is injected, and no other such number is smaller in absolute value. -/
theorem C31_kolmogorov_minabs {w : ι → ℝ} {rate : ℝ} (hr : rate ≠ 0) {f : ι → ℂ} (hf : 0 < sumK w fun i => ‖f i‖ ^ 2)
    (l : List (KCall ι)) (c : KCall ι) (hdt : ∀ d ∈ l ++ [c], 0 < d.dt) (h : RootsOk w rate "minabs" f (l ++ [c])) :
    ∃ z, kolmoCalls "minabs" f (l ++ [c]) = .ok (scale z f) ∧ energyInput w c.dt c.v (scale z f) = rate ∧
      ∀ t, energyInput w c.dt c.v (scale t f) = rate → |z| ≤ |t| := by
  have hd0 := (hdt c (by simp)).ne'
  simp only [input_scale w hd0]
  rw [← scale_one' f] at h
  obtain ⟨z, -, e, hq⟩ := kolmo_invariant (P := fun s => s ≠ 0) (Q := fun c z => coefA w c.dt f * z ^ 2 + coefB w c.v f * z = rate ∧
      ∀ t, coefA w c.dt f * t ^ 2 + coefB w c.v f * t = rate → |z| ≤ |t|)
    (fun c s hs hd hn => by
      obtain ⟨z, a, b⟩ := kolmo_step_minabs hr hs (coefA_pos hf hd).ne' hn
      exact ⟨z, a, b⟩) l c 1 one_ne_zero hdt h
  rw [scale_one'] at e
  exact ⟨z, e, hq⟩

/-- C31, finding: with `which_root = "second"` ("root with negative sign before discriminant") the force depends on the previous calls: the
first call gives the negative root; the second call starts from this force, of opposite sign, and gives the other root: whatever the flow,
the force changes sign between the two calls (the hypotheses on the order are the documented order of the roots). -/
theorem C31_kolmogorov_second_violated {w : ι → ℝ} {rate : ℝ} (hr : 0 < rate) {f : ι → ℂ} (hf : 0 < sumK w fun i => ‖f i‖ ^ 2) {c d : KCall ι}
    (hc : 0 < c.dt) (hd : 0 < d.dt) (h : RootsOk w rate "second" f [c, d])
    (hord : ∀ x y, c.roots = some (x, y) → y ≤ x) (hord' : ∀ x y, d.roots = some (x, y) → y ≤ x) :
    ∃ z1 < 0, ∃ z2 > 0, kolmoCalls "second" f [c] = .ok (scale z1 f) ∧ kolmoCalls "second" f [c, d] = .ok (scale z2 f) := by
  have hneg : ∀ (s : ℝ), s ≠ 0 → ∀ e : KCall ι, 0 < e.dt → NpRoots (coefA w e.dt (scale s f)) (coefB w e.v (scale s f)) (-rate) e.roots →
      (∀ x y, e.roots = some (x, y) → y ≤ x) → ∃ y < 0, kolmoCall "second" (scale s f) e = .ok (scale (s * y) f) := by
    intro s hs e he hn ho
    have ha := coefA_pos hf he
    obtain ⟨x, y, er, key⟩ := kolmo_roots hs ha.ne' hn
    have hv := (vieta key).1
    have hyx := ho x y er
    refine ⟨y, ?_, by simp [kolmoCall, normalize2nd, er, coefNormalization, scale_scale, bind, Except.bind, pure, Except.pure]⟩
    by_contra hy
    have : 0 ≤ x * y := mul_nonneg (le_trans (not_lt.1 hy) hyx) (not_lt.1 hy)
    have h2 : s * x * (s * y) = s ^ 2 * (x * y) := by ring
    rw [h2] at hv
    have := mul_nonneg ha.le (mul_nonneg (sq_nonneg s) this)
    linarith
  obtain ⟨h1, h2⟩ := h
  rw [← scale_one' f] at h1
  obtain ⟨y, hy, e⟩ := hneg 1 one_ne_zero c hc h1 hord
  rw [one_mul, scale_one'] at e
  obtain ⟨y', hy', e'⟩ := hneg y hy.ne d hd (h2 _ e).1 hord'
  exact ⟨y, hy, y * y', mul_pos_of_neg_of_neg hy hy', by simp only [kolmoCalls, e], by simp only [kolmoCalls, e, e']⟩

/-- One mode, initially at rest: with `dt = 2` and the rate 1 the two roots are 1 and -1 at each call; the hypotheses hold for two calls. -/
example : RootsOk (fun _ : Unit => (1 : ℝ)) 1 "second" (fun _ => 1) [⟨fun _ => 0, 2, some (1, -1)⟩, ⟨fun _ => 0, 2, some (1, -1)⟩] ∧
    RootsOk (fun _ : Unit => (1 : ℝ)) 1 "positive" (fun _ => 1) ([⟨fun _ => 0, 2, some (1, -1)⟩] ++ [⟨fun _ => 0, 2, some (1, -1)⟩]) ∧
    0 < sumK (fun _ : Unit => (1 : ℝ)) fun _ => ‖(1 : ℂ)‖ ^ 2 := by
  have key : ∀ s : ℝ, s ^ 2 = 1 → NpRoots (coefA (fun _ : Unit => (1 : ℝ)) 2 (scale s fun _ => 1)) (coefB (fun _ : Unit => (1 : ℝ)) (fun _ => 0)
      (scale s fun _ => 1)) (-1) (some (1, -1)) := by
    intro s hs
    rw [coefA_scale, coefB_scale, hs]
    have a : coefA (fun _ : Unit => (1 : ℝ)) 2 (fun _ => 1) = 1 := by simp [coefA, sumK]
    have b : coefB (fun _ : Unit => (1 : ℝ)) (fun _ => 0) (fun _ => 1) = 0 := by simp [coefB, sumK]
    rw [a, b]
    exact ⟨by norm_num, fun x => by ring⟩
  have k1 := key 1 (by norm_num)
  rw [scale_one'] at k1
  refine ⟨⟨k1, fun g hg => ⟨?_, fun _ _ => trivial⟩⟩, ⟨k1, fun g hg => ⟨?_, fun _ _ => trivial⟩⟩, by simp [sumK]⟩
  · have : g = scale (-1) fun _ => 1 := by
      simp [kolmoCall, normalize2nd, coefNormalization, bind, Except.bind, pure, Except.pure] at hg
      rw [← hg]
    rw [this]
    exact key (-1) (by norm_num)
  · have : g = scale 1 fun _ => 1 := by
      have h0 : ¬ (-1 : ℝ) > 0 := by norm_num
      simp only [kolmoCall, normalize2nd, coefNormalization, bind, Except.bind, pure, Except.pure, h0] at hg
      simpa using hg.symm
    rw [this]
    exact key 1 (by norm_num)

end

end Verif.Forcing.Kolmo
