import Verif.Cfl.Model
import Mathlib.Tactic.Positivity
import Mathlib.Tactic.FieldSimp

/-! Helper lemmas for `Verif.Cfl.Props`. -/

namespace Verif.Cfl

set_option linter.unusedSectionVars false

variable {K : Type*} [Field K] [LinearOrder K]

theorem foldl_min_le (xs : List K) (a : K) : ∀ x ∈ a :: xs, xs.foldl min a ≤ x := by
  induction xs generalizing a with
  | nil => simp
  | cons y ys ih =>
    intro x hx
    simp only [List.foldl_cons]
    have hm := ih (min a y) (min a y) (by simp)
    rcases List.mem_cons.1 hx with rfl | hx
    · exact hm.trans (min_le_left _ _)
    · rcases List.mem_cons.1 hx with rfl | hx
      · exact hm.trans (min_le_right _ _)
      · exact ih _ x (by simp [hx])

theorem foldl_max_ge (xs : List K) (a : K) : ∀ x ∈ a :: xs, x ≤ xs.foldl max a := by
  induction xs generalizing a with
  | nil => simp
  | cons y ys ih =>
    intro x hx
    simp only [List.foldl_cons]
    have hm := ih (max a y) (max a y) (by simp)
    rcases List.mem_cons.1 hx with rfl | hx
    · exact (le_max_left _ _).trans hm
    · rcases List.mem_cons.1 hx with rfl | hx
      · exact (le_max_right _ _).trans hm
      · exact ih _ x (by simp [hx])

theorem foldl_min_mem (xs : List K) (a : K) : xs.foldl min a ∈ a :: xs := by
  induction xs generalizing a with
  | nil => simp
  | cons y ys ih =>
    simp only [List.foldl_cons]
    rcases List.mem_cons.1 (ih (min a y)) with h | h
    · rw [h]
      rcases min_choice a y with h | h <;> simp [h]
    · simp [h]

theorem foldl_max_mem (xs : List K) (a : K) : xs.foldl max a ∈ a :: xs := by
  induction xs generalizing a with
  | nil => simp
  | cons y ys ih =>
    simp only [List.foldl_cons]
    rcases List.mem_cons.1 (ih (max a y)) with h | h
    · rw [h]
      rcases max_choice a y with h | h <;> simp [h]
    · simp [h]

theorem maxAbs_spec [IsStrictOrderedRing K] {l : List K} {m : K} (h : maxAbs l = .ok m) :
    (∀ x ∈ l, |x| ≤ m) ∧ ∃ x ∈ l, |x| = m := by
  cases l with
  | nil => simp [maxAbs, arrMin] at h
  | cons a xs =>
    simp only [maxAbs, arrMin, arrMax, Except.ok.injEq] at h
    subst h
    constructor
    · intro x hx
      have h1 := foldl_min_le xs a x hx
      have h2 := foldl_max_ge xs a x hx
      rw [abs_le]
      constructor
      · have : -|xs.foldl min a| ≤ x := (neg_abs_le _).trans h1
        have := le_max_left |xs.foldl min a| |xs.foldl max a|
        linarith
      · exact (h2.trans (le_abs_self _)).trans (le_max_right _ _)
    · rcases max_choice |xs.foldl min a| |xs.foldl max a| with h | h
      · exact ⟨_, foldl_min_mem xs a, h.symm⟩
      · exact ⟨_, foldl_max_mem xs a, h.symm⟩

theorem allreduceMax_spec {l : List (Except String K)} {T : K} (h : allreduceMax l = .ok T) :
    (∀ e ∈ l, ∃ a, e = .ok a ∧ a ≤ T) ∧ (.ok T) ∈ l := by
  induction l generalizing T with
  | nil => simp [allreduceMax] at h
  | cons x l ih =>
    cases l with
    | nil =>
      simp only [allreduceMax] at h
      subst h
      simp
    | cons y l =>
      unfold allreduceMax at h
      split at h
      · rename_i a b hb
        cases h
        obtain ⟨h1, h2⟩ := ih hb
        constructor
        · intro e he
          rcases List.mem_cons.1 he with rfl | he
          · exact ⟨a, rfl, le_max_left _ _⟩
          · obtain ⟨c, hc, hcb⟩ := h1 e he
            exact ⟨c, hc, hcb.trans (le_max_right _ _)⟩
        · rcases max_choice a b with h | h
          · rw [h]; simp
          · rw [h]; exact List.mem_cons_of_mem _ h2
      · cases h
      · cases h

theorem hysteresis_spec [IsStrictOrderedRing K] (deltat m : K) (hm : 0 < m) :
    98 / 100 * m ≤ hysteresis deltat m ∧ hysteresis deltat m ≤ 102 / 100 * m ∧
    (|deltat - m| ≤ 2 / 100 * m → hysteresis deltat m = deltat) ∧
    (2 / 100 * m < |deltat - m| → hysteresis deltat m = m) := by
  unfold hysteresis
  by_cases h : |deltat - m| / m > 2 / 100
  · rw [if_pos h]
    have h' : 2 / 100 * m < |deltat - m| := by
      rwa [gt_iff_lt, lt_div_iff₀ hm] at h
    refine ⟨by linarith, by linarith, fun h2 => absurd h2 (not_le.2 h'), fun _ => rfl⟩
  · rw [if_neg h]
    have h' : |deltat - m| ≤ 2 / 100 * m := by
      rw [gt_iff_lt, not_lt, div_le_iff₀ hm] at h; exact h
    have := abs_le.1 h'
    refine ⟨by linarith [this.1], by linarith [this.2], fun _ => rfl,
      fun h2 => absurd h2 (not_lt.2 h')⟩

theorem deltatCFL_pos [IsStrictOrderedRing K] {CFL deltatMax tmp : K} (hC : 0 < CFL)
    (hM : 0 < deltatMax) : 0 < deltatCFL CFL deltatMax tmp := by
  unfold deltatCFL; split
  · rename_i h; exact div_pos hC h
  · exact hM

/-- if `d ≤ 1.02 * deltatCFL tmp` and `x ≤ tmp`, `0 ≤ x` then `d * x ≤ 1.02 * CFL` -/
theorem bound_of_le_deltatCFL [IsStrictOrderedRing K] {CFL deltatMax tmp d x : K} (hC : 0 < CFL)
    (hd : 0 ≤ d) (h : d ≤ 102 / 100 * deltatCFL CFL deltatMax tmp) (hx : x ≤ tmp) :
    d * x ≤ 102 / 100 * CFL := by
  unfold deltatCFL at h
  split at h
  · rename_i ht
    have ht' : (0 : K) < tmp := ht
    calc d * x ≤ d * tmp := mul_le_mul_of_nonneg_left hx hd
      _ ≤ (102 / 100 * (CFL / tmp)) * tmp := mul_le_mul_of_nonneg_right h ht'.le
      _ = 102 / 100 * CFL := by field_simp
  · rename_i ht
    have : d * x ≤ 0 := mul_nonpos_of_nonneg_of_nonpos hd (hx.trans (not_lt.1 ht))
    linarith

end Verif.Cfl
