import Verif.Modes.Model
import Verif.Modes.Spec
import Mathlib.Tactic.Ring
import Mathlib.Tactic.Linarith

/-! # Helper lemmas for `Modes` -/

namespace Verif.Modes

theorem assign_spec {I J I' J' A : Type*} [DecidableEq J] (nd : I → Option J)
    (ns : I' → Option J') (inp : J' → A) (ws : List (I × I')) (out : J → A)
    (hv : ∀ w ∈ ws, (∃ d, nd w.1 = some d) ∧ ∃ s, ns w.2 = some s) :
    ∃ o, assign nd ns inp ws out = .ok o ∧
      (∀ j, (∀ w ∈ ws, nd w.1 ≠ some j) → o j = out j) ∧
      (∀ j v, (∃ w ∈ ws, nd w.1 = some j) →
        (∀ w ∈ ws, nd w.1 = some j → ∀ s, ns w.2 = some s → inp s = v) → o j = v) := by
  induction ws generalizing out with
  | nil => exact ⟨out, rfl, fun _ _ => rfl, fun j v h => by simp at h⟩
  | cons w ws ih =>
    obtain ⟨⟨d, hd⟩, s, hs⟩ := hv w (by simp)
    obtain ⟨o, ho, h1, h2⟩ := ih (Function.update out d (inp s))
      (fun w hw => hv w (by simp [hw]))
    obtain ⟨wd, wsr⟩ := w
    refine ⟨o, ?_, ?_, ?_⟩
    · simp only [assign]; simp only at hd hs; rw [hd, hs]; exact ho
    · intro j hj
      have hne : d ≠ j := by
        intro h; exact hj (wd, wsr) (by simp) (by simp only at hd ⊢; rw [hd, h])
      rw [h1 j (fun w hw => hj w (by simp [hw])), Function.update_of_ne (Ne.symm hne)]
    · intro j v hex hall
      by_cases hin : ∃ w ∈ ws, nd w.1 = some j
      · exact h2 j v hin (fun w hw => hall w (by simp [hw]))
      · have hj : ∀ w ∈ ws, nd w.1 ≠ some j := fun w hw h => hin ⟨w, hw, h⟩
        obtain ⟨w, hw, hwj⟩ := hex
        rcases List.mem_cons.1 hw with rfl | hw
        · simp only at hd hs hwj
          have : d = j := by rw [hd] at hwj; exact Option.some.inj hwj
          subst this
          rw [h1 d hj, Function.update_self]
          exact hall (wd, wsr) (by simp) hd s hs
        · exact absurd hwj (hj w hw)

theorem pyIdx_nonneg {n : ℕ} {i : ℤ} (h0 : 0 ≤ i) (h : i < n) : pyIdx n i = some i.toNat := by
  simp [pyIdx, h0, h]

theorem pyIdx_nat {n i : ℕ} (h : i < n) : pyIdx n (i : ℤ) = some i := by
  rw [pyIdx_nonneg (by omega) (by omega)]; simp

theorem pyIdx_neg {n i : ℕ} (h0 : 0 < i) (h : i ≤ n) : pyIdx n (-(i : ℤ)) = some (n - i) := by
  simp only [pyIdx]
  rw [if_neg (by omega), if_pos (by omega)]
  congr 1; omega

theorem pyIdx_eq_some {n j : ℕ} {i : ℤ} :
    pyIdx n i = some j ↔ j < n ∧ ((i : ℤ) = j ∨ i = (j : ℤ) - n) := by
  simp only [pyIdx]
  split_ifs with h1 h2
  · rw [Option.some.injEq]; omega
  · rw [Option.some.injEq]; omega
  · constructor
    · intro h; cases h
    · intro h; omega

theorem pyIdx2_eq_some {sh : ℕ × ℕ} {i : ℤ × ℤ} {j : ℕ × ℕ} :
    pyIdx2 sh i = some j ↔ pyIdx sh.1 i.1 = some j.1 ∧ pyIdx sh.2 i.2 = some j.2 := by
  obtain ⟨a, b⟩ := j
  simp only [pyIdx2]
  rcases pyIdx sh.1 i.1 with _ | x <;> rcases pyIdx sh.2 i.2 with _ | y <;> simp

theorem pyIdx3_eq_some {sh : ℕ × ℕ × ℕ} {i : ℤ × ℤ × ℤ} {j : ℕ × ℕ × ℕ} :
    pyIdx3 sh i = some j ↔ pyIdx sh.1 i.1 = some j.1 ∧ pyIdx sh.2.1 i.2.1 = some j.2.1 ∧
      pyIdx sh.2.2 i.2.2 = some j.2.2 := by
  obtain ⟨a, b, c⟩ := j
  simp only [pyIdx3]
  rcases pyIdx sh.1 i.1 with _ | x <;> rcases pyIdx sh.2.1 i.2.1 with _ | y <;>
    rcases pyIdx sh.2.2 i.2.2 with _ | z <;> simp

theorem holds_iff {n i : ℕ} {k : ℤ} :
    Holds n i k ↔ i < n ∧ ((k = i ∧ 2 * i ≤ n) ∨ (k = (i : ℤ) - n ∧ n < 2 * i)) := by
  constructor
  · rintro ⟨h1, h2, h3, h4⟩
    refine ⟨h1, ?_⟩
    obtain ⟨c, hc⟩ := Int.modEq_iff_dvd.1 h2
    have hn : (0 : ℤ) < n := by omega
    have hc1 : c < 1 := by
      by_contra h
      have : (n : ℤ) * 1 ≤ n * c := mul_le_mul_of_nonneg_left (by omega) hn.le
      omega
    have hc2 : -2 < c := by
      by_contra h
      have : (n : ℤ) * c ≤ n * (-2) := mul_le_mul_of_nonneg_left (by omega) hn.le
      omega
    have : c = 0 ∨ c = -1 := by omega
    rcases this with rfl | rfl
    · left; omega
    · right; omega
  · rintro ⟨h1, ⟨rfl, h2⟩ | ⟨rfl, h2⟩⟩
    · exact ⟨h1, Int.ModEq.refl _, by omega, by omega⟩
    · refine ⟨h1, Int.modEq_iff_dvd.2 ⟨-1, by ring⟩, by omega, by omega⟩

theorem holds_unique {n i j : ℕ} {k : ℤ} (h : Holds n i k) (h' : Holds n j k) : i = j := by
  rw [holds_iff] at h h'; omega

/-- The relation between output and input row of the assignments made along one full axis. -/
def AxisCopy (nI nO : ℕ) (d s : ℤ) : Prop :=
  (d = s ∧ 0 ≤ d ∧ d ≤ ((min nO nI / 2 : ℕ) : ℤ)) ∨
  (d = s ∧ d < 0 ∧ -((min nO nI / 2 : ℕ) : ℤ) < d)

theorem axisCopy_valid {nI nO : ℕ} (hI : 0 < nI) (hO : 0 < nO) {d s : ℤ}
    (h : AxisCopy nI nO d s) : (∃ a, pyIdx nO d = some a) ∧ ∃ b, pyIdx nI s = some b := by
  have hm1 : min nO nI ≤ nO := min_le_left _ _
  have hm2 : min nO nI ≤ nI := min_le_right _ _
  have hm0 : 0 < min nO nI := by simp [hI, hO]
  rcases h with ⟨rfl, h1, h2⟩ | ⟨rfl, h1, h2⟩
  · refine ⟨⟨d.toNat, ?_⟩, ⟨d.toNat, ?_⟩⟩ <;> rw [pyIdx_eq_some] <;> omega
  · refine ⟨⟨(nO + d).toNat, ?_⟩, ⟨(nI + d).toNat, ?_⟩⟩ <;> rw [pyIdx_eq_some] <;> omega

/-- If the rows of an assignment are the rows of one wavenumber on the output grid, they are so
on the input grid. -/
theorem axisCopy_same {nI nO : ℕ} {d s : ℤ} {a b : ℕ} (h : AxisCopy nI nO d s)
    (ha : pyIdx nO d = some a) (hb : pyIdx nI s = some b) {k : ℤ} (hk : Holds nO a k) :
    Holds nI b k := by
  have hm1 : min nO nI ≤ nO := min_le_left _ _
  have hm2 : min nO nI ≤ nI := min_le_right _ _
  rw [pyIdx_eq_some] at ha hb
  rw [holds_iff] at hk ⊢
  rcases h with ⟨rfl, h1, h2⟩ | ⟨rfl, h1, h2⟩ <;> omega

/-- Every wavenumber present on both grids is copied, except `-(n-1)/2` when the smaller size
`n` is odd. -/
theorem axisCopy_exists {nI nO a b : ℕ} {k : ℤ} (ha : Holds nO a k) (hb : Holds nI b k)
    (hk : 2 * k ≠ 1 - ((min nO nI : ℕ) : ℤ) ∨ k = 0) :
    ∃ d s, AxisCopy nI nO d s ∧ pyIdx nO d = some a ∧ pyIdx nI s = some b := by
  have hm : min nO nI = nO ∨ min nO nI = nI := by
    rcases le_total nO nI with h | h
    · left; exact min_eq_left h
    · right; exact min_eq_right h
  rw [holds_iff] at ha hb
  refine ⟨k, k, ?_, ?_, ?_⟩
  · by_cases h0 : 0 ≤ k
    · left; refine ⟨rfl, h0, ?_⟩
      rcases hm with h | h <;> rw [h] <;> omega
    · right; refine ⟨rfl, by omega, ?_⟩
      rcases hm with h | h <;> rw [h] at hk ⊢ <;> omega
  · rw [pyIdx_eq_some]; omega
  · rw [pyIdx_eq_some]; omega

theorem mem_writes2d {nI nO : ℕ × ℕ} {w : (ℤ × ℤ) × (ℤ × ℤ)} :
    w ∈ writes2d nI nO ↔ AxisCopy nI.1 nO.1 w.1.1 w.2.1 ∧
      ∃ j : ℕ, j < min nO.2 nI.2 ∧ w.1.2 = j ∧ w.2.2 = j := by
  obtain ⟨⟨d0, d1⟩, s0, s1⟩ := w
  simp only [writes2d, List.mem_append, List.mem_flatMap, List.mem_range, List.mem_cons,
    List.not_mem_nil, or_false, Prod.mk.injEq, List.mem_range'_1]
  constructor
  · rintro (⟨j, hj, ⟨⟨rfl, rfl⟩, rfl, rfl⟩ | ⟨⟨rfl, rfl⟩, rfl, rfl⟩⟩ |
      ⟨i0, hi, j, hj, ⟨⟨rfl, rfl⟩, rfl, rfl⟩ | ⟨⟨rfl, rfl⟩, rfl, rfl⟩⟩)
    · exact ⟨Or.inl ⟨rfl, by omega, by omega⟩, j, hj, rfl, rfl⟩
    · exact ⟨Or.inl ⟨rfl, by omega, by omega⟩, j, hj, rfl, rfl⟩
    · exact ⟨Or.inl ⟨rfl, by omega, by omega⟩, j, hj, rfl, rfl⟩
    · exact ⟨Or.inr ⟨rfl, by omega, by omega⟩, j, hj, rfl, rfl⟩
  · rintro ⟨⟨rfl, h1, h2⟩ | ⟨rfl, h1, h2⟩, j, hj, rfl, rfl⟩
    · by_cases h0 : d0 = 0
      · left; exact ⟨j, hj, Or.inl ⟨⟨h0, rfl⟩, h0, rfl⟩⟩
      · by_cases hm : d0 = ((min nO.1 nI.1 / 2 : ℕ) : ℤ)
        · left; exact ⟨j, hj, Or.inr ⟨⟨hm, rfl⟩, hm, rfl⟩⟩
        · right
          exact ⟨d0.toNat, by omega, j, hj, Or.inl ⟨⟨by omega, rfl⟩, by omega, rfl⟩⟩
    · right
      exact ⟨(-d0).toNat, by omega, j, hj, Or.inr ⟨⟨by omega, rfl⟩, by omega, rfl⟩⟩

theorem mem_writes3dMini {nI nO : ℕ × ℕ × ℕ} {w : (ℤ × ℤ × ℤ) × (ℤ × ℤ × ℤ)} :
    w ∈ writes3dMini nI nO ↔ AxisCopy nI.1 nO.1 w.1.1 w.2.1 ∧
      AxisCopy nI.2.1 nO.2.1 w.1.2.1 w.2.2.1 ∧
      ∃ j : ℕ, j < min nO.2.2 nI.2.2 ∧ w.1.2.2 = j ∧ w.2.2.2 = j := by
  obtain ⟨⟨d0, d1, d2⟩, s0, s1, s2⟩ := w
  simp only [writes3dMini, List.mem_append, List.mem_flatMap, List.mem_range, List.mem_cons,
    List.not_mem_nil, or_false, Prod.mk.injEq]
  constructor
  · rintro ⟨i0, h0, i1, h1, i2, h2, (h | h) | h⟩
    · obtain ⟨⟨rfl, rfl, rfl⟩, rfl, rfl, rfl⟩ := h
      exact ⟨Or.inl ⟨rfl, by omega, by omega⟩, Or.inl ⟨rfl, by omega, by omega⟩, i2, h2, rfl, rfl⟩
    · split_ifs at h with ha hb
      · simp only [List.mem_append, List.mem_cons, List.not_mem_nil, or_false,
          Prod.mk.injEq] at h
        rcases h with h | h
        · obtain ⟨⟨rfl, rfl, rfl⟩, rfl, rfl, rfl⟩ := h
          exact ⟨Or.inr ⟨rfl, by omega, by omega⟩, Or.inl ⟨rfl, by omega, by omega⟩, i2, h2,
            rfl, rfl⟩
        · obtain ⟨⟨rfl, rfl, rfl⟩, rfl, rfl, rfl⟩ := h
          exact ⟨Or.inr ⟨rfl, by omega, by omega⟩, Or.inr ⟨rfl, by omega, by omega⟩, i2, h2,
            rfl, rfl⟩
      · simp only [List.mem_append, List.mem_cons, List.not_mem_nil, or_false,
          Prod.mk.injEq] at h
        obtain ⟨⟨rfl, rfl, rfl⟩, rfl, rfl, rfl⟩ := h
        exact ⟨Or.inr ⟨rfl, by omega, by omega⟩, Or.inl ⟨rfl, by omega, by omega⟩, i2, h2,
          rfl, rfl⟩
      · simp at h
    · split_ifs at h with hb
      · simp only [List.mem_cons, List.not_mem_nil, or_false, Prod.mk.injEq] at h
        obtain ⟨⟨rfl, rfl, rfl⟩, rfl, rfl, rfl⟩ := h
        exact ⟨Or.inl ⟨rfl, by omega, by omega⟩, Or.inr ⟨rfl, by omega, by omega⟩, i2, h2,
          rfl, rfl⟩
      · simp at h
  · rintro ⟨⟨rfl, h1, h2⟩ | ⟨rfl, h1, h2⟩, ⟨rfl, h3, h4⟩ | ⟨rfl, h3, h4⟩, j, hj, rfl, rfl⟩
    · refine ⟨d0.toNat, by omega, d1.toNat, by omega, j, hj, Or.inl (Or.inl ?_)⟩
      exact ⟨⟨by omega, by omega, rfl⟩, by omega, by omega, rfl⟩
    · refine ⟨d0.toNat, by omega, (-d1).toNat, by omega, j, hj, Or.inr ?_⟩
      rw [if_pos (by omega)]
      simp only [List.mem_cons, List.not_mem_nil, or_false, Prod.mk.injEq]
      exact ⟨⟨by omega, by omega, trivial⟩, by omega, by omega, trivial⟩
    · refine ⟨(-d0).toNat, by omega, d1.toNat, by omega, j, hj, Or.inl (Or.inr ?_)⟩
      rw [if_pos (by omega)]
      simp only [List.mem_append, List.mem_cons, List.not_mem_nil, or_false, Prod.mk.injEq]
      exact Or.inl ⟨⟨by omega, by omega, trivial⟩, by omega, by omega, trivial⟩
    · refine ⟨(-d0).toNat, by omega, (-d1).toNat, by omega, j, hj, Or.inl (Or.inr ?_)⟩
      rw [if_pos (by omega), if_pos (by omega)]
      simp only [List.mem_append, List.mem_cons, List.not_mem_nil, or_false, Prod.mk.injEq]
      exact Or.inr ⟨⟨by omega, by omega, trivial⟩, by omega, by omega, trivial⟩

/-- The rows of an assignment of `fill_field_fft_3d` (init_fields) along one full axis. -/
def AxisInit (nI nO : ℕ) (d s : ℤ) : Prop :=
  ∃ i : ℕ, i < min nO nI ∧ s = i ∧ d = ikFromKadim (kadimFromIk i nI) nO

theorem kadim_holds {n i : ℕ} (h : i < n) : Holds n i (kadimFromIk i n) := by
  rw [holds_iff]
  simp only [kadimFromIk, Bool.false_eq_true, false_or]
  split_ifs <;> omega

theorem kadim_eq_iff {n i : ℕ} {k : ℤ} (h : i < n) : kadimFromIk i n = k ↔ Holds n i k := by
  constructor
  · rintro rfl; exact kadim_holds h
  · intro hk
    have h1 := kadim_holds h
    rw [holds_iff] at h1 hk
    omega

theorem pyIdx_ikFromKadim {n i : ℕ} {k : ℤ} (h : Holds n i k) :
    pyIdx n (ikFromKadim k n) = some i := by
  rw [pyIdx_eq_some]
  rw [holds_iff] at h
  simp only [ikFromKadim, Bool.false_eq_true, false_or]
  split_ifs <;> omega

/-- Upscaling: the position of a wavenumber of the input grid in the output one. -/
theorem holds_up {nI nO i : ℕ} {k : ℤ} (hle : nI ≤ nO) (h : Holds nI i k) :
    ∃ j, Holds nO j k := by
  rw [holds_iff] at h
  refine ⟨if 0 ≤ k then k.toNat else (nO + k).toNat, ?_⟩
  rw [holds_iff]
  split_ifs <;> omega

theorem holds_bound {n i : ℕ} {k : ℤ} (h : Holds n i k) : i < n := h.1

theorem mem_writes3dInit {nI nO : ℕ × ℕ × ℕ} {w : (ℤ × ℤ × ℤ) × (ℤ × ℤ × ℤ)} :
    w ∈ writes3dInit nI nO ↔ AxisInit nI.1 nO.1 w.1.1 w.2.1 ∧
      AxisInit nI.2.1 nO.2.1 w.1.2.1 w.2.2.1 ∧
      ∃ j : ℕ, j < min nO.2.2 nI.2.2 ∧ w.1.2.2 = j ∧ w.2.2.2 = j := by
  obtain ⟨⟨d0, d1, d2⟩, s0, s1, s2⟩ := w
  simp only [writes3dInit, List.mem_flatMap, List.mem_range, List.mem_map, Prod.mk.injEq,
    AxisInit]
  constructor
  · rintro ⟨i0, h0, i1, h1, i2, h2, ⟨rfl, rfl, rfl⟩, rfl, rfl, rfl⟩
    exact ⟨⟨i0, h0, rfl, rfl⟩, ⟨i1, h1, rfl, rfl⟩, i2, h2, rfl, rfl⟩
  · rintro ⟨⟨i0, h0, rfl, rfl⟩, ⟨i1, h1, rfl, rfl⟩, i2, h2, rfl, rfl⟩
    exact ⟨i0, h0, i1, h1, i2, h2, ⟨rfl, rfl, rfl⟩, rfl, rfl, rfl⟩

theorem axisInit_valid {nI nO : ℕ} {d s : ℤ} (h : AxisInit nI nO d s) :
    (∃ a, pyIdx nO d = some a) ∧ ∃ b, pyIdx nI s = some b := by
  obtain ⟨i, hi, rfl, rfl⟩ := h
  have h1 : i < nO := lt_of_lt_of_le hi (min_le_left _ _)
  have h2 : i < nI := lt_of_lt_of_le hi (min_le_right _ _)
  refine ⟨?_, i, pyIdx_nat h2⟩
  have : ∃ a : ℕ, pyIdx nO (ikFromKadim (kadimFromIk i nI) nO) = some a := by
    refine ⟨(ikFromKadim (kadimFromIk i nI) nO).toNat, ?_⟩
    rw [pyIdx_eq_some]
    simp only [ikFromKadim, kadimFromIk, Bool.false_eq_true, false_or]
    split_ifs <;> omega
  exact this

theorem axisInit_same {nI nO : ℕ} (hle : nI ≤ nO) {d s : ℤ} {a b : ℕ} (h : AxisInit nI nO d s)
    (ha : pyIdx nO d = some a) (hb : pyIdx nI s = some b) {k : ℤ} (hk : Holds nO a k) :
    Holds nI b k := by
  obtain ⟨i, hi, rfl, rfl⟩ := h
  have h2 : i < nI := lt_of_lt_of_le hi (min_le_right _ _)
  rw [pyIdx_nat h2] at hb
  cases hb
  obtain ⟨j, hj⟩ := holds_up hle (kadim_holds h2)
  rw [pyIdx_ikFromKadim hj] at ha
  cases ha
  have : k = kadimFromIk b nI := by
    rw [holds_iff] at hj hk; omega
  rw [this]; exact kadim_holds h2

theorem axisInit_exists {nI nO a b : ℕ} (hle : nI ≤ nO) {k : ℤ} (ha : Holds nO a k)
    (hb : Holds nI b k) :
    ∃ d s, AxisInit nI nO d s ∧ pyIdx nO d = some a ∧ pyIdx nI s = some b := by
  have h1 := hb.1
  refine ⟨ikFromKadim (kadimFromIk b nI) nO, b, ⟨b, ?_, rfl, rfl⟩, ?_, pyIdx_nat h1⟩
  · rw [min_eq_right hle]; exact h1
  · rw [(kadim_eq_iff h1).2 hb]; exact pyIdx_ikFromKadim ha

/-- From per-axis facts to the 2D statement. `ex k` says that wavenumber `k` is not excluded. -/
theorem fill2_of_axis {A : Type*} [Zero A] {nI nO : ℕ × ℕ} {ws : List ((ℤ × ℤ) × (ℤ × ℤ))}
    {R : ℤ → ℤ → Prop} {ex : ℤ → Prop}
    (hmem : ∀ w, w ∈ ws ↔ R w.1.1 w.2.1 ∧ ∃ j : ℕ, j < min nO.2 nI.2 ∧ w.1.2 = j ∧ w.2.2 = j)
    (hval : ∀ d s, R d s → (∃ a, pyIdx nO.1 d = some a) ∧ ∃ b, pyIdx nI.1 s = some b)
    (hsame : ∀ d s a b k, R d s → pyIdx nO.1 d = some a → pyIdx nI.1 s = some b →
      Holds nO.1 a k → Holds nI.1 b k)
    (hex : ∀ a b k, ex k → Holds nO.1 a k → Holds nI.1 b k →
      ∃ d s, R d s ∧ pyIdx nO.1 d = some a ∧ pyIdx nI.1 s = some b)
    (f : ℕ × ℕ → A) :
    ∃ o, assign (pyIdx2 nO) (pyIdx2 nI) f ws (fun _ => 0) = .ok o ∧
      ∀ ky kx j0 j1, Holds nO.1 j0 ky → HoldsHalf nO.2 j1 kx →
      (∀ i0 i1, ex ky → Holds nI.1 i0 ky → HoldsHalf nI.2 i1 kx → o (j0, j1) = f (i0, i1)) ∧
      ((¬ ∃ i0 i1, Holds nI.1 i0 ky ∧ HoldsHalf nI.2 i1 kx) → o (j0, j1) = 0) := by
  obtain ⟨o, ho, h1, h2⟩ := assign_spec (pyIdx2 nO) (pyIdx2 nI) f ws (fun _ => 0) (by
    intro w hw
    obtain ⟨hR, j, hj, e1, e2⟩ := (hmem w).1 hw
    obtain ⟨⟨a, ha⟩, b, hb⟩ := hval _ _ hR
    have hj1 : j < nO.2 := lt_of_lt_of_le hj (min_le_left _ _)
    have hj2 : j < nI.2 := lt_of_lt_of_le hj (min_le_right _ _)
    exact ⟨⟨(a, j), pyIdx2_eq_some.2 ⟨ha, by rw [e1]; exact pyIdx_nat hj1⟩⟩,
      ⟨(b, j), pyIdx2_eq_some.2 ⟨hb, by rw [e2]; exact pyIdx_nat hj2⟩⟩⟩)
  refine ⟨o, ho, ?_⟩
  rintro ky kx j0 j1 hy ⟨hx, rfl⟩
  constructor
  · rintro i0 i1 hexk hy' ⟨hx', he⟩
    have : i1 = j1 := by exact_mod_cast he
    subst this
    refine h2 _ _ ?_ ?_
    · obtain ⟨d, s, hR, hd, hs⟩ := hex _ _ _ hexk hy hy'
      exact ⟨((d, i1), (s, i1)), (hmem _).2 ⟨hR, i1, lt_min hx hx', rfl, rfl⟩,
        pyIdx2_eq_some.2 ⟨hd, pyIdx_nat hx⟩⟩
    · intro w hw hwd s hs
      obtain ⟨hR, j, hj, e1, e2⟩ := (hmem w).1 hw
      rw [pyIdx2_eq_some] at hwd hs
      obtain ⟨s0, s1⟩ := s
      have hH := hsame _ _ _ _ _ hR hwd.1 hs.1 hy
      have e3 : s0 = i0 := holds_unique hH hy'
      have hj1 : j < nO.2 := lt_of_lt_of_le hj (min_le_left _ _)
      have hj2 : j < nI.2 := lt_of_lt_of_le hj (min_le_right _ _)
      have e4 := hwd.2
      rw [e1, pyIdx_nat hj1] at e4
      have e5 := hs.2
      rw [e2, pyIdx_nat hj2] at e5
      simp only [Option.some.injEq] at e4 e5
      rw [e3, ← e5, e4]
  · intro hno
    refine h1 _ ?_
    intro w hw hwd
    obtain ⟨hR, j, hj, e1, e2⟩ := (hmem w).1 hw
    rw [pyIdx2_eq_some] at hwd
    obtain ⟨-, b, hb⟩ := hval _ _ hR
    have hH := hsame _ _ _ _ _ hR hwd.1 hb hy
    have hj1 : j < nO.2 := lt_of_lt_of_le hj (min_le_left _ _)
    have hj2 : j < nI.2 := lt_of_lt_of_le hj (min_le_right _ _)
    have e4 := hwd.2
    rw [e1, pyIdx_nat hj1] at e4
    simp only [Option.some.injEq] at e4
    exact hno ⟨b, j1, hH, e4 ▸ hj2, rfl⟩

/-- From per-axis facts to the 3D statement. -/
theorem fill3_of_axis {A : Type*} [Zero A] {nI nO : ℕ × ℕ × ℕ}
    {ws : List ((ℤ × ℤ × ℤ) × (ℤ × ℤ × ℤ))}
    {R : ℕ → ℕ → ℤ → ℤ → Prop} {ex : ℕ → ℕ → ℤ → Prop} {ok : ℕ → ℕ → Prop}
    (hmem : ∀ w, w ∈ ws ↔ R nI.1 nO.1 w.1.1 w.2.1 ∧ R nI.2.1 nO.2.1 w.1.2.1 w.2.2.1 ∧
      ∃ j : ℕ, j < min nO.2.2 nI.2.2 ∧ w.1.2.2 = j ∧ w.2.2.2 = j)
    (hval : ∀ mI mO d s, ok mI mO → R mI mO d s →
      (∃ a, pyIdx mO d = some a) ∧ ∃ b, pyIdx mI s = some b)
    (hsame : ∀ mI mO d s a b k, ok mI mO → R mI mO d s → pyIdx mO d = some a →
      pyIdx mI s = some b → Holds mO a k → Holds mI b k)
    (hex : ∀ mI mO a b k, ok mI mO → ex mI mO k → Holds mO a k → Holds mI b k →
      ∃ d s, R mI mO d s ∧ pyIdx mO d = some a ∧ pyIdx mI s = some b)
    (ok0 : ok nI.1 nO.1) (ok1 : ok nI.2.1 nO.2.1)
    (f : ℕ × ℕ × ℕ → A) :
    ∃ o, assign (pyIdx3 nO) (pyIdx3 nI) f ws (fun _ => 0) = .ok o ∧
      ∀ kz ky kx j0 j1 j2, Holds nO.1 j0 kz → Holds nO.2.1 j1 ky → HoldsHalf nO.2.2 j2 kx →
      (∀ i0 i1 i2, ex nI.1 nO.1 kz → ex nI.2.1 nO.2.1 ky → Holds nI.1 i0 kz →
        Holds nI.2.1 i1 ky → HoldsHalf nI.2.2 i2 kx → o (j0, j1, j2) = f (i0, i1, i2)) ∧
      ((¬ ∃ i0 i1 i2, Holds nI.1 i0 kz ∧ Holds nI.2.1 i1 ky ∧ HoldsHalf nI.2.2 i2 kx) →
        o (j0, j1, j2) = 0) := by
  obtain ⟨o, ho, h1, h2⟩ := assign_spec (pyIdx3 nO) (pyIdx3 nI) f ws (fun _ => 0) (by
    intro w hw
    obtain ⟨hR, hR', j, hj, e1, e2⟩ := (hmem w).1 hw
    obtain ⟨⟨a, ha⟩, b, hb⟩ := hval _ _ _ _ ok0 hR
    obtain ⟨⟨a', ha'⟩, b', hb'⟩ := hval _ _ _ _ ok1 hR'
    have hj1 : j < nO.2.2 := lt_of_lt_of_le hj (min_le_left _ _)
    have hj2 : j < nI.2.2 := lt_of_lt_of_le hj (min_le_right _ _)
    exact ⟨⟨(a, a', j), pyIdx3_eq_some.2 ⟨ha, ha', by rw [e1]; exact pyIdx_nat hj1⟩⟩,
      ⟨(b, b', j), pyIdx3_eq_some.2 ⟨hb, hb', by rw [e2]; exact pyIdx_nat hj2⟩⟩⟩)
  refine ⟨o, ho, ?_⟩
  rintro kz ky kx j0 j1 j2 hz hy ⟨hx, rfl⟩
  constructor
  · rintro i0 i1 i2 hexz hexy hz' hy' ⟨hx', he⟩
    have : i2 = j2 := by exact_mod_cast he
    subst this
    refine h2 _ _ ?_ ?_
    · obtain ⟨d, s, hR, hd, hs⟩ := hex _ _ _ _ _ ok0 hexz hz hz'
      obtain ⟨d', s', hR', hd', hs'⟩ := hex _ _ _ _ _ ok1 hexy hy hy'
      exact ⟨((d, d', i2), (s, s', i2)),
        (hmem _).2 ⟨hR, hR', i2, lt_min hx hx', rfl, rfl⟩,
        pyIdx3_eq_some.2 ⟨hd, hd', pyIdx_nat hx⟩⟩
    · intro w hw hwd s hs
      obtain ⟨hR, hR', j, hj, e1, e2⟩ := (hmem w).1 hw
      rw [pyIdx3_eq_some] at hwd hs
      obtain ⟨s0, s1, s2⟩ := s
      have hH := hsame _ _ _ _ _ _ _ ok0 hR hwd.1 hs.1 hz
      have hH' := hsame _ _ _ _ _ _ _ ok1 hR' hwd.2.1 hs.2.1 hy
      have e3 : s0 = i0 := holds_unique hH hz'
      have e3' : s1 = i1 := holds_unique hH' hy'
      have hj1 : j < nO.2.2 := lt_of_lt_of_le hj (min_le_left _ _)
      have hj2 : j < nI.2.2 := lt_of_lt_of_le hj (min_le_right _ _)
      have e4 := hwd.2.2
      rw [e1, pyIdx_nat hj1] at e4
      have e5 := hs.2.2
      rw [e2, pyIdx_nat hj2] at e5
      simp only [Option.some.injEq] at e4 e5
      rw [e3, e3', ← e5, e4]
  · intro hno
    refine h1 _ ?_
    intro w hw hwd
    obtain ⟨hR, hR', j, hj, e1, e2⟩ := (hmem w).1 hw
    rw [pyIdx3_eq_some] at hwd
    obtain ⟨-, b, hb⟩ := hval _ _ _ _ ok0 hR
    obtain ⟨-, b', hb'⟩ := hval _ _ _ _ ok1 hR'
    have hH := hsame _ _ _ _ _ _ _ ok0 hR hwd.1 hb hz
    have hH' := hsame _ _ _ _ _ _ _ ok1 hR' hwd.2.1 hb' hy
    have hj1 : j < nO.2.2 := lt_of_lt_of_le hj (min_le_left _ _)
    have hj2 : j < nI.2.2 := lt_of_lt_of_le hj (min_le_right _ _)
    have e4 := hwd.2.2
    rw [e1, pyIdx_nat hj1] at e4
    simp only [Option.some.injEq] at e4
    exact hno ⟨b, b', j2, hH, hH', e4 ▸ hj2, rfl⟩

/-! ### Lookup -/

theorem roundEven_near {K : Type*} [Field K] [LinearOrder K] [IsStrictOrderedRing K]
    [FloorRing K] (x : K) : |x - roundEven x| ≤ 1 / 2 := by
  have h1 := Int.floor_le x
  have h2 := Int.lt_floor_add_one x
  simp only [roundEven]
  rw [abs_le]
  split_ifs with a b c
  · constructor <;> linarith
  · push_cast; constructor <;> linarith
  · constructor <;> linarith
  · push_cast; constructor <;> linarith

theorem nearest_of_half {K : Type*} [Field K] [LinearOrder K] [IsStrictOrderedRing K]
    {x : K} {m : ℤ} (h : |x - m| ≤ 1 / 2) (j : ℤ) : |x - m| ≤ |x - j| := by
  by_cases e : j = m
  · rw [e]
  · have h1 : (1 : K) ≤ |(j : K) - m| := by
      have : (1 : ℤ) ≤ |j - m| := Int.one_le_abs (sub_ne_zero.2 e)
      calc (1 : K) = ((1 : ℤ) : K) := by simp
        _ ≤ ((|j - m| : ℤ) : K) := by exact_mod_cast this
        _ = |(j : K) - m| := by push_cast; rfl
    have h2 : |(j : K) - m| ≤ |x - m| + |x - j| := by
      calc |(j : K) - m| = |(x - m) - (x - j)| := by congr 1; ring
        _ ≤ _ := abs_sub _ _
    linarith

theorem closest_scaled {K : Type*} [Field K] [LinearOrder K] [IsStrictOrderedRing K]
    [FloorRing K] {x δ : K} (hδ : 0 < δ) (j : ℤ) :
    |x - roundEven (x / δ) * δ| ≤ |x - j * δ| := by
  have h := nearest_of_half (roundEven_near (x / δ)) j
  have e : ∀ m : ℤ, |x - m * δ| = |x / δ - m| * δ := by
    intro m
    rw [← abs_of_pos hδ, ← abs_mul, abs_of_pos hδ, sub_mul, div_mul_cancel₀ _ hδ.ne']
  rw [e, e]
  exact mul_le_mul_of_nonneg_right h hδ.le

theorem whileRank_spec {n p : ℕ} {start : ℕ → ℕ} (hl : SlabLayout n p start) {i : ℕ}
    (hi : i < n) : ∀ fuel r, r < p → start r ≤ i → p ≤ fuel + r →
      let q := whileRank start p i fuel r
      q < p ∧ start q ≤ i ∧ i < start (q + 1) := by
  intro fuel
  induction fuel with
  | zero => intro r h1 h2 h3; omega
  | succ fuel ih =>
    intro r h1 h2 h3
    simp only [whileRank]
    split_ifs with h
    · have h4 : start (r + 1) ≤ i := by
        obtain ⟨_, h⟩ := h
        by_contra hc
        exact h ⟨by exact_mod_cast h2, by push Not at hc; exact_mod_cast hc⟩
      exact ih (r + 1) (by omega) h4 (by omega)
    · refine ⟨h1, h2, ?_⟩
      by_cases hr : r < p - 1
      · by_contra hc
        push Not at hc
        exact h ⟨hr, fun ⟨_, h'⟩ => by omega⟩
      · have : r + 1 = p := by omega
        rw [this, hl.last]; exact hi

theorem forRank_spec {n p : ℕ} {start : ℕ → ℕ} (hl : SlabLayout n p start) {i : ℕ}
    (hi : i < n) : ∀ left r, 0 < r → left + r = p → start (r - 1) ≤ i →
      let q := forRank start i left r
      q < p ∧ start q ≤ i ∧ i < start (q + 1) := by
  intro left
  induction left with
  | zero =>
    intro r h0 h1 h2
    simp only [forRank]
    refine ⟨by omega, h2, ?_⟩
    have : r - 1 + 1 = p := by omega
    rw [this, hl.last]; exact hi
  | succ left ih =>
    intro r h0 h1 h2
    simp only [forRank]
    split_ifs with h
    · refine ⟨by omega, h2, ?_⟩
      have : r - 1 + 1 = r := by omega
      rw [this]; exact h
    · exact ih (r + 1) (by omega) (by omega) (by simpa using Nat.le_of_not_lt h)

end Verif.Modes
