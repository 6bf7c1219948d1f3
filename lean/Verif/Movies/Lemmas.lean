import Verif.Movies.Spec
import Mathlib.Tactic.Linarith
import Mathlib.Tactic.FieldSimp
import Mathlib.Tactic.Ring
import Mathlib.Tactic.Positivity

/-! Lemmas for C71. -/

namespace Verif.Movies

set_option linter.unusedSectionVars false

variable {Q : Type*} [Field Q] [LinearOrder Q] [IsStrictOrderedRing Q] [FloorRing Q]

theorem arange_until (a b d : Q) (hd : 0 < d) (hab : a ≤ b) : ∃ l, arange a b d = .ok l ∧ Until a b d l := by
  refine ⟨_, by rw [arange, if_neg hd.ne'], ?_, ?_⟩
  · intro i
    rw [List.length_map, List.length_range]
    have h0 : 0 ≤ (b - a) / d := div_nonneg (sub_nonneg.2 hab) hd.le
    have h1 : (0 : ℤ) ≤ ⌈(b - a) / d⌉ := Int.ceil_nonneg h0
    rw [Int.lt_toNat, Int.lt_ceil, lt_div_iff₀ hd]
    push_cast
    constructor <;> intro h <;> linarith
  · intro i hi
    rw [List.length_map, List.length_range] at hi
    simp [hi]

theorem aniTimes_until (a b d : Q) (hd : 0 < d) (hab : a ≤ b) (hdb : d ≤ b) :
    ∃ l, aniTimes a b d = .ok l ∧ Until a b d l := by
  obtain ⟨l, h1, h2⟩ := arange_until a b d hd hab
  refine ⟨l, ?_, h2⟩
  rw [aniTimes, if_neg (not_lt.2 hab), if_neg (not_lt.2 hdb), h1]

theorem until_mem {a b d : Q} {l : List Q} (h : Until a b d l) (t : Q) :
    t ∈ l ↔ ∃ i : ℕ, t = a + i * d ∧ t < b := by
  rw [List.mem_iff_getElem?]
  constructor
  · rintro ⟨i, hi⟩
    have hlt : i < l.length := (List.getElem?_eq_some_iff.1 hi).1
    have := h.2 i hlt
    rw [hi, Option.some.injEq] at this
    exact ⟨i, this, this ▸ (h.1 i).1 hlt⟩
  · rintro ⟨i, rfl, hlt⟩
    exact ⟨i, h.2 i ((h.1 i).2 hlt)⟩

theorem until_length_ge {a b d : Q} {l : List Q} (h : Until a b d l) (n : ℕ) (hn : a + n * d < b) : n + 1 ≤ l.length :=
  (h.1 n).2 hn

theorem diffs_regular (t0 d : Q) (n : ℕ) : diffs (regular t0 d (n + 1)) = List.replicate n d := by
  have gen : ∀ (n s : ℕ), diffs ((List.range' s (n + 1)).map fun i : ℕ => t0 + (i : Q) * d) = List.replicate n d := by
    intro n
    induction n with
    | zero => intro s; simp [diffs]
    | succ n ih =>
      intro s
      have h1 : List.range' s (n + 1 + 1) = s :: (s + 1) :: List.range' (s + 1 + 1) n := by
        rw [List.range'_succ, List.range'_succ]
      have h2 : List.range' (s + 1) (n + 1) = (s + 1) :: List.range' (s + 1 + 1) n := by
        rw [List.range'_succ]
      have h3 := ih (s + 1)
      rw [h2, List.map_cons] at h3
      rw [h1, List.map_cons, List.map_cons, diffs, h3, List.replicate_succ]
      congr 1
      push_cast; ring
  have := gen n 0
  rwa [← List.range_eq_range'] at this

theorem median_replicate (d : Q) (n : ℕ) (hn : 0 < n) : median (List.replicate n d) = some d := by
  have hs : (List.replicate n d).mergeSort (fun a b => decide (a ≤ b)) = List.replicate n d := by
    apply List.mergeSort_of_pairwise
    rw [List.pairwise_replicate]
    simp
  have h1 : (n - 1) / 2 < n := by omega
  have h2 : n / 2 < n := by omega
  have e1 : (List.replicate n d).getD ((n - 1) / 2) 0 = d := by simp [h1]
  have e2 : (List.replicate n d).getD (n / 2) 0 = d := by simp [h2]
  unfold median
  rw [List.length_replicate, if_neg (by omega)]
  simp only [hs, e1, e2]
  rw [← two_mul, mul_div_assoc, mul_div_cancel₀]
  norm_num

theorem regular_get (t0 d : Q) (n i : ℕ) (hi : i < n) : (regular t0 d n)[i]? = some (t0 + i * d) := by
  simp [regular, hi]

theorem regular_max (t0 d : Q) (n : ℕ) (hd : 0 ≤ d) : (regular t0 d (n + 1)).max? = some (t0 + n * d) := by
  rw [List.max?_eq_some_iff]
  refine ⟨List.mem_of_getElem? (regular_get t0 d (n + 1) n (by omega)), fun t ht => ?_⟩
  simp only [regular, List.mem_map, List.mem_range] at ht
  obtain ⟨i, hi, rfl⟩ := ht
  have : (i : Q) ≤ n := by exact_mod_cast Nat.le_of_lt_succ hi
  have := mul_le_mul_of_nonneg_right this hd
  linarith

theorem regular_min (t0 d : Q) (n : ℕ) (hd : 0 ≤ d) : (regular t0 d (n + 1)).min? = some t0 := by
  rw [List.min?_eq_some_iff]
  refine ⟨?_, fun t ht => ?_⟩
  · have := List.mem_of_getElem? (regular_get t0 d (n + 1) 0 (by omega))
    simpa using this
  · simp only [regular, List.mem_map, List.mem_range] at ht
    obtain ⟨i, hi, rfl⟩ := ht
    have : (0 : Q) ≤ (i : Q) * d := mul_nonneg (by positivity) hd
    linarith

theorem regular_head (t0 d : Q) (n : ℕ) : (regular t0 d (n + 1)).headD 0 = t0 := by
  simp [regular, List.range_succ_eq_map]

theorem regular_last (t0 d : Q) (n : ℕ) : (regular t0 d (n + 1)).getLastD 0 = t0 + n * d := by
  simp [regular, List.range_succ]

end Verif.Movies
