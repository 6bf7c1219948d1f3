import Verif.SpecFigs.Model
import Verif.SpecFigs.Spec
import Verif.PhysFiles.Lemmas
import Verif.Increm.Props

namespace Verif.SpecFigs

open Verif.PhysFiles (closest closest_spec)
open Verif.Increm (npRound npRound_intCast)

theorem isClosest_closest {times : List ℝ} (h : times ≠ []) (t : ℝ) : IsClosest times t (closest times t) := closest_spec times t h

theorem IsClosest.lt {times : List ℝ} {t : ℝ} {i : ℕ} (h : IsClosest times t i) : i < times.length := by
  obtain ⟨x, hx, -⟩ := h
  exact (List.getElem?_eq_some_iff.1 hx).1

theorem IsClosest.eq {times : List ℝ} {t : ℝ} {i : ℕ} (h : IsClosest times t i) : closest times t = i := by
  have hne : times ≠ [] := by rintro rfl; simpa using h.lt
  obtain ⟨x, hx, h1, h2⟩ := h
  obtain ⟨y, hy, h3, h4⟩ := isClosest_closest hne t
  rcases lt_trichotomy (closest times t) i with hlt | he | hlt
  · exact absurd (h2 _ y hlt hy) (not_lt.2 (h3 x (List.mem_of_getElem? hx)))
  · exact he
  · exact absurd (h4 _ x hlt hx) (not_lt.2 (h1 y (List.mem_of_getElem? hy)))

theorem slice_records {m : ℕ} {times : List ℝ} {l : List (Fin m → ℝ)} {s : ℕ → Fin m → ℝ} (h : Records times l s) {i0 i1 : ℕ}
    (h1 : i1 < times.length) : slice l i0 i1 = (List.range' i0 (i1 + 1 - i0)).map s := by
  rw [h, slice, ← List.map_take, ← List.map_drop, List.take_range, min_eq_left (by omega), List.range_eq_range', List.drop_range']
  simp

theorem average_records {m : ℕ} {times : List ℝ} {l : List (Fin m → ℝ)} {s : ℕ → Fin m → ℝ} (h : Records times l s) {i0 i1 : ℕ}
    (h0 : i0 ≤ i1) (h1 : i1 < times.length) (i : Fin m) : average (slice l i0 i1) i = some (timeMean s i0 i1 i) := by
  rw [slice_records h h1, average, if_neg (by simp; omega), timeMean]
  congr 2
  · rw [List.map_map]
    have e := List.sum_toFinset (fun j => s j i) (List.nodup_range' (s := i0) (n := i1 + 1 - i0))
    rw [List.toFinset_range'_1] at e
    rw [show Finset.Icc i0 i1 = Finset.Ico i0 (i0 + (i1 + 1 - i0)) by ext; simp only [Finset.mem_Icc, Finset.mem_Ico]; omega, e]
    rfl
  · simp

theorem meanStep_regular {times : List ℝ} {t0 τ : ℝ} (h : Regular times t0 τ) (h2 : 2 ≤ times.length) : meanStep times = τ := by
  have e : List.zipWith (fun a b => b - a) times times.tail = List.replicate (times.length - 1) τ := by
    unfold Regular at h
    generalize times.length = N at h
    subst h
    refine List.ext_getElem (by simp) fun i h1 h2 => ?_
    simp only [List.getElem_zipWith, List.getElem_map, List.getElem_range, List.getElem_tail, List.getElem_replicate]
    push_cast
    ring
  have : ((times.length - 1 : ℕ) : ℝ) ≠ 0 := by exact_mod_cast (by omega : times.length - 1 ≠ 0)
  rw [meanStep, e, List.sum_replicate, nsmul_eq_mul]
  field_simp

theorem stepOf_regular {times : List ℝ} {t0 τ : ℝ} (h : Regular times t0 τ) (h2 : 2 ≤ times.length) (hτ : τ ≠ 0) (p : ℕ) :
    stepOf times (p * τ) = .ok p := by
  rw [stepOf, if_neg (by omega), meanStep_regular h h2, mul_div_assoc, div_self hτ, mul_one]
  have := npRound_intCast (p : ℤ)
  rw [Int.cast_natCast] at this
  rw [this, Int.toNat_natCast]

theorem mem_indices {i0 i1 s i : ℕ} : i ∈ indices i0 i1 s ↔ i0 ≤ i ∧ i ≤ i1 ∧ (i - i0) % s = 0 := by
  simp only [indices, List.mem_map, List.mem_filter, List.mem_range, decide_eq_true_eq]
  constructor
  · rintro ⟨j, ⟨h1, h2⟩, rfl⟩
    exact ⟨by omega, by omega, by rwa [Nat.add_sub_cancel_left]⟩
  · rintro ⟨h1, h2, h3⟩
    exact ⟨i - i0, ⟨by omega, h3⟩, by omega⟩

theorem indices_sorted (i0 i1 s : ℕ) : (indices i0 i1 s).Pairwise (· < ·) := by
  rw [indices, List.pairwise_map]
  exact (List.pairwise_lt_range.filter _).imp fun h => by omega

theorem indices_length (i0 i1 s : ℕ) : (indices i0 i1 s).length ≤ i1 + 1 - i0 := by
  rw [indices, List.length_map]
  exact (List.length_filter_le _ _).trans (by simp)

end Verif.SpecFigs
