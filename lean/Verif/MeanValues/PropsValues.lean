import Verif.MeanValues.Lemmas
import Mathlib.Data.Rat.Floor
import Mathlib.Tactic.NormNum
import Mathlib.Tactic.LinearCombination
import Mathlib.Tactic.IntervalCases

set_option linter.unusedSectionVars false

/-! # C68: the isotropy of the dissipation in the mean values -/

namespace Verif.MeanValues

open Verif.PhysFiles (closest closest_spec)

variable {K : Type} [Field K] [LinearOrder K] [IsStrictOrderedRing K]

/-- The bins: the first one is `(0, 0)` and the others are not. -/
def Bins (n : ℕ) (kh kz : ℕ → K) : Prop := kh 0 = 0 ∧ kz 0 = 0 ∧ ∀ i < n, i ≠ 0 → kh i ^ 2 + kz i ^ 2 ≠ 0

/-- The dissipation of a spectrum `E` by the viscosities `nu_2` and `nu_4`. -/
def DissOf (nu2 nu4 : K) (kh kz E diss : ℕ → K) : Prop :=
  ∀ i, diss i = (nu2 * (kh i ^ 2 + kz i ^ 2) + nu4 * (kh i ^ 2 + kz i ^ 2) ^ 2) * E i

theorem freq_pos (nu2 nu4 : K) (h2 : 0 ≤ nu2) (h4 : 0 ≤ nu4) (h : 0 < nu2 + nu4) (n : ℕ) (kh kz : ℕ → K)
    (hb : Bins n kh kz) (i : ℕ) (hi : i < n) : 0 < freqDiss nu2 nu4 kh kz i := by
  unfold freqDiss
  dsimp only
  by_cases h0 : i = 0
  · rw [if_pos h0]; positivity
  · rw [if_neg h0]
    have hk : 0 < kh i ^ 2 + kz i ^ 2 := lt_of_le_of_ne (by positivity) (Ne.symm (hb.2.2 i hi h0))
    rcases h2.lt_or_eq with h2' | h2'
    · have := mul_pos h2' hk
      have : 0 ≤ nu4 * (kh i ^ 2 + kz i ^ 2) ^ 2 := by positivity
      linarith
    · have h4' : 0 < nu4 := by linarith
      have : 0 < nu4 * (kh i ^ 2 + kz i ^ 2) ^ 2 := by positivity
      have : 0 ≤ nu2 * (kh i ^ 2 + kz i ^ 2) := by positivity
      linarith

/-- **C68.** With viscosities `nu_2` and `nu_4` which are not both zero, `I_dissipation` is 3/2 of the part of the dissipation
which is not due to the vertical derivatives. -/
theorem C68_isotropy (nu2 nu4 : K) (h2 : 0 ≤ nu2) (h4 : 0 ≤ nu4) (h : 0 < nu2 + nu4) (n : ℕ) (kh kz E diss : ℕ → K)
    (hb : Bins n kh kz) (hd : DissOf nu2 nu4 kh kz E diss) (hpos : ∑ i ∈ Finset.range n, diss i ≠ 0) :
    isotropyDiss nu2 nu4 n kh kz diss =
      some (3 / 2 * (1 - (∑ i ∈ Finset.range n, (nu2 * kz i ^ 2 + nu4 * kz i ^ 4) * E i) /
        ∑ i ∈ Finset.range n, diss i)) := by
  have hf := freq_pos nu2 nu4 h2 h4 h n kh kz hb
  unfold isotropyDiss
  rw [if_neg]
  · dsimp only
    have : ∑ i ∈ Finset.range n, (nu2 * kz i ^ 2 + nu4 * kz i ^ 4) * (diss i / freqDiss nu2 nu4 kh kz i) =
        ∑ i ∈ Finset.range n, (nu2 * kz i ^ 2 + nu4 * kz i ^ 4) * E i := by
      refine Finset.sum_congr rfl fun i hi => ?_
      have hi' := Finset.mem_range.mp hi
      by_cases h0 : i = 0
      · subst h0
        rw [hb.2.1]; ring
      · have hfi := hf i hi'
        have : diss i = freqDiss nu2 nu4 kh kz i * E i := by
          rw [hd i]; unfold freqDiss; dsimp only; rw [if_neg h0]
        rw [this, mul_div_cancel_left₀ _ hfi.ne']
    rw [this]
    congr 1
    ring
  · rintro (⟨i, hi, h0⟩ | h0)
    · exact (hf i hi).ne' h0
    · exact hpos h0

/-- **C68.** `I_dissipation` is between 0 and 3/2 for every spectrum; it is 0 if there is only energy with `kh = 0`, 3/2 if there
is only energy with `kz = 0`; with `nu_4 = 0`, it is 1 if one third of the gradients is vertical. -/
theorem C68_isotropy_values (nu2 nu4 : K) (h2 : 0 ≤ nu2) (h4 : 0 ≤ nu4) (h : 0 < nu2 + nu4) (n : ℕ)
    (kh kz E diss : ℕ → K) (hb : Bins n kh kz) (hE : ∀ i, 0 ≤ E i) (hd : DissOf nu2 nu4 kh kz E diss)
    (hpos : ∑ i ∈ Finset.range n, diss i ≠ 0) :
    ∃ I, isotropyDiss nu2 nu4 n kh kz diss = some I ∧ 0 ≤ I ∧ I ≤ 3 / 2 ∧
      ((∀ i < n, kh i = 0 ∨ E i = 0) → I = 0) ∧ ((∀ i < n, kz i = 0 ∨ E i = 0) → I = 3 / 2) ∧
      (nu4 = 0 → 3 * ∑ i ∈ Finset.range n, kz i ^ 2 * E i = ∑ i ∈ Finset.range n, (kh i ^ 2 + kz i ^ 2) * E i →
        I = 1) := by
  refine ⟨_, C68_isotropy nu2 nu4 h2 h4 h n kh kz E diss hb hd hpos, ?_⟩
  have hS : 0 < ∑ i ∈ Finset.range n, diss i := by
    refine lt_of_le_of_ne (Finset.sum_nonneg fun i _ => ?_) (Ne.symm hpos)
    rw [hd i]
    have := hE i
    positivity
  have hle : ∑ i ∈ Finset.range n, (nu2 * kz i ^ 2 + nu4 * kz i ^ 4) * E i ≤ ∑ i ∈ Finset.range n, diss i := by
    refine Finset.sum_le_sum fun i _ => ?_
    rw [hd i]
    refine mul_le_mul_of_nonneg_right ?_ (hE i)
    have e1 : nu2 * kz i ^ 2 ≤ nu2 * (kh i ^ 2 + kz i ^ 2) :=
      mul_le_mul_of_nonneg_left (by have := sq_nonneg (kh i); linarith) h2
    have e2 : nu4 * kz i ^ 4 ≤ nu4 * (kh i ^ 2 + kz i ^ 2) ^ 2 := by
      refine mul_le_mul_of_nonneg_left ?_ h4
      have : (kh i ^ 2 + kz i ^ 2) ^ 2 - kz i ^ 4 = kh i ^ 4 + 2 * (kh i ^ 2 * kz i ^ 2) := by ring
      have : 0 ≤ kh i ^ 4 + 2 * (kh i ^ 2 * kz i ^ 2) := by positivity
      linarith
    linarith
  have h0 : 0 ≤ ∑ i ∈ Finset.range n, (nu2 * kz i ^ 2 + nu4 * kz i ^ 4) * E i :=
    Finset.sum_nonneg fun i _ => by have := hE i; positivity
  have r1 := (div_le_one hS).mpr hle
  have r0 := div_nonneg h0 hS.le
  refine ⟨by linarith, by linarith, ?_, ?_, ?_⟩
  · intro hk
    have : ∑ i ∈ Finset.range n, (nu2 * kz i ^ 2 + nu4 * kz i ^ 4) * E i = ∑ i ∈ Finset.range n, diss i := by
      refine Finset.sum_congr rfl fun i hi => ?_
      rw [hd i]
      rcases hk i (Finset.mem_range.mp hi) with h | h <;> rw [h] <;> ring
    rw [this, div_self hpos]; ring
  · intro hk
    have : ∑ i ∈ Finset.range n, (nu2 * kz i ^ 2 + nu4 * kz i ^ 4) * E i = 0 := by
      refine Finset.sum_eq_zero fun i hi => ?_
      rcases hk i (Finset.mem_range.mp hi) with h | h <;> rw [h] <;> ring
    rw [this]; ring
  · rintro rfl hk
    have e1 : ∑ i ∈ Finset.range n, diss i = nu2 * ∑ i ∈ Finset.range n, (kh i ^ 2 + kz i ^ 2) * E i := by
      rw [Finset.mul_sum]
      exact Finset.sum_congr rfl fun i _ => by rw [hd i]; ring
    have e2 : ∑ i ∈ Finset.range n, (nu2 * kz i ^ 2 + 0 * kz i ^ 4) * E i =
        nu2 * ∑ i ∈ Finset.range n, kz i ^ 2 * E i := by
      rw [Finset.mul_sum]
      exact Finset.sum_congr rfl fun i _ => by ring
    rw [e1, ← hk] at hpos
    rw [e1, e2, ← hk]
    have n1 : nu2 ≠ 0 := fun hc => hpos (by rw [hc]; ring)
    have n2 : ∑ i ∈ Finset.range n, kz i ^ 2 * E i ≠ 0 := fun hc => hpos (by rw [hc]; ring)
    generalize ∑ i ∈ Finset.range n, kz i ^ 2 * E i = X at n2 ⊢
    field_simp
    ring

/-- Energy at the permutations of the wavenumber (3, 4, 0): the bins `(kh, kz)` are (5, 0), (3, 4) and (4, 3), with the
same energy. -/
def permKh : ℕ → ℚ | 0 => 0 | 1 => 5 | 2 => 3 | _ => 4
def permKz : ℕ → ℚ | 0 => 0 | 1 => 0 | 2 => 4 | _ => 3
def permE : ℕ → ℚ | 0 => 0 | _ => 1

theorem permBins : Bins 4 permKh permKz := by
  refine ⟨rfl, rfl, fun i hi h0 => ?_⟩
  interval_cases i
  · exact absurd rfl h0
  all_goals norm_num [permKh, permKz]

/-- The hypotheses of `C68_isotropy_values` are met: for the energy at the permutations of (3, 4, 0) and a viscosity `nu_2`,
the value is 1. -/
example : isotropyDiss 1 0 4 permKh permKz (fun i => (1 * (permKh i ^ 2 + permKz i ^ 2) +
    0 * (permKh i ^ 2 + permKz i ^ 2) ^ 2) * permE i) = some 1 := by
  obtain ⟨I, h1, -, -, -, -, h5⟩ := C68_isotropy_values 1 0 (by norm_num) (by norm_num) (by norm_num) 4 permKh permKz
    permE _ permBins (by intro i; unfold permE; split <;> norm_num) (fun i => rfl)
    (by norm_num [Finset.sum_range_succ, permKh, permKz, permE])
  rw [h1, h5 rfl (by norm_num [Finset.sum_range_succ, permKh, permKz, permE])]

/-- **C68 (finding).** With a viscosity `nu_4`, the value is not 1 for a spectrum which is symmetric under the permutations of the
axes (energy at the permutations of (3, 4, 0)), since the reference value 1/3 of the ratio is the one for `nu_2`. -/
theorem C68_isotropy_nu4_violated :
    isotropyDiss 0 1 4 permKh permKz (fun i => (0 * (permKh i ^ 2 + permKz i ^ 2) +
      1 * (permKh i ^ 2 + permKz i ^ 2) ^ 2) * permE i) = some (769 / 625) := by
  rw [C68_isotropy 0 1 (by norm_num) (by norm_num) (by norm_num) 4 permKh permKz
    permE _ permBins (fun i => rfl) (by norm_num [Finset.sum_range_succ, permKh, permKz, permE])]
  norm_num [Finset.sum_range_succ, permKh, permKz, permE]

/-- **C68 (finding).** With only the viscosity `nu_8` (or `nu_m4`), which the function does not read, there is no result
(divisions by zero), for every dissipation and as soon as there are two bins. -/
theorem C68_isotropy_nu8_violated (n : ℕ) (hn : 2 ≤ n) (kh kz diss : ℕ → K) :
    isotropyDiss 0 0 n kh kz diss = none := by
  unfold isotropyDiss
  rw [if_pos]
  exact Or.inl ⟨1, by omega, by unfold freqDiss; simp⟩

/-! ## the range of the budget -/

section
variable [FloorRing K]

/-- **C68 (partial).** `I_dissipation` is computed with the records up to the last one: they are the ones of the range only if
`tmax` is the last time (which is the case with `tmax=None` if the budget is saved at the last time). -/
theorem C68_dissipation_range_partial {A : Type} (times : List K) (vals : List A) (hlen : vals.length = times.length)
    (hnd : times.Nodup) (tmin tmax : K) (hl : times.getLast? = some tmax) :
    dissRecords times vals tmin tmax = records times vals tmin (some tmax) := by
  have hne : times ≠ [] := by rintro rfl; simp at hl
  obtain ⟨x, h1, h2, -⟩ := closest_spec times tmax hne
  have hx : x = tmax := by
    have := h2 tmax (List.mem_of_getLast? hl)
    simp only [sub_self, abs_zero] at this
    exact sub_eq_zero.mp (abs_eq_zero.mp (le_antisymm this (abs_nonneg _)))
  subst hx
  obtain ⟨hi, h1'⟩ := List.getElem?_eq_some_iff.mp h1
  have hlast : times[times.length - 1]'(by have := List.length_pos_iff.mpr hne; omega) = x := by
    rw [List.getLast?_eq_getElem?] at hl
    exact (List.getElem?_eq_some_iff.mp hl).2
  have hidx : closest times x = times.length - 1 := by
    have := (List.Nodup.getElem_inj_iff hnd (hi := hi)
      (hj := by have := List.length_pos_iff.mpr hne; omega)).mp (h1'.trans hlast.symm)
    exact this
  unfold dissRecords records
  dsimp only
  rw [hidx, hlen, Nat.sub_add_cancel (List.length_pos_iff.mpr hne)]

end

/-- The hypotheses of `C68_dissipation_range_partial` are met. -/
example : dissRecords [(0 : ℚ), 1, 2] ['a', 'b', 'c'] 1 2 = ['b', 'c'] := by
  rw [C68_dissipation_range_partial [(0 : ℚ), 1, 2] ['a', 'b', 'c'] rfl (by decide +kernel) 1 2 rfl]
  decide +kernel

/-- **C68 (finding).** `tmax` is not given to the function which computes `I_dissipation`: its value in the mean values for the
range `tmin`, `tmax` uses the records after `tmax`, here the one of `t = 2` for the range 0, 1. -/
theorem C68_dissipation_range_violated :
    dissRecords [(0 : ℚ), 1, 2] ['a', 'b', 'c'] 0 1 = ['a', 'b', 'c'] ∧
    records [(0 : ℚ), 1, 2] ['a', 'b', 'c'] 0 (some 1) = ['a', 'b'] ∧
    ∀ {A : Type} (times : List ℚ) (vals : List A) (tmin t t' : ℚ),
      dissRecords times vals tmin t = dissRecords times vals tmin t' :=
  ⟨by decide +kernel, by decide +kernel, fun _ _ _ _ _ => rfl⟩

/-- **C68.** The records of a range are those whose index is between the ones of the closest times. -/
theorem C68_records {A : Type} (times : List K) (vals : List A) (tmin tmax : K) (k : ℕ) :
    (records times vals tmin (some tmax))[k]? =
      if closest times tmin + k ≤ closest times tmax then vals[closest times tmin + k]? else none := by
  unfold records
  dsimp only
  rw [List.getElem?_drop, List.getElem?_take]
  simp only [Nat.lt_succ_iff]

end Verif.MeanValues
