import Verif.BudgetFigs.Model
import Verif.BudgetFigs.Spec
import Verif.SpecFigs.Lemmas
import Verif.SpectBudget.Lemmas

set_option linter.unusedSectionVars false

namespace Verif.BudgetFigs

open Verif.PhysFiles (closest argmin argmin_spec)
open Verif.SpecFigs (SpecFile stepOf meanStep slice IsClosest Records Regular timeMean slice_records average average_records stepOf_regular meanStep_regular)
open Verif.SpectBudget
open Finset

theorem cumsumInv_get (l : List ℝ) {i : ℕ} (h : i < l.length) : (cumsumInv l)[i]? = some (l.drop i).sum := by
  have hc : (cumsum l.reverse).length = l.length := by rw [cumsum, cumsumFrom_length, List.length_reverse]
  rw [cumsumInv, List.getElem?_reverse (by rw [hc]; exact h), hc, cumsum_get _ (by rw [List.length_reverse]; omega), List.take_reverse,
    List.sum_reverse]
  congr 3; omega

theorem drop_ofFn {m : ℕ} (s : Fin m → ℝ) (i : ℕ) : ((List.ofFn s).drop i).sum = ∑ j : Fin m, if i ≤ (j : ℕ) then s j else 0 := by
  induction m generalizing i with
  | zero => simp
  | succ m ih =>
    cases i with
    | zero => simp [List.sum_ofFn, Fin.sum_univ_succ]
    | succ i =>
      rw [List.ofFn_succ, List.drop_succ_cons, ih, Fin.sum_univ_succ]
      simp

theorem pi_eq {m : ℕ} (dk : ℝ) (s : Fin m → ℝ) (i : Fin m) : pi dk s i = received s i * dk := by
  rw [pi, List.getD_eq_getElem?_getD, flux2, List.getElem?_map, cumsumInv_get _ (by simp), Option.map_some, Option.getD_some, drop_ofFn]
  rfl

theorem sliceTo_eq {A : Type} (l : List A) {i0 i1 : ℕ} (h : 0 < i1) : sliceTo l i0 i1 = slice l i0 (i1 - 1) := by
  rw [sliceTo, slice, Nat.sub_add_cancel h]

theorem mean0_records {m : ℕ} {times : List ℝ} {l : List (Fin m → ℝ)} {s : ℕ → Fin m → ℝ} (h : Records times l s) {i0 i1 : ℕ} (h0 : i0 < i1)
    (h1 : i1 < times.length) : mean0 (sliceTo l i0 i1) = some (timeMean s i0 (i1 - 1)) := by
  rw [sliceTo_eq l (by omega)]
  have hl : slice l i0 (i1 - 1) ≠ [] := by
    rw [slice_records h (by omega)]
    simp; omega
  rw [mean0, if_neg hl]
  congr 1
  funext i
  have := average_records h (show i0 ≤ i1 - 1 by omega) (show i1 - 1 < times.length by omega) i
  rw [average, if_neg hl] at this
  exact Option.some.inj this

theorem mem_indicesTo {i0 i1 s i : ℕ} : i ∈ indicesTo i0 i1 s ↔ i0 ≤ i ∧ i < i1 ∧ (i - i0) % s = 0 := by
  simp only [indicesTo, List.mem_map, List.mem_filter, List.mem_range, decide_eq_true_eq]
  constructor
  · rintro ⟨j, ⟨h1, h2⟩, rfl⟩
    exact ⟨by omega, by omega, by rwa [Nat.add_sub_cancel_left]⟩
  · rintro ⟨h1, h2, h3⟩
    exact ⟨i - i0, ⟨by omega, h3⟩, by omega⟩

theorem plotStep_regular {times : List ℝ} {t0 τ : ℝ} (h : Regular times t0 τ) (h2 : 2 ≤ times.length) (hτ : τ ≠ 0) {p : ℕ} (hp : 0 < p) :
    plotStep times (p * τ) = .ok (some p) := by
  have hp' : (p : ℝ) ≠ 0 := by exact_mod_cast hp.ne'
  simp only [plotStep, stepOf_regular h h2 hτ, meanStep_regular h h2, hp.ne', false_and, if_false]
  rw [if_pos (mul_ne_zero hp' hτ)]

theorem plotStep_ok {times : List ℝ} (h2 : 2 ≤ times.length) (dt : ℝ) : ∃ s, plotStep times dt = .ok s := by
  simp only [plotStep, stepOf, if_neg (show ¬ times.length < 2 by omega)]
  exact ⟨_, rfl⟩

theorem received_conserved {m : ℕ} {T : Fin m → ℝ} (h : ∑ j, T j = 0) (i : Fin m) : received T i = lost T i := by
  have : received T i + ∑ j, (if j < i then T j else 0) = ∑ j, T j := by
    rw [received, ← sum_add_distrib]
    refine sum_congr rfl fun j _ => ?_
    by_cases hj : i ≤ j
    · rw [if_pos hj, if_neg (not_lt.2 hj), add_zero]
    · rw [if_neg hj, if_pos (not_le.1 hj), zero_add]
  rw [lost]
  linarith

theorem received_sum {m : ℕ} (a b : Fin m → ℝ) (i : Fin m) : received a i + received b i = received (fun j => a j + b j) i := by
  rw [received, received, received, ← sum_add_distrib]
  exact sum_congr rfl fun j _ => by split <;> simp

/-! ### ns3d -/

theorem hflux_get (b : Bool) (dh dz : ℝ) (nz nh : ℕ) (a : ℕ → ℕ → ℝ) :
    hflux b dh dz nh ((List.range nz).map fun z => (List.range nh).map fun h => a z h)
      = (List.range nh).map fun i => (if b then -1 else 1) * withinH dz dh nz a i := by
  refine List.ext_getElem? fun i => ?_
  by_cases hi : i < nh
  · have hcol : ∀ j < nh, (((List.range nz).map fun z => (List.range nh).map fun h => a z h).map fun l => l.getD j 0).sum
        = ∑ z ∈ range nz, a z j := by
      intro j hj
      rw [List.map_map, ← sum_map_range]
      congr 1
      refine List.map_congr_left fun z _ => ?_
      simp [hj]
    have key : ((cumsum ((List.range nh).map fun j =>
        dz * (((List.range nz).map fun z => (List.range nh).map fun h => a z h).map fun l => l.getD j 0).sum)).map (dh * ·))[i]?
        = some (withinH dz dh nz a i) := by
      rw [List.getElem?_map, cumsum_get _ (by simpa using hi), Option.map_some, take_map_range _ hi, withinH, mul_sum]
      congr 1
      refine sum_congr rfl fun j hj => ?_
      rw [hcol j (lt_of_lt_of_le (mem_range.1 hj) hi), mul_sum, mul_sum]
      exact sum_congr rfl fun z _ => by ring
    rw [List.getElem?_map, List.getElem?_range hi, Option.map_some, hflux]
    cases b
    · simpa using key
    · simp only [if_true]
      rw [List.getElem?_map, key, Option.map_some]
      congr 1; ring
  · rw [List.getElem?_eq_none (by rw [hflux]; split <;> simp [cumsum, cumsumFrom_length] <;> omega), List.getElem?_eq_none (by simp; omega)]

theorem zflux_get (b : Bool) (dh dz : ℝ) (nz nh : ℕ) (a : ℕ → ℕ → ℝ) :
    zflux b dh dz ((List.range nz).map fun z => (List.range nh).map fun h => a z h)
      = (List.range nz).map fun i => (if b then -1 else 1) * withinZ dz dh nh a i := by
  refine List.ext_getElem? fun i => ?_
  by_cases hi : i < nz
  · have key : ((cumsum (((List.range nz).map fun z => (List.range nh).map fun h => a z h).map fun l => dh * l.sum)).map (dz * ·))[i]?
        = some (withinZ dz dh nh a i) := by
      rw [List.getElem?_map, cumsum_get _ (by simpa using hi), Option.map_some, List.map_map, take_map_range _ hi, withinZ, mul_sum]
      congr 1
      refine sum_congr rfl fun j hj => ?_
      rw [Function.comp_apply, sum_map_range, mul_sum, mul_sum]
      exact sum_congr rfl fun z _ => by ring
    rw [List.getElem?_map, List.getElem?_range hi, Option.map_some, zflux]
    cases b
    · simpa using key
    · simp only [if_true]
      rw [List.getElem?_map, key, Option.map_some]
      congr 1; ring
  · rw [List.getElem?_eq_none (by rw [zflux]; split <;> simp [cumsum, cumsumFrom_length] <;> omega), List.getElem?_eq_none (by simp; omega)]

theorem loadMean_records (f : File3) {tmin tmax : Option ℝ} {i0 i1 : ℕ} (hr : range3 f tmin tmax = (i0, i1)) (h : i0 ≤ i1)
    (h1 : i1 < f.times.length) {key : Key} {s : ℕ → ℕ → ℕ → ℝ} (hs : f.data key = (List.range f.times.length).map s) :
    loadMean f tmin tmax key = some (mean3 s i0 i1) := by
  have e : slice (f.data key) i0 i1 = (List.range' i0 (i1 + 1 - i0)).map s := by
    rw [hs, slice, ← List.map_take, ← List.map_drop, List.take_range, min_eq_left (by omega), List.range_eq_range', List.drop_range']
    simp
  rw [loadMean, hr]
  simp only [e]
  rw [if_neg (by simp; omega)]
  congr 1
  funext z h'
  rw [mean3]
  congr 1
  · rw [List.map_map]
    have e := List.sum_toFinset (fun j => s j z h') (List.nodup_range' (s := i0) (n := i1 + 1 - i0))
    rw [List.toFinset_range'_1] at e
    rw [show Finset.Icc i0 i1 = Finset.Ico i0 (i0 + (i1 + 1 - i0)) by ext; simp only [Finset.mem_Icc, Finset.mem_Ico]; omega, e]
    rfl
  · simp

theorem fluxMean_records (f : File3) {tmin tmax : Option ℝ} {i0 i1 : ℕ} (hr : range3 f tmin tmax = (i0, i1)) (h : i0 ≤ i1)
    (h1 : i1 < f.times.length) {key : Key} {s : ℕ → ℕ → ℕ → ℝ} (hs : f.data key = (List.range f.times.length).map s) (d : Dir) :
    fluxMean f tmin tmax d key
      = some ((List.range (f.number d)).map fun i => (if key.isTransfer then -1 else 1) * within f d (mean3 s i0 i1) i) := by
  rw [fluxMean, loadMean_records f hr h h1 hs, Option.map_some]
  cases d
  · simp only [hflux_get]; rfl
  · simp only [zflux_get]; rfl

theorem plus_range (n : ℕ) (a b : ℕ → ℝ) : plus ((List.range n).map a) ((List.range n).map b) = (List.range n).map fun i => a i + b i := by
  rw [plus]
  refine List.ext_getElem (by simp) fun i h1 h2 => by simp

theorem last_range (n : ℕ) (a : ℕ → ℝ) : ((List.range (n + 1)).map a).getLastD 0 = a n := by
  rw [List.range_succ, List.map_append, List.map_singleton, List.getLastD_concat]

theorem within_add (f : File3) (d : Dir) (a b : ℕ → ℕ → ℝ) (i : ℕ) : within f d a i + within f d b i = within f d (fun z h => a z h + b z h) i := by
  cases d <;> simp only [within, withinH, withinZ, ← sum_add_distrib, add_mul]

theorem within_neg (f : File3) (d : Dir) (a : ℕ → ℕ → ℝ) (i : ℕ) : -within f d a i = within f d (fun z h => -a z h) i := by
  cases d <;> simp only [within, withinH, withinZ, ← sum_neg_distrib, neg_mul]

theorem within_congr (f : File3) (d : Dir) {a b : ℕ → ℕ → ℝ} (h : ∀ z < f.nz, ∀ h < f.nh, a z h = b z h) {i : ℕ} (hi : i < f.number d) :
    within f d a i = within f d b i := by
  cases d
  · simp only [within, withinH, withinZ]
    refine sum_congr rfl fun x hx => sum_congr rfl fun z hz => ?_
    rw [h z (mem_range.1 hz) x (lt_of_lt_of_le (mem_range.1 hx) hi)]
  · simp only [within, withinH, withinZ]
    refine sum_congr rfl fun x hx => sum_congr rfl fun z hz => ?_
    rw [h x (lt_of_lt_of_le (mem_range.1 hx) hi) z (mem_range.1 hz)]

theorem within_mono (f : File3) (d : Dir) (hz : 0 ≤ f.kz 1) (hh : 0 ≤ f.kh 1) {a : ℕ → ℕ → ℝ} (h : ∀ z < f.nz, ∀ h < f.nh, 0 ≤ a z h) {i j : ℕ}
    (hij : i ≤ j) (hj : j < f.number d) : within f d a i ≤ within f d a j := by
  cases d
  · simp only [within, withinH, withinZ]
    refine sum_le_sum_of_subset_of_nonneg (range_mono (by omega)) fun x hx _ => sum_nonneg fun z hz' => ?_
    exact mul_nonneg (h z (mem_range.1 hz') x (lt_of_lt_of_le (mem_range.1 hx) hj)) (mul_nonneg hz hh)
  · simp only [within, withinH, withinZ]
    refine sum_le_sum_of_subset_of_nonneg (range_mono (by omega)) fun x hx _ => sum_nonneg fun z hz' => ?_
    exact mul_nonneg (h x (lt_of_lt_of_le (mem_range.1 hx) hj) z (mem_range.1 hz')) (mul_nonneg hz hh)

theorem within_nonneg (f : File3) (d : Dir) (hz : 0 ≤ f.kz 1) (hh : 0 ≤ f.kh 1) {a : ℕ → ℕ → ℝ} (h : ∀ z < f.nz, ∀ h < f.nh, 0 ≤ a z h) {i : ℕ}
    (hi : i < f.number d) : 0 ≤ within f d a i := by
  cases d
  · simp only [within, withinH, withinZ]
    refine sum_nonneg fun x hx => sum_nonneg fun z hz' => ?_
    exact mul_nonneg (h z (mem_range.1 hz') x (lt_of_lt_of_le (mem_range.1 hx) hi)) (mul_nonneg hz hh)
  · simp only [within, withinH, withinZ]
    refine sum_nonneg fun x hx => sum_nonneg fun z hz' => ?_
    exact mul_nonneg (h x (lt_of_lt_of_le (mem_range.1 hx) hi) z (mem_range.1 hz')) (mul_nonneg hz hh)

/-! ### ns2d.strat -/

theorem argmin_increasing {l : List ℝ} (h : l.Pairwise (· < ·)) : argmin l = 0 := by
  by_cases he : l = []
  · subst he; rfl
  · obtain ⟨x, h1, h2, -⟩ := argmin_spec l he
    by_contra hne
    have hlt := (List.getElem?_eq_some_iff.1 h1).1
    have hx := (List.getElem?_eq_some_iff.1 h1).2
    have h0 : l[0]'(by omega) < l[argmin l] := List.pairwise_iff_getElem.1 h 0 _ (by omega) hlt (by omega)
    have := h2 (l[0]'(by omega)) (List.getElem_mem _)
    rw [hx] at h0
    linarith

theorem idDealiasing_eq {ks : List ℝ} (h : ks.Pairwise (· < ·)) (kmax : ℝ) : idDealiasing ks kmax = -1 := by
  rw [idDealiasing, argmin_increasing]
  · rfl
  · rw [List.pairwise_map]
    exact h.imp fun h => by linarith

theorem pyTake_last {A : Type} (l : List A) : pyTake l (-1) = l.dropLast := by
  rw [pyTake, if_pos (by norm_num), List.dropLast_eq_take]
  rfl

end Verif.BudgetFigs
