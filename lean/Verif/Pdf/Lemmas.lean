import Verif.Pdf.Model
import Verif.Pdf.Spec
import Verif.Increm.Props
import Verif.Reduce.Props
import Mathlib.Algebra.Order.Ring.Abs
import Mathlib.Algebra.Order.Ring.GeomSum

/-! # Lemmas for C67 -/

set_option linter.unusedSectionVars false

namespace Verif.Pdf

open Verif.Increm (increments valuesInc strfunc)

variable {K : Type} [Field K] [LinearOrder K] [IsStrictOrderedRing K]

theorem inBin_iff {n : ℕ} (hn : 0 < n) {lo hi x : K} (h : lo < hi) (i : ℕ) :
    InBin n lo hi i x ↔ (i : K) ≤ (x - lo) / (hi - lo) * n ∧
      ((x - lo) / (hi - lo) * n < i + 1 ∨ i + 1 = n ∧ x ≤ hi) := by
  have hd : 0 < hi - lo := sub_pos.mpr h
  have hnp : (0 : K) < n := by exact_mod_cast hn
  have e : x = lo + (hi - lo) / n * ((x - lo) / (hi - lo) * n) := by field_simp; ring
  have hw : 0 < (hi - lo) / n := div_pos hd hnp
  set y := (x - lo) / (hi - lo) * n with hy
  unfold InBin
  have a1 : lo + (hi - lo) / n * i ≤ x ↔ (i : K) ≤ y := by
    rw [e, add_le_add_iff_left, mul_le_mul_iff_of_pos_left hw]
  have a2 : x < lo + (hi - lo) / n * (i + 1) ↔ y < i + 1 := by
    rw [e, add_lt_add_iff_left, mul_lt_mul_iff_of_pos_left hw]
  rw [a1, a2]

theorem bin_iff [FloorRing K] {n : ℕ} (hn : 0 < n) {lo hi x : K} (h : lo < hi) (hx : lo ≤ x ∧ x ≤ hi) (i : Fin n) :
    bin n lo hi x = some i ↔ InBin n lo hi i x := by
  have hd : 0 < hi - lo := sub_pos.mpr h
  have hnp : (0 : K) < n := by exact_mod_cast hn
  rw [inBin_iff hn h, bin, dif_pos ⟨hx.1, hx.2, hn⟩]
  have hy0 : 0 ≤ (x - lo) / (hi - lo) * n := by
    have := sub_nonneg.mpr hx.1
    positivity
  have hyn : (x - lo) / (hi - lo) * n ≤ n := by
    have : (x - lo) / (hi - lo) ≤ 1 := by rw [div_le_one hd]; linarith [hx.2]
    nlinarith
  rw [Option.some.injEq, Fin.ext_iff]
  show min ⌊(x - lo) / (hi - lo) * n⌋₊ (n - 1) = (i : ℕ) ↔ _
  generalize (x - lo) / (hi - lo) * n = y at hy0 hyn ⊢
  have f1 := Nat.floor_le hy0
  have f2 := Nat.lt_floor_add_one y
  have f3 : ⌊y⌋₊ ≤ n := by
    have := Nat.floor_le_floor hyn
    simpa using this
  have hi' := i.2
  constructor
  · intro e
    rcases Nat.lt_or_ge ⌊y⌋₊ n with hlt | hge
    · have : ⌊y⌋₊ = i := by omega
      rw [← this]
      exact ⟨f1, .inl f2⟩
    · have : (i : ℕ) = n - 1 := by omega
      refine ⟨?_, .inr ⟨by omega, hx.2⟩⟩
      refine le_trans ?_ f1
      exact_mod_cast (by omega : (i : ℕ) ≤ ⌊y⌋₊)
  · rintro ⟨h1, h2 | ⟨h2, -⟩⟩
    · have e1 : (i : ℕ) ≤ ⌊y⌋₊ := Nat.le_floor h1
      have e2 : ⌊y⌋₊ < i + 1 := by
        rw [Nat.floor_lt hy0]; exact_mod_cast h2
      omega
    · have e1 : (i : ℕ) ≤ ⌊y⌋₊ := Nat.le_floor h1
      omega

theorem bin_ne_none [FloorRing K] {n : ℕ} (hn : 0 < n) {lo hi x : K} (hx : lo ≤ x ∧ x ≤ hi) :
    bin n lo hi x ≠ none := by
  rw [bin, dif_pos ⟨hx.1, hx.2, hn⟩]; simp

/-- The histogram on `[lo, hi]` which contains all the values. -/
theorem hist_eq [FloorRing K] {n : ℕ} (hn : 0 < n) {lo hi : K} (h : lo < hi) {locals : List (List K)} {whole : List K}
    (hp : locals.flatten.Perm whole) (hx : ∀ x ∈ whole, lo ≤ x ∧ x ≤ hi) (i : Fin n) :
    Reduce.pdfNormalized n (bin n lo hi) ((hi - lo) / n) locals i
      = ((whole.countP fun x => decide (InBin n lo hi i x) : ℕ) : K) / ((hi - lo) / n * whole.length) := by
  rw [Reduce.C46_pdf _ hp fun x hx' => bin_ne_none hn (hx x hx')]
  congr 2
  refine List.countP_congr fun x hx' => ?_
  simp only [decide_eq_true_eq]
  exact bin_iff hn h (hx x hx') i

theorem IsPdf.eq_hist [FloorRing K] {n : ℕ} (hn : 0 < n) {whole : List K} {p : Fin n → K} {lo hi : K}
    (h : IsPdf n whole p lo hi) : p = Reduce.pdfNormalized n (bin n lo hi) ((hi - lo) / n) [whole] := by
  funext i
  rw [hist_eq hn h.1 (whole := whole) (by simp) h.2.1 i, h.2.2.2 i]

theorem inBin_unique {n : ℕ} (hn : 0 < n) {lo hi x : K} [FloorRing K] (h : lo < hi) (hx : lo ≤ x ∧ x ≤ hi) :
    ∃! i : Fin n, InBin n lo hi i x := by
  obtain ⟨i, hi⟩ := Option.ne_none_iff_exists'.mp (bin_ne_none (n := n) hn hx)
  refine ⟨i, (bin_iff hn h hx i).mp hi, fun j hj => ?_⟩
  have := (bin_iff hn h hx j).mpr hj
  rw [hi, Option.some.injEq] at this
  exact this.symm

theorem interp_node {l : List (K × K)} (h : (l.map Prod.fst).Pairwise (· < ·)) (i : ℕ) (hi : i < l.length) :
    interp l l[i].1 = l[i].2 := by
  induction l generalizing i with
  | nil => simp at hi
  | cons p l ih =>
    cases l with
    | nil =>
      have : i = 0 := by simpa using hi
      subst this; rfl
    | cons q l =>
      rw [interp]
      cases i with
      | zero => simp
      | succ i =>
        have h' := List.pairwise_cons.mp h
        have hi2 : i < (q :: l).length := by simpa using hi
        have hm : ((q :: l)[i]'hi2).1 ∈ (q :: l).map Prod.fst := List.mem_map_of_mem (List.getElem_mem _)
        have h1 := h'.1 _ hm
        have h2 : q.1 ≤ ((q :: l)[i]'hi2).1 := by
          cases i with
          | zero => exact le_rfl
          | succ j =>
            refine le_of_lt ((List.pairwise_cons.mp h'.2).1 _ ?_)
            exact List.mem_map_of_mem (List.getElem_mem _)
        simp only [List.getElem_cons_succ]
        rw [if_neg (not_le.mpr h1), if_neg (not_lt.mpr h2)]
        exact ih h'.2 i (by simpa using hi)

theorem valuesInc_lt {n : ℕ} {lo hi : K} (h : lo < hi) {i j : Fin n} (hij : i < j) :
    valuesInc n lo hi i < valuesInc n lo hi j := by
  have hnp : (0 : K) < n := by exact_mod_cast (lt_of_le_of_lt (Nat.zero_le _) i.2)
  have hd : 0 < hi - lo := sub_pos.mpr h
  have : ((i : ℕ) : K) < (j : ℕ) := by exact_mod_cast hij
  unfold valuesInc
  rw [add_lt_add_iff_left, mul_lt_mul_iff_of_pos_left hd, div_lt_div_iff_of_pos_right hnp]
  linarith

theorem interp_values {n : ℕ} {lo hi : K} (h : lo < hi) (p : Fin n → K) (i : Fin n) :
    interp (List.ofFn fun j => (valuesInc n lo hi j, p j)) (valuesInc n lo hi i) = p i := by
  have hpw : ((List.ofFn fun j => (valuesInc n lo hi j, p j)).map Prod.fst).Pairwise (· < ·) := by
    rw [List.map_ofFn, List.pairwise_ofFn]
    intro a b hab
    exact valuesInc_lt h hab
  have := interp_node hpw i (by simp)
  simpa using this

theorem mean_const {l : List K} (hl : l ≠ []) {c : K} (h : ∀ x ∈ l, x = c) : mean l = c := by
  have h1 : l.sum = l.length * c := by
    rw [List.eq_replicate_of_mem h, List.sum_replicate, List.length_replicate, nsmul_eq_mul]
  have h2 : ((l.length : ℕ) : K) ≠ 0 := by
    have := List.length_pos_iff.mpr hl
    exact_mod_cast this.ne'
  rw [mean, h1]
  field_simp

theorem sum_mean {A : Type} {n : ℕ} (l : List A) (f : A → Fin n → K) :
    ∑ i, mean (l.map fun r => f r i) = mean (l.map fun r => ∑ i, f r i) := by
  simp only [mean, List.length_map]
  rw [← Finset.sum_div]
  congr 1
  induction l with
  | nil => simp
  | cons a l ih => simp [Finset.sum_add_distrib, ih]

theorem mean_mul {A : Type} (l : List A) (f : A → K) (c : K) :
    mean (l.map fun r => f r) * c = mean (l.map fun r => f r * c) := by
  simp only [mean, List.length_map]
  rw [List.sum_map_mul_right, div_mul_eq_mul_div]

theorem incOf_eq (f : Cell K → K) (rx : ℕ) (rows : List (List (Cell K))) :
    incOf f rx rows = (pairs rx rows).map fun q => f q.1 - f q.2 := by
  unfold incOf incRows pairs increments
  rw [List.map_flatten, List.map_map, List.map_map]
  congr 1
  refine List.map_congr_left fun l _ => ?_
  simp only [Function.comp_apply, List.length_map, ← List.map_drop, ← List.map_take, List.zipWith_map_left,
    List.zipWith_map_right, List.map_zip_eq_zipWith]
  rfl

end Verif.Pdf
