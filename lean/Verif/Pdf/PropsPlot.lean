import Verif.Pdf.ModelPlot
import Verif.Pdf.Props
import Mathlib.Algebra.Order.BigOperators.Ring.Finset
import Mathlib.Tactic.LinearCombination

/-! # C67: the figures of the increments -/

namespace Verif.Pdf

set_option linter.unusedSectionVars false

open Finset
open Verif.Increm (strfunc valuesInc)

variable {K : Type} [Field K] [LinearOrder K] [IsStrictOrderedRing K]

/-- The width of the bins. -/
theorem valuesInc_width {n : ℕ} (hn : 2 ≤ n) (lo hi : K) :
    valuesInc n lo hi ⟨1, hn⟩ - valuesInc n lo hi ⟨0, by omega⟩ = (hi - lo) / n := by
  have : (n : K) ≠ 0 := by exact_mod_cast (by omega : n ≠ 0)
  simp only [valuesInc]
  push_cast
  field_simp
  ring

theorem strfunc_valuesInc {n : ℕ} (hn : 2 ≤ n) {lo hi : K} (h : lo < hi) (p : Fin n → K) (m : ℕ) :
    strfunc hn p (valuesInc n lo hi) m false = (hi - lo) / n * ∑ i, p i * valuesInc n lo hi i ^ m := by
  have : (0 : K) ≤ (hi - lo) / n := by have := sub_pos.2 h; positivity
  simp only [strfunc, Bool.false_eq_true, if_false]
  rw [valuesInc_width, abs_of_nonneg this]

/-- C67 (flatness): for a positive normalised density the flatness of the figure is at least one (as the ratio of moments which it is meant to
be), if all the increments are not zero. -/
theorem C67_flatness {n : ℕ} (hn : 2 ≤ n) {lo hi : K} (h : lo < hi) {p : Fin n → K} (hp : ∀ i, 0 ≤ p i) (h1 : Normalised lo hi p)
    (h2 : strfunc hn p (valuesInc n lo hi) 2 false ≠ 0) : 1 ≤ flatness hn p (valuesInc n lo hi) := by
  set v := valuesInc n lo hi with hv
  have hw : (0 : K) < (hi - lo) / n := by
    have := sub_pos.2 h
    have : (0 : K) < n := by exact_mod_cast (by omega : 0 < n)
    positivity
  have hsum : (hi - lo) / n * ∑ i, p i = 1 := by rw [mul_comm, sum_mul]; exact h1
  rw [flatness, le_div_iff₀ (by positivity), one_mul, strfunc_valuesInc hn h, strfunc_valuesInc hn h]
  have key : (∑ i, p i * v i ^ 2) ^ 2 ≤ (∑ i, p i) * ∑ i, p i * v i ^ 4 :=
    sum_sq_le_sum_mul_sum_of_sq_eq_mul _ (fun i _ => hp i) (fun i _ => mul_nonneg (hp i) (by positivity)) fun i _ => by ring
  calc _ = ((hi - lo) / n) ^ 2 * (∑ i, p i * v i ^ 2) ^ 2 := by ring
    _ ≤ ((hi - lo) / n) ^ 2 * ((∑ i, p i) * ∑ i, p i * v i ^ 4) := mul_le_mul_of_nonneg_left key (by positivity)
    _ = ((hi - lo) / n * ∑ i, p i) * ((hi - lo) / n * ∑ i, p i * v i ^ 4) := by ring
    _ = _ := by rw [hsum, one_mul]

/-- C67 (the figure for one time): with at least two records, the record closest to `t` which is the density of the increments `wx i` and
`wy i` for the separation number `i`: the figure has one point for each separation, its abscissa is the separation in the units of `Lx`,
the ordinates multiplied by it are the means of the powers of the increments up to the width of the bins, and the flatnesses are at least one. -/
theorem C67_plot_partial [FloorRing K] {n : ℕ} (hn : 2 ≤ n) (f : IncFile K n) (h2 : 2 ≤ f.times.length) (t : K) (order : ℕ)
    (hpos : 0 < f.Lx ∧ 0 < f.nx) {px py : ℕ → (Fin n → K) × K × K} {wx wy : ℕ → List K}
    (hx : ∀ i < f.rxs.length, (f.records "ux" i)[PhysFiles.closest f.times t]? = some (px i) ∧ wx i ≠ [] ∧
      IsPdf n (wx i) (px i).1 (px i).2.1 (px i).2.2 ∧ Normalised (px i).2.1 (px i).2.2 (px i).1)
    (hy : ∀ i < f.rxs.length, (f.records "uy" i)[PhysFiles.closest f.times t]? = some (py i) ∧ wy i ≠ [] ∧
      IsPdf n (wy i) (py i).1 (py i).2.1 (py i).2.2 ∧ Normalised (py i).2.1 (py i).2.2 (py i).1) :
    ∃ l, plotInc hn f t (some t) order = .ok l ∧ l.length = f.rxs.length ∧ ∀ (i rx : ℕ), f.rxs[i]? = some rx → rx ≠ 0 →
      ∃ P : Point K, l[i]? = some (some P) ∧ P.r = rx * f.Lx / f.nx ∧
        (∀ R, |(px i).2.1| ≤ R → |(px i).2.2| ≤ R → |P.r * P.sx - ((wx i).map (· ^ order)).sum / (wx i).length|
          ≤ order * R ^ (order - 1) * (((px i).2.2 - (px i).2.1) / n / 2)) ∧
        (∀ R, |(py i).2.1| ≤ R → |(py i).2.2| ≤ R → |P.r * P.sy - ((wy i).map (· ^ order)).sum / (wy i).length|
          ≤ order * R ^ (order - 1) * (((py i).2.2 - (py i).2.1) / n / 2)) ∧
        P.ratio = |P.sx| / |P.sy| ∧ (P.fx ≠ 0 → 1 ≤ P.fx) ∧ (P.fy ≠ 0 → 1 ≤ P.fy) := by
  refine ⟨f.rxs.mapIdx fun i rx => plotPoint hn f t (some t) order i rx, by rw [plotInc, if_neg (by omega)], by simp, fun i rx hi hrx => ?_⟩
  obtain ⟨hlt, hri⟩ := List.getElem?_eq_some_iff.1 hi
  obtain ⟨ex, nex, Hx, Nx⟩ := hx i hlt
  obtain ⟨ey, ney, Hy, Ny⟩ := hy i hlt
  have lx := C67_load_one f.times (f.records "ux" i) t ex Hx.1
  have ly := C67_load_one f.times (f.records "uy" i) t ey Hy.1
  have hr : (0 : K) < rx * (f.Lx / f.nx) := by
    have : (0 : K) < rx := by exact_mod_cast Nat.pos_of_ne_zero hrx
    have : (0 : K) < f.nx := by exact_mod_cast hpos.2
    have := hpos.1
    positivity
  have nonneg : ∀ {w : List K} {p : Fin n → K} {lo hi : K}, IsPdf n w p lo hi → ∀ i, 0 ≤ p i := by
    intro w p lo hi h i
    rw [h.2.2.2 i]
    have := sub_pos.2 h.1
    positivity
  have fl : ∀ {w : List K} {p : Fin n → K} {lo hi : K}, IsPdf n w p lo hi → Normalised lo hi p →
      flatness hn p (valuesInc n lo hi) ≠ 0 → 1 ≤ flatness hn p (valuesInc n lo hi) := by
    intro w p lo hi h hN h0
    refine C67_flatness hn h.1 (nonneg h) hN fun hs => h0 ?_
    rw [flatness, hs]
    simp
  have hP := show plotPoint hn f t (some t) order i rx = some ⟨_, _, _, _, _, _⟩ by simp only [plotPoint, lx, ly]; rfl
  refine ⟨_, by simp only [List.getElem?_mapIdx, hi, Option.map_some]; rw [hP], ?_, ?_, ?_, ?_, fl Hx Nx, fl Hy Ny⟩
  · simp only; ring
  · intro R h1 h2
    simp only
    rw [mul_div_cancel₀ _ hr.ne']
    exact C67_structure_error hn Hx nex ⟨h1, h2⟩ order
  · intro R h1 h2
    simp only
    rw [mul_div_cancel₀ _ hr.ne']
    exact C67_structure_error hn Hy ney ⟨h1, h2⟩ order
  · simp only [abs_div, abs_of_pos hr]
    rw [div_div_div_cancel_right₀ hr.ne']

/-- Two records of the increments `-1, 1, 1` for the separation of two points. -/
def twoRecords : IncFile ℚ 2 where
  times := [0, 1]
  rxs := [2]
  records := fun _ _ => [(![1 / 3, 2 / 3], -1, 1), (![1 / 3, 2 / 3], -1, 1)]
  nx := 4
  Lx := 1

example : ∃ l, plotInc (le_refl 2) twoRecords 1 (some 1) 3 = .ok l ∧ l.length = 1 := by
  have H : IsPdf 2 [-1, 1, 1] ![(1 : ℚ) / 3, 2 / 3] (-1) 1 ∧ Normalised (-1) 1 ![(1 : ℚ) / 3, 2 / 3] := by
    refine ⟨⟨by norm_num, by decide +kernel, .inl (by decide +kernel), by decide +kernel⟩, ?_⟩
    simp [Normalised, Fin.sum_univ_two]
    norm_num
  have C : PhysFiles.closest twoRecords.times 1 = 1 := by decide +kernel
  obtain ⟨l, h, hl, -⟩ := C67_plot_partial (le_refl 2) twoRecords (le_refl 2) 1 3 ⟨by simp [twoRecords], by simp [twoRecords]⟩
    (px := fun _ => (![1 / 3, 2 / 3], -1, 1)) (py := fun _ => (![1 / 3, 2 / 3], -1, 1)) (wx := fun _ => [-1, 1, 1]) (wy := fun _ => [-1, 1, 1])
    (fun i _ => by rw [C]; exact ⟨rfl, by simp, H⟩) (fun i _ => by rw [C]; exact ⟨rfl, by simp, H⟩)
  exact ⟨l, h, hl⟩

/-- C67, finding: `plot` raises when there is only one record (`int(np.round(nan))`), although nothing which is drawn depends on the interval
between the records; the method of sw1l does not. -/
theorem C67_plot_one_record_violated {n : ℕ} (hn : 2 ≤ n) (f : IncFile K n) (h1 : f.times.length = 1) (tmin : K) (tmax : Option K)
    (order : ℕ) : plotInc hn f tmin tmax order = .error "ValueError" := by
  rw [plotInc, if_pos (by omega)]

/-- C67 (sw1l): one record is enough if `delta_t` is not zero; the curves are those of the base class. -/
theorem C67_plot_sw1l_partial {n : ℕ} (hn : 2 ≤ n) (f : IncFile K n) (h1 : 1 ≤ f.times.length) (tmin : K) (tmax : Option K) {deltaT : K}
    (hd : deltaT ≠ 0) (order : ℕ) :
    plotIncSw hn f tmin tmax deltaT order = .ok (f.rxs.mapIdx fun i rx => plotPoint hn f tmin tmax order i rx) ∧
      (2 ≤ f.times.length → plotIncSw hn f tmin tmax deltaT order = plotInc hn f tmin tmax order) := by
  have e : plotIncSw hn f tmin tmax deltaT order = .ok (f.rxs.mapIdx fun i rx => plotPoint hn f tmin tmax order i rx) := by
    rw [plotIncSw, if_neg (by omega), if_neg fun h => hd h.2]
  exact ⟨e, fun h => by rw [e, plotInc, if_neg (by omega)]⟩

/-- C67, finding (sw1l): with one record and `delta_t=0` (no intermediate curve), `plot` divides zero by zero. -/
theorem C67_plot_sw1l_violated {n : ℕ} (hn : 2 ≤ n) (f : IncFile K n) (h1 : f.times.length = 1) (tmin : K) (tmax : Option K) (order : ℕ) :
    plotIncSw hn f tmin tmax 0 order = .error "ZeroDivisionError" := by
  rw [plotIncSw, if_neg (by omega), if_pos ⟨h1, rfl⟩]

/-- Two records of densities with different ranges. -/
def twoRanges : IncFile ℚ 2 where
  times := [0, 1]
  rxs := [1]
  records := fun _ _ => [(fun _ => 7 / 2, -1 / 7, 1 / 7), (fun _ => 1 / 2, -1, 1)]
  nx := 4
  Lx := 1

/-- C67, finding: averaged over records whose increments have different ranges, the flatness of the figure can be smaller than one, which no
distribution has: the averaged density is not normalised (`C67_load_mean_violated`). -/
theorem C67_flatness_violated : (∀ r ∈ twoRanges.records "ux" 0, Normalised r.2.1 r.2.2 r.1) ∧
    ∃ P : Point ℚ, plotInc (le_refl 2) twoRanges 0 none 2 = .ok [some P] ∧ P.fx = 7 / 16 := by
  refine ⟨?_, (plotPoint (le_refl 2) twoRanges 0 none 2 0 1).get (by decide +kernel), ?_, by decide +kernel⟩
  · intro r hr
    simp only [twoRanges, List.mem_cons, List.not_mem_nil, or_false] at hr
    rcases hr with rfl | rfl <;> simp [Normalised, Fin.sum_univ_two] <;> norm_num
  · rw [Option.some_get]
    rfl

/-! ### Units -/

theorem interp_scale {c : K} (hc : 0 < c) (l : List (K × K)) (x : K) :
    interp (l.map fun q => (c * q.1, q.2 / c)) (c * x) = interp l x / c := by
  induction l with
  | nil => simp [interp]
  | cons p l ih =>
    cases l with
    | nil => simp [interp]
    | cons q l =>
      simp only [List.map_cons] at ih ⊢
      rw [interp, interp, ih]
      simp only [mul_le_mul_iff_right₀ hc, mul_lt_mul_iff_right₀ hc]
      split_ifs
      · rfl
      · rw [← mul_sub, ← mul_sub, ← sub_div, add_div]
        congr 1
        by_cases h : q.1 - p.1 = 0
        · simp [h]
        · field_simp
      · rfl

theorem mean_scale (c : K) (l : List K) : mean (l.map fun x => c * x) = c * mean l := by
  have := mean_mul l id c
  simp only [id, List.map_id'] at this
  rw [mul_comm c, this]
  simp only [mul_comm]

theorem mean_div (c : K) (l : List K) : mean (l.map fun x => x / c) = mean l / c := by
  have : (fun x : K => x / c) = fun x => c⁻¹ * x := by funext x; rw [div_eq_inv_mul]
  rw [this, mean_scale, div_eq_inv_mul]

theorem valuesInc_scale {n : ℕ} (c lo hi : K) (i : Fin n) : valuesInc n (c * lo) (c * hi) i = c * valuesInc n lo hi i := by
  simp only [valuesInc]; ring

/-- A record of velocities `c` times larger. -/
def scaleRec {n : ℕ} (c : K) (r : (Fin n → K) × K × K) : (Fin n → K) × K × K := (fun i => r.1 i / c, c * r.2.1, c * r.2.2)

/-- The file of the same simulation with other units: the velocities are multiplied by `c` and the lengths by `a`. -/
def scaleFile {n : ℕ} (c a : K) (f : IncFile K n) : IncFile K n :=
  ⟨f.times, f.rxs, fun k i => (f.records k i).map (scaleRec c), f.nx, a * f.Lx⟩

/-- The point of the same simulation with other units. -/
def scalePoint (c a : K) (order : ℕ) (P : Point K) : Point K :=
  ⟨a * P.r, c ^ order / a * P.sx, c ^ order / a * P.sy, P.ratio, P.fx, P.fy⟩

theorem inRange_map {A B : Type} (g : A → B) (times : List K) (recs : List A) (tmin : K) (tmax : Option K) :
    inRange times (recs.map g) tmin tmax = (inRange times recs tmin tmax).map g := by
  simp only [inRange, List.map_drop, List.map_take]

theorem loadPdf_scale {n : ℕ} {c : K} (hc : 0 < c) (times : List K) (recs : List ((Fin n → K) × K × K)) (tmin : K) (tmax : Option K) :
    loadPdf n times (recs.map (scaleRec c)) tmin tmax
      = (loadPdf n times recs tmin tmax).map fun q => (fun i => q.1 i / c, fun i => c * q.2 i) := by
  unfold loadPdf
  rw [inRange_map]
  simp only [List.length_map, List.map_map]
  split_ifs
  · rfl
  · have e1 : ∀ l : List ((Fin n → K) × K × K), mean (l.map ((fun r => r.2.1) ∘ scaleRec c)) = c * mean (l.map fun r => r.2.1) := by
      intro l; rw [← mean_scale, List.map_map]; rfl
    have e2 : ∀ l : List ((Fin n → K) × K × K), mean (l.map ((fun r => r.2.2) ∘ scaleRec c)) = c * mean (l.map fun r => r.2.2) := by
      intro l; rw [← mean_scale, List.map_map]; rfl
    simp only [Option.map_some, e1, e2]
    congr 2
    · funext i
      rw [← mean_div, List.map_map]
      congr 1
      refine List.map_congr_left fun r _ => ?_
      simp only [Function.comp, scaleRec, valuesInc_scale]
      rw [← interp_scale hc, List.map_ofFn]
      rfl
    · funext i
      exact valuesInc_scale _ _ _ _

theorem strfunc_scale {n : ℕ} (hn : 2 ≤ n) {c : K} (hc : 0 < c) (p v : Fin n → K) (m : ℕ) :
    strfunc hn (fun i => p i / c) (fun i => c * v i) m false = c ^ m * strfunc hn p v m false := by
  simp only [strfunc, Bool.false_eq_true, if_false]
  rw [← mul_sub, abs_mul, abs_of_pos hc, mul_sum, mul_sum, mul_sum]
  refine sum_congr rfl fun i _ => ?_
  rw [mul_pow]
  field_simp

theorem flatness_scale {n : ℕ} (hn : 2 ≤ n) {c : K} (hc : 0 < c) (p v : Fin n → K) :
    flatness hn (fun i => p i / c) (fun i => c * v i) = flatness hn p v := by
  rw [flatness, flatness, strfunc_scale hn hc, strfunc_scale hn hc, mul_pow, ← pow_mul]
  exact mul_div_mul_left _ _ (by positivity)

/-- C67 (the figure does not depend on the units): with velocities `c` times larger and lengths `a` times larger, the figure for the order
`m` is the same figure with abscissas `a` times larger and ordinates `c ^ m / a` times larger; the ratio of the structure functions and the
flatnesses are the same. -/
theorem C67_plot_units {n : ℕ} (hn : 2 ≤ n) {c a : K} (hc : 0 < c) (ha : 0 < a) (f : IncFile K n) (tmin : K) (tmax : Option K) (order : ℕ) :
    plotInc hn (scaleFile c a f) tmin tmax order
      = (plotInc hn f tmin tmax order).map fun l => l.map fun P => P.map (scalePoint c a order) := by
  unfold plotInc
  have ht : (scaleFile c a f).times = f.times := rfl
  rw [ht]
  by_cases h : f.times.length < 2
  · rw [if_pos h, if_pos h]; rfl
  · rw [if_neg h, if_neg h]
    simp only [Except.map]
    congr 1
    refine List.ext_getElem? fun i => ?_
    simp only [List.getElem?_map, List.getElem?_mapIdx, show (scaleFile c a f).rxs = f.rxs from rfl, Option.map_map]
    congr 1
    funext rx
    simp only [Function.comp_apply, plotPoint, scaleFile, loadPdf_scale hc]
    cases loadPdf n f.times (f.records "ux" i) tmin tmax <;> cases loadPdf n f.times (f.records "uy" i) tmin tmax <;>
      simp only [Option.map_some, Option.map_none]
    simp only [strfunc_scale hn hc, flatness_scale hn hc, scalePoint, abs_mul, Option.some.injEq, Point.mk.injEq]
    have hcm : |c ^ order| ≠ 0 := abs_ne_zero.2 (by positivity)
    refine ⟨by ring, ?_, ?_, mul_div_mul_left _ _ hcm, trivial, trivial⟩ <;>
    · rw [show ∀ r : K, r * (a * f.Lx / f.nx) = a * (r * (f.Lx / f.nx)) by intro r; ring]
      rw [mul_div_mul_comm]

/-! ### The figure of the densities -/

/-- C67 (`plot_pdf`): at most seven densities, and not more than there are separations: the separations drawn are different, they begin with
the first one and are separations of the file; each has its color, and its curve is the density multiplied by the power of the increments. -/
theorem C67_plot_pdf {n : ℕ} (f : IncFile K n) (tmin : K) (tmax : Option K) (key : String) (order : ℕ) {nb : ℕ} (h0 : 1 ≤ nb) (h7 : nb ≤ 7)
    (hs : nb ≤ f.rxs.length) :
    ∃ l, plotPdf f tmin tmax key order nb = .ok l ∧ l.length = nb ∧ (l.map fun q => q.1).head? = some 0 ∧
      (l.map fun q => q.1).Pairwise (· < ·) ∧ (l.map fun q => q.2.1).Nodup ∧
      ∀ q ∈ l, q.1 < f.rxs.length ∧ (loadPdf n f.times (f.records key q.1) tmin tmax = none ∧ q.2.2 = none ∨
        ∃ p v, loadPdf n f.times (f.records key q.1) tmin tmax = some (p, v) ∧ q.2.2 = some (v, fun j => p j * v j ^ order)) := by
  have hl : (pdfSeparations f.rxs.length nb).length = nb := by simp [pdfSeparations]
  have e1 : ∀ (g : ℕ → Char → Option ((Fin n → K) × (Fin n → K))) (l : List ℕ) (cs : List Char), l.length ≤ cs.length →
      (List.zipWith (fun i c => (i, c, g i c)) l cs).map (fun q => q.1) = l := by
    intro g l
    induction l with
    | nil => simp
    | cons x l ih =>
      intro cs h
      cases cs with
      | nil => simp at h
      | cons c cs => simp only [List.zipWith_cons_cons, List.map_cons]; rw [ih cs (by simpa using h)]
  have e2 : ∀ (g : ℕ → Char → Option ((Fin n → K) × (Fin n → K))) (l : List ℕ) (cs : List Char), l.length ≤ cs.length →
      (List.zipWith (fun i c => (i, c, g i c)) l cs).map (fun q => q.2.1) = cs.take l.length := by
    intro g l
    induction l with
    | nil => simp
    | cons x l ih =>
      intro cs h
      cases cs with
      | nil => simp at h
      | cons c cs => simp only [List.zipWith_cons_cons, List.map_cons, List.length_cons, List.take_succ_cons]; rw [ih cs (by simpa using h)]
  have hz : (pdfSeparations f.rxs.length nb).length ≤ ['k', 'y', 'r', 'b', 'g', 'm', 'c'].length := by rw [hl]; simpa using h7
  refine ⟨_, by rw [plotPdf, if_neg (by omega)]; simp only [hl]; rw [if_neg (by omega)], ?_, ?_, ?_, ?_, ?_⟩
  · rw [List.length_zipWith, hl]; simpa using h7
  · rw [e1 (fun i _ => _) _ _ hz, pdfSeparations]
    obtain ⟨m, rfl⟩ : ∃ m, nb = m + 1 := ⟨nb - 1, by omega⟩
    simp [List.range_succ_eq_map]
  · rw [e1 (fun i _ => _) _ _ hz, pdfSeparations, List.pairwise_map]
    refine List.pairwise_lt_range.imp fun {i j} hij => ?_
    have : (i + 1) * f.rxs.length / nb ≤ j * f.rxs.length / nb := Nat.div_le_div_right (Nat.mul_le_mul_right _ hij)
    refine lt_of_lt_of_le ?_ this
    rw [Nat.add_mul, one_mul]
    calc i * f.rxs.length / nb < i * f.rxs.length / nb + 1 := Nat.lt_succ_self _
      _ = (i * f.rxs.length + nb) / nb := (Nat.add_div_right _ (by omega)).symm
      _ ≤ _ := Nat.div_le_div_right (by omega)
  · rw [e2 (fun i _ => _) _ _ hz]
    exact List.Nodup.sublist (List.take_sublist _ _) (by decide)
  · intro q hq
    obtain ⟨k, hk, rfl⟩ := List.getElem_of_mem hq
    simp only [List.getElem_zipWith]
    constructor
    · simp only [pdfSeparations, List.getElem_map, List.getElem_range]
      have : k < nb := by
        rw [List.length_zipWith, hl] at hk; omega
      rw [Nat.div_lt_iff_lt_mul (by omega), mul_comm]
      exact Nat.mul_lt_mul_of_pos_left this (by omega)
    · cases hL : loadPdf n f.times (f.records key ((pdfSeparations f.rxs.length nb)[k]'(by
        rw [List.length_zipWith] at hk; omega))) tmin tmax with
      | none => exact .inl ⟨rfl, rfl⟩
      | some q => exact .inr ⟨q.1, q.2, rfl, rfl⟩

/-- C67, finding: `plot_pdf` has only seven colors: with `nb_rx_to_plot` larger than seven it raises `IndexError`. -/
theorem C67_plot_pdf_colors_violated {n : ℕ} (f : IncFile K n) (hs : f.rxs ≠ []) (tmin : K) (tmax : Option K) (key : String) (order : ℕ)
    {nb : ℕ} (h : 7 < nb) : plotPdf f tmin tmax key order nb = .error "IndexError" := by
  have : f.rxs.length ≠ 0 := fun h => hs (List.length_eq_zero_iff.1 h)
  rw [plotPdf, if_neg (by omega)]
  simp only [pdfSeparations, List.length_map, List.length_range]
  rw [if_pos h]

/-- C67, finding: with more densities than separations (and less than eight), the same density is drawn several times. -/
theorem C67_plot_pdf_repeated_violated {n : ℕ} (f : IncFile K n) {size nb : ℕ} (hs : f.rxs.length = size) (h1 : 1 ≤ size) (h : size < nb)
    (h7 : nb ≤ 7) (tmin : K) (tmax : Option K) (key : String) (order : ℕ) :
    ∃ l, plotPdf f tmin tmax key order nb = .ok l ∧ ∃ (q q' : _) (t : _), l = q :: q' :: t ∧ q.1 = q'.1 ∧ q.2.2 = q'.2.2 := by
  refine ⟨_, by
    rw [plotPdf, if_neg (by omega)]
    simp only [pdfSeparations, List.length_map, List.length_range]
    rw [if_neg (by omega)], ?_⟩
  obtain ⟨m, rfl⟩ : ∃ m, nb = m + 2 := ⟨nb - 2, by omega⟩
  rw [show List.range (m + 2) = 0 :: 1 :: (List.range m).map (· + 2) by
    rw [List.range_succ_eq_map, List.range_succ_eq_map]; simp [Function.comp_def]]
  refine ⟨_, _, _, rfl, ?_, ?_⟩
  · simp only [hs]
    rw [Nat.zero_mul, Nat.one_mul, Nat.zero_div, Nat.div_eq_of_lt h]
  · simp only [hs]
    rw [Nat.zero_mul, Nat.one_mul, Nat.zero_div, Nat.div_eq_of_lt h]

/-! ### The figure of the law of Kolmogorov -/

theorem mean_add (l l' : List K) (h : l.length = l'.length) : mean (List.zipWith (· + ·) l l') = mean l + mean l' := by
  simp only [mean, List.length_zipWith, ← h, min_self, ← add_div]
  congr 1
  induction l generalizing l' with
  | nil => cases l' <;> simp_all
  | cons x l ih =>
    cases l' with
    | nil => simp at h
    | cons y l' =>
      simp only [List.zipWith_cons_cons, List.sum_cons]
      rw [ih l' (by simpa using h)]
      ring

/-- C67 (`plot_Kolmo`): for the averages of what the simulations wrote, the black and the yellow curves are equal: the red one plus the blue
one. -/
theorem C67_plot_kolmo (c2 r : K) (rx : ℕ) (fields : List (List (List (Cell K)))) :
    (plotKolmo r (fields.map (swStruct c2 rx))).1 = (plotKolmo r (fields.map (swStruct c2 rx))).2.2.2.1 ∧
    (plotKolmo r (fields.map (swStruct c2 rx))).1
      = (plotKolmo r (fields.map (swStruct c2 rx))).2.1 + (plotKolmo r (fields.map (swStruct c2 rx))).2.2.1 := by
  have : (kolmoMeans (fields.map (swStruct c2 rx))).2.2.2 = (kolmoMeans (fields.map (swStruct c2 rx))).1 +
      (kolmoMeans (fields.map (swStruct c2 rx))).2.1 + (kolmoMeans (fields.map (swStruct c2 rx))).2.2.1 := by
    simp only [kolmoMeans, List.map_map]
    simp only [mean, List.length_map, ← add_div]
    congr 1
    induction fields with
    | nil => simp
    | cons x l ih =>
      simp only [List.map_cons, List.sum_cons, ih, Function.comp_apply]
      simp only [swStruct]
      ring
  constructor
  · simp only [plotKolmo, this]
  · simp only [plotKolmo, this, ← add_div]

/-- The values at one point of velocities `c` times larger (the elevation is without dimension). -/
def scaleCell (c : K) (q : Cell K) : Cell K := ⟨c * q.ux, c * q.uy, q.eta⟩

theorem increments_scale (c : K) (l : List K) (rx : ℕ) :
    Increm.increments (l.map fun x => c * x) rx = (Increm.increments l rx).map fun x => c * x := by
  simp only [Increm.increments, List.length_map, ← List.map_drop, ← List.map_take, List.zipWith_map, List.map_zipWith, mul_sub]

/-- C67, finding: the curves of `plot_Kolmo` are compared to one, but they are divided by `-4 r` without the rate of energy `ε` of the law
`-4 ε r`: they are not dimensionless. With velocities twice larger (and the waves twice faster), the curves are eight times larger. -/
theorem C67_plot_kolmo_violated (c2 r : K) (rx : ℕ) (rows : List (List (Cell K))) :
    (plotKolmo r [swStruct (2 ^ 2 * c2) rx (rows.map fun l => l.map (scaleCell 2))]).1 = 8 * (plotKolmo r [swStruct c2 rx rows]).1 := by
  have inc : ∀ (g g' : Cell K → K) (c : K), (∀ q, g' (scaleCell 2 q) = c * g q) →
      incOf g' rx (rows.map fun l => l.map (scaleCell 2)) = (incOf g rx rows).map fun x => c * x := by
    intro g g' c h
    have e : (rows.map fun l => l.map (scaleCell 2)).map (fun l => l.map g') = (rows.map fun l => l.map g).map fun l => l.map fun x => c * x := by
      simp only [List.map_map]
      refine List.map_congr_left fun l _ => ?_
      simp only [Function.comp_apply, List.map_map]
      exact List.map_congr_left fun q _ => h q
    rw [incOf, e, incOf, incRows, incRows, List.map_flatten]
    simp only [List.map_map]
    congr 1
    refine List.map_congr_left fun l _ => ?_
    simp only [Function.comp_apply, increments_scale]
  have hx := inc Cell.ux Cell.ux 2 fun q => rfl
  have hy := inc Cell.uy Cell.uy 2 fun q => rfl
  have he := inc Cell.eta Cell.eta 1 fun q => (one_mul _).symm
  have hJ := inc (fun c => (1 + c.eta) * c.ux) (fun c => (1 + c.eta) * c.ux) 2 fun q => by simp only [scaleCell]; ring
  have zip : ∀ (φ φ' : K → K → K) (a b d : K) (l l' : List K), (∀ x y, φ (a * x) (b * y) = d * φ' x y) →
      mean (List.zipWith φ (l.map fun x => a * x) (l'.map fun x => b * x)) = d * mean (List.zipWith φ' l l') := by
    intro φ φ' a b d l l' h
    rw [← mean_scale, List.map_zipWith, List.zipWith_map]
    congr 2
    funext x y
    exact h x y
  simp only [plotKolmo, kolmoMeans, swStruct, hx, hy, he, hJ, List.map_cons, List.map_nil]
  rw [zip _ (fun x j => x ^ 2 * j) 2 2 8 _ _ fun x y => by ring, zip _ (fun x j => x ^ 2 * j) 2 2 8 _ _ fun x y => by ring,
    zip _ (fun x j => x ^ 2 * j) 1 2 2 _ _ fun x y => by ring]
  simp only [mean, List.sum_cons, List.sum_nil, List.length_cons, List.length_nil]
  ring

end Verif.Pdf
