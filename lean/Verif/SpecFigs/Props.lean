import Verif.SpecFigs.Lemmas
import Verif.ForcedRegion.Spec
import Mathlib.Tactic.FieldSimp

/-! # C102: the figures of the spectra -/

namespace Verif.SpecFigs

open Verif.PhysFiles (closest)
open Finset

/-! ## `plot1d`, `plot2d` and `plot3d` of ns2d and ns3d -/

/-- C102 (average): without `delta_t`, the figure has one curve: for each wavenumber which is not zero, the mean of the saved spectrum over the
records from the one closest to `tmin` to the one closest to `tmax`, multiplied by `k ** coef_compensate`; it is not drawn if it is smaller
than 1e-15. -/
theorem C102_average_partial {m : ℕ} (f : SpecFile m) {s : ℕ → Fin m → ℝ} (hs : Records f.times f.spectra s) {tmin tmax : ℝ} {i0 i1 : ℕ}
    (h0 : IsClosest f.times tmin i0) (h1 : IsClosest f.times tmax i1) (h : i0 ≤ i1) (coef : ℝ) :
    ∃ c : Fin m → Option ℝ, plotNdim f tmin (some tmax) none true coef = .ok ⟨[], some c⟩ ∧
      ∀ i, (f.ks i ≠ 0 → 1e-15 ≤ timeMean s i0 i1 i → c i = some (timeMean s i0 i1 i * f.ks i ^ coef)) ∧
        (f.ks i = 0 ∨ timeMean s i0 i1 i < 1e-15 → c i = none) := by
  have hne : f.times ≠ [] := by intro e; have := h0.lt; rw [e] at this; simp at this
  refine ⟨averageCurve maskNan coef f i0 i1, ?_, fun i => ⟨fun hk hM => ?_, fun hk => ?_⟩⟩
  · simp only [plotNdim, if_neg hne, Option.getD_some, h0.eq, h1.eq, plotDirection, if_true]
  · rw [averageCurve, compensated, average_records hs h h1.lt, comp, if_neg hk]
    simp only [Option.bind_some, maskNan]
    rw [if_neg (by norm_num at hM ⊢; exact hM)]
  · rw [averageCurve, compensated, average_records hs h h1.lt, comp]
    simp only [Option.bind_some, maskNan]
    rcases hk with hk | hk
    · rw [if_pos hk]; split <;> simp_all
    · rw [if_pos (by norm_num at hk ⊢; exact hk)]

/-- C102: without `tmax` the last time is used. -/
theorem C102_tmax {m : ℕ} (f : SpecFile m) (tmin : ℝ) {T : ℝ} (hT : T ∈ f.times) (hmax : ∀ t ∈ f.times, t ≤ T) (dt : Option ℝ) (b : Bool)
    (coef : ℝ) : plotNdim f tmin none dt b coef = plotNdim f tmin (some T) dt b coef ∧
      plotTimes f tmin none dt b coef = plotTimes f tmin (some T) dt b coef := by
  have : f.times.max? = some T := by
    rw [List.max?_eq_some_iff]
    exact ⟨hT, hmax⟩
  simp only [plotNdim, plotTimes, this, Option.getD_none, Option.getD_some, and_self]

/-- C102 (records): for records every `τ`, `delta_t = p τ` with `p > 0` and a range of at least two records, the thin curves are those of the
records `i0, i0 + p, i0 + 2 p, ...` of the range, in the order of the time, with a transparency from 0.1 for the first record of the range to 1
for the last one, and the thick curve is the one of the figure without `delta_t`. -/
theorem C102_records {m : ℕ} (f : SpecFile m) {s : ℕ → Fin m → ℝ} (hs : Records f.times f.spectra s) {t0 τ : ℝ} (hτ : 0 < τ)
    (hr : Regular f.times t0 τ) {tmin tmax : ℝ} {i0 i1 : ℕ} (h0 : IsClosest f.times tmin i0) (h1 : IsClosest f.times tmax i1) (h : i0 < i1)
    {p : ℕ} (hp : 0 < p) (b : Bool) (coef : ℝ) :
    ∃ F G, plotNdim f tmin (some tmax) (some (p * τ)) b coef = .ok F ∧ plotNdim f tmin (some tmax) none b coef = .ok G ∧
      F.thick = G.thick ∧ (F.thin.map fun q => q.1).Pairwise (· < ·) ∧
      (∀ i, i ∈ F.thin.map (fun q => q.1) ↔ ∃ j, i = i0 + j * p ∧ i ≤ i1) ∧
      ∀ q ∈ F.thin, (1 / 10 ≤ q.2.1 ∧ q.2.1 ≤ 1) ∧ (q.1 = i0 → q.2.1 = 1 / 10) ∧ (q.1 = i1 → q.2.1 = 1) ∧
        ∃ c : Fin m → Option ℝ, q.2.2 = some c ∧
          ∀ i, (f.ks i ≠ 0 → 1e-15 ≤ s q.1 i → c i = some (s q.1 i * f.ks i ^ coef)) ∧ (f.ks i = 0 ∨ s q.1 i < 1e-15 → c i = none) := by
  have hlt := h1.lt
  have hne : f.times ≠ [] := by intro e; rw [e] at hlt; simp at hlt
  have hd : (p : ℝ) * τ ≠ 0 := by positivity
  simp only [plotNdim, if_neg hne, if_neg hd, Option.getD_some, h0.eq, h1.eq, stepOf_regular hr (by omega) hτ.ne', if_neg hp.ne',
      plotDirection, if_neg h.ne']
  refine ⟨_, _, rfl, rfl, rfl, ?_, ?_, ?_⟩
  · simp only [List.map_map, Function.comp_def, List.map_id']
    exact indices_sorted _ _ _
  · intro i
    simp only [List.map_map, Function.comp_def, List.map_id', mem_indices]
    constructor
    · rintro ⟨a, b, c⟩
      obtain ⟨j, hj⟩ := Nat.dvd_of_mod_eq_zero c
      exact ⟨j, by rw [mul_comm]; omega, b⟩
    · rintro ⟨j, rfl, b⟩
      exact ⟨by omega, b, by rw [Nat.add_sub_cancel_left]; exact Nat.mul_mod_left _ _⟩
  · intro q hq
    simp only [List.mem_map] at hq
    obtain ⟨i, hi, rfl⟩ := hq
    rw [mem_indices] at hi
    have d : (0 : ℝ) < i1 - i0 := by have : (i0 : ℝ) < i1 := by exact_mod_cast h
                                     linarith
    have e : (0.1 - (1.0 - 0.1) / ((i1 : ℝ) - i0) * i0 + (1.0 - 0.1) / ((i1 : ℝ) - i0) * i : ℝ)
        = 1 / 10 + 9 / 10 * ((i - i0) / (i1 - i0)) := by
      rw [show (1.0 - 0.1 : ℝ) = 9 / 10 by norm_num, show (0.1 : ℝ) = 1 / 10 by norm_num]
      field_simp
      ring
    have a0 : (i0 : ℝ) ≤ i := by exact_mod_cast hi.1
    have a1 : (i : ℝ) ≤ i1 := by exact_mod_cast hi.2.1
    have b0 : (0 : ℝ) ≤ (i - i0) / (i1 - i0) := div_nonneg (by linarith) d.le
    have b1 : ((i : ℝ) - i0) / (i1 - i0) ≤ 1 := (div_le_one d).2 (by linarith)
    refine ⟨by simp only [e]; constructor <;> linarith, ?_, ?_, ?_⟩
    · intro hq
      have hq : i = i0 := hq
      subst hq
      simp only [e, sub_self, zero_div]; ring
    · intro hq
      have hq : i = i1 := hq
      subst hq
      simp only [e, div_self d.ne']; ring
    · have hi' : f.spectra[i]? = some (s i) := by
        rw [hs, List.getElem?_map, List.getElem?_range (by omega)]; rfl
      refine ⟨_, by simp only [recordCurve, hi', Option.map_some]; rfl, fun k => ⟨fun hk hM => ?_, fun hk => ?_⟩⟩
      · simp only [compensated, comp, if_neg hk, maskNan]
        rw [if_neg (by norm_num at hM ⊢; exact hM)]
      · simp only [compensated, comp, maskNan]
        rcases hk with hk | hk
        · rw [if_pos hk]; split <;> simp_all
        · rw [if_pos (by norm_num at hk ⊢; exact hk)]

/-- Three records of the spectrum `1 / k` for the wavenumbers 0 to 3, which grows. -/
noncomputable def exFile : SpecFile 4 := ⟨[0, 1, 2], fun i => i, [fun i => 1, fun i => 2, fun i => 3]⟩

theorem exFile_records : Records exFile.times exFile.spectra fun j _ => (j : ℝ) + 1 := by
  simp only [Records, exFile, List.length_cons, List.length_nil, List.range_succ, List.range_zero]
  simp
  norm_num

theorem exFile_regular : Regular exFile.times 0 1 := by
  simp [Regular, exFile, List.range_succ]

theorem exFile_closest : IsClosest exFile.times 0 0 ∧ IsClosest exFile.times 2 2 := by
  refine ⟨⟨0, rfl, by simp [exFile], by simp⟩, ⟨2, rfl, by simp [exFile], ?_⟩⟩
  intro j y hj hy
  have : j = 0 ∨ j = 1 := by omega
  rcases this with rfl | rfl <;> simp [exFile] at hy <;> subst hy <;> norm_num

example : ∃ c : Fin 4 → Option ℝ, plotNdim exFile 0 (some 2) none true 1 = .ok ⟨[], some c⟩ ∧ c 3 = some 6 := by
  obtain ⟨c, h, hc⟩ := C102_average_partial exFile exFile_records exFile_closest.1 exFile_closest.2 (by omega) 1
  refine ⟨c, h, ?_⟩
  have e : timeMean (fun j (_ : Fin 4) => (j : ℝ) + 1) 0 2 3 = 2 := by
    rw [timeMean, show Finset.Icc 0 2 = {0, 1, 2} by decide]; norm_num
  have := (hc 3).1 (by simp [exFile]) (by rw [e]; norm_num)
  rw [this, e]
  simp [exFile]
  norm_num

example : ∃ F G, plotNdim exFile 0 (some 2) (some ((2 : ℕ) * 1)) true 1 = .ok F ∧ plotNdim exFile 0 (some 2) none true 1 = .ok G ∧
    F.thick = G.thick := by
  obtain ⟨F, G, h1, h2, h3, -⟩ :=
    C102_records exFile exFile_records one_pos exFile_regular exFile_closest.1 exFile_closest.2 (by omega) (p := 2) (by omega) true 1
  exact ⟨F, G, h1, h2, h3⟩

/-- C102, finding: with `delta_t`, a figure for one time (`tmin = tmax`) raises: the slope of the transparency is a division by zero. -/
theorem C102_one_time_violated {m : ℕ} (f : SpecFile m) (h2 : 2 ≤ f.times.length) (t : ℝ) {dt : ℝ} (hd : dt ≠ 0) (b : Bool) (coef : ℝ) :
    plotNdim f t (some t) (some dt) b coef = .error "ValueError" ∧ ∃ F, plotNdim f t (some t) none b coef = .ok F := by
  have hne : f.times ≠ [] := by intro e; rw [e] at h2; simp at h2
  constructor
  · simp only [plotNdim, if_neg hne, if_neg hd, stepOf, if_neg (show ¬f.times.length < 2 by omega), plotDirection, Option.getD_some, if_true]
  · simp only [plotNdim, if_neg hne, plotDirection]
    exact ⟨_, rfl⟩

/-- C102, finding: the threshold 1e-15 is not relative: the figure of a spectrum whose values are all smaller has no point (a flow slower than
3e-8 in the units of the simulation), although its curve is drawn for a flow a million times faster. -/
theorem C102_threshold_violated {m : ℕ} (f : SpecFile m) {s : ℕ → Fin m → ℝ} (hs : Records f.times f.spectra s) {tmin tmax : ℝ} {i0 i1 : ℕ}
    (h0 : IsClosest f.times tmin i0) (h1 : IsClosest f.times tmax i1) (h : i0 ≤ i1) (coef : ℝ) (hsmall : ∀ j i, s j i < 1e-15) :
    plotNdim f tmin (some tmax) none true coef = .ok ⟨[], some fun _ => none⟩ := by
  obtain ⟨c, hc, hi⟩ := C102_average_partial f hs h0 h1 h coef
  rw [hc]
  congr 3
  funext i
  refine (hi i).2 (.inr ?_)
  have hpos : (0 : ℝ) < (i1 + 1 - i0 : ℕ) := by exact_mod_cast (by omega : 0 < i1 + 1 - i0)
  rw [timeMean, div_lt_iff₀ hpos]
  calc ∑ j ∈ Finset.Icc i0 i1, s j i < ∑ _j ∈ Finset.Icc i0 i1, (1e-15 : ℝ) := sum_lt_sum_of_nonempty ⟨i0, by simp [h]⟩ fun j _ => hsmall j i
    _ = _ := by rw [sum_const, Nat.card_Icc, nsmul_eq_mul, mul_comm]

/-! ## `plot1d_times` and `plot3d_times` of ns3d -/

/-- C102 (`plot*_times`): with at least two records, there are no more thin curves than records in the range (and therefore enough colors);
they are curves of records of the range, the first one included, in the order of the time; the black curve is the mean over the range. A value
smaller than 1e-15 is drawn as zero. -/
theorem C102_times_partial {m : ℕ} (f : SpecFile m) {s : ℕ → Fin m → ℝ} (hs : Records f.times f.spectra s) (h2 : 2 ≤ f.times.length)
    {tmin tmax : ℝ} {i0 i1 : ℕ} (h0 : IsClosest f.times tmin i0) (h1 : IsClosest f.times tmax i1) (h : i0 ≤ i1) (dt : Option ℝ) (coef : ℝ) :
    ∃ l c, plotTimes f tmin (some tmax) dt false coef = .ok (l, c) ∧ (l.map fun q => q.1).head? = some i0 ∧
      (l.map fun q => q.1).Pairwise (· < ·) ∧ l.length ≤ i1 + 1 - i0 ∧
      (∀ i, f.ks i ≠ 0 → 1e-15 ≤ timeMean s i0 i1 i → c i = some (timeMean s i0 i1 i * f.ks i ^ coef)) ∧
      ∀ q ∈ l, (i0 ≤ q.1 ∧ q.1 ≤ i1) ∧ ∃ c' : Fin m → Option ℝ, q.2 = some c' ∧
        ∀ i, f.ks i ≠ 0 → 1e-15 ≤ s q.1 i → c' i = some (s q.1 i * f.ks i ^ coef) := by
  have hlt := h1.lt
  simp only [plotTimes, Option.getD_some, h0.eq, h1.eq, stepOf, if_neg (show ¬f.times.length < 2 by omega),
    if_neg (show ¬i1 + 1 < i0 by omega), Bool.false_eq_true, if_false]
  set st := if _ = 0 then 1 else _ with hst
  rw [if_neg (not_lt.2 (indices_length i0 i1 st))]
  refine ⟨_, _, rfl, ?_, ?_, ?_, ?_, ?_⟩
  · simp only [List.map_map, Function.comp_def, List.map_id']
    obtain ⟨n, hn⟩ : ∃ n, i1 + 1 - i0 = n + 1 := ⟨i1 - i0, by omega⟩
    rw [indices, hn, List.range_succ_eq_map]
    simp
  · simp only [List.map_map, Function.comp_def, List.map_id']
    exact indices_sorted _ _ _
  · rw [List.length_map]; exact indices_length _ _ _
  · intro i hk hM
    rw [averageCurve, compensated, average_records hs h hlt, comp, if_neg hk]
    simp only [Option.bind_some, maskZero]
    rw [if_neg (by norm_num at hM ⊢; exact hM)]
  · intro q hq
    simp only [List.mem_map] at hq
    obtain ⟨i, hi, rfl⟩ := hq
    rw [mem_indices] at hi
    have hi' : f.spectra[i]? = some (s i) := by
      rw [hs, List.getElem?_map, List.getElem?_range (by omega)]; rfl
    refine ⟨⟨hi.1, hi.2.1⟩, _, by simp only [recordCurve, hi', Option.map_some]; rfl, fun k hk hM => ?_⟩
    simp only [compensated, comp, if_neg hk, maskZero]
    rw [if_neg (by norm_num at hM ⊢; exact hM)]

example : ∃ l c, plotTimes exFile 0 (some 2) none false 1 = .ok (l, c) ∧ l.length ≤ 3 := by
  obtain ⟨l, c, h, -, -, h', -⟩ :=
    C102_times_partial exFile exFile_records (by simp [exFile]) exFile_closest.1 exFile_closest.2 (by omega) none 1
  exact ⟨l, c, h, h'⟩

/-- C102, finding: `plot1d_times` and `plot3d_times` of ns3d raise when there is one record, even for the average only. -/
theorem C102_times_one_record_violated {m : ℕ} (f : SpecFile m) (h1 : f.times.length = 1) (tmin : ℝ) (tmax dt : Option ℝ) (b : Bool)
    (coef : ℝ) : plotTimes f tmin tmax dt b coef = .error "ValueError" := by
  simp only [plotTimes, stepOf, if_pos (show f.times.length < 2 by omega)]

/-! ## sw1l and plate2d -/

theorem sumRecords_eq {a : ℕ} (f : SpecFile1d a a) {x y : ℕ → Fin a → ℝ} (hx : Records f.times f.spectraX x) (hy : Records f.times f.spectraY y) :
    ∃ l, sumRecords f = .ok l ∧ Records f.times l fun j i => x j i + y j i := by
  refine ⟨_, ?_, rfl⟩
  rw [sumRecords, hx, hy]
  generalize f.times.length = N
  induction (List.range N) with
  | nil => rfl
  | cons j l ih =>
    simp only [List.map_cons, List.zipWith_cons_cons, List.mapM_cons, id, addArrays, dite_true, bind, Except.bind, Fin.cast_eq_self]
    rw [ih]
    rfl

theorem sumRecords_ne {a b : ℕ} (hab : a ≠ b) (f : SpecFile1d a b) (hx : f.spectraX ≠ []) (hy : f.spectraY ≠ []) :
    sumRecords f = .error "ValueError" := by
  rw [sumRecords]
  cases hX : f.spectraX with
  | nil => exact absurd hX hx
  | cons x lx =>
    cases hY : f.spectraY with
    | nil => exact absurd hY hy
    | cons y ly => simp [List.mapM_cons, addArrays, hab, bind, Except.bind]

/-- C102 (sw1l, `plot1d`), for a grid with as many points in both directions and at least two records: the thick curve is the mean over the
range of the sum of the spectra versus `kx` and `ky`, with the compensation. -/
theorem C102_sw1l_plot1d_partial {a : ℕ} (f : SpecFile1d a a) {x y : ℕ → Fin a → ℝ} (hx : Records f.times f.spectraX x)
    (hy : Records f.times f.spectraY y) (h2 : 2 ≤ f.times.length) {tmin tmax : ℝ} {i0 i1 : ℕ} (h0 : IsClosest f.times tmin i0)
    (h1 : IsClosest f.times tmax i1) (h : i0 ≤ i1) (dt coef : ℝ) :
    ∃ thin c, plot1dSw f tmin tmax dt coef = .ok (thin, c) ∧
      ∀ i, c i = some ((timeMean x i0 i1 i + timeMean y i0 i1 i) * f.kx i ^ coef) := by
  obtain ⟨l, hl, hr⟩ := sumRecords_eq f hx hy
  simp only [plot1dSw, stepOf, if_neg (show ¬f.times.length < 2 by omega), bind, Except.bind, hl, h0.eq, h1.eq]
  refine ⟨_, _, rfl, fun i => ?_⟩
  rw [average_records hr h h1.lt, Option.map_some]
  congr 2
  simp only [timeMean, ← add_div, sum_add_distrib]

/-- C102, finding (sw1l and plate2d): `plot1d` adds the spectra versus `kx` and versus `ky`: it raises for all the grids with different numbers
of points in the two directions. -/
theorem C102_plot1d_shape_violated {a b : ℕ} (hab : a ≠ b) (f : SpecFile1d a b) (hx : f.spectraX ≠ []) (hy : f.spectraY ≠ [])
    (tmin tmax dt coef : ℝ) :
    plot1dSw f tmin tmax dt coef = .error "ValueError" ∧ plot1dPlate f tmin tmax dt coef = .error "ValueError" := by
  simp only [plot1dSw, plot1dPlate, stepOf, sumRecords_ne hab f hx hy, bind, Except.bind]
  by_cases hc : f.times.length < 2
  · simp only [if_pos hc, and_self]
  · simp only [if_neg hc, and_self]

/-- C102, finding (sw1l): if `Lx` and `Ly` are different, the curve at `kx` contains the spectrum at another `ky`: for a flow with energy only at
one wavenumber `ky`, the curve has a point at a wavenumber without energy. -/
theorem C102_plot1d_axes_violated {a : ℕ} (f : SpecFile1d a a) {y : ℕ → Fin a → ℝ} (hx : Records f.times f.spectraX fun _ _ => 0)
    (hy : Records f.times f.spectraY y) (h2 : 2 ≤ f.times.length) {tmin tmax : ℝ} {i0 i1 : ℕ} (h0 : IsClosest f.times tmin i0)
    (h1 : IsClosest f.times tmax i1) (h : i0 ≤ i1) (dt coef : ℝ) (i : Fin a) (hk : 0 < f.kx i) (hne : f.kx i ≠ f.ky i)
    (he : timeMean y i0 i1 i ≠ 0) :
    ∃ thin c, plot1dSw f tmin tmax dt coef = .ok (thin, c) ∧ c i = some (timeMean y i0 i1 i * f.kx i ^ coef) ∧
      timeMean y i0 i1 i * f.kx i ^ coef ≠ 0 ∧ f.kx i ≠ f.ky i := by
  obtain ⟨thin, c, hc, hv⟩ := C102_sw1l_plot1d_partial f hx hy h2 h0 h1 h dt coef
  refine ⟨thin, c, hc, ?_, mul_ne_zero he (Real.rpow_pos_of_pos hk _).ne', hne⟩
  rw [hv, timeMean, sum_const_zero, zero_div, zero_add]

/-- C102, finding (plate2d): `plot1d` computes the average and does not draw it: without thin curves (`delta_t=0`) the figure has no spectrum. -/
theorem C102_plate_average_violated {a : ℕ} (f : SpecFile1d a a) {x y : ℕ → Fin a → ℝ} (hx : Records f.times f.spectraX x)
    (hy : Records f.times f.spectraY y) (h2 : 2 ≤ f.times.length) (tmin tmax coef : ℝ) :
    plot1dPlate f tmin tmax 0 coef = .ok ([], none) ∧
      ∀ dt, ∃ thin, plot1dPlate f tmin tmax dt coef = .ok (thin, none) := by
  obtain ⟨l, hl, hr⟩ := sumRecords_eq f hx hy
  constructor
  · have : Increm.npRound 0 = 0 := by simpa using Increm.npRound_intCast 0
    simp only [plot1dPlate, stepOf, if_neg (show ¬f.times.length < 2 by omega), bind, Except.bind, hl, zero_div, this]
    simp
  · intro dt
    simp only [plot1dPlate, stepOf, if_neg (show ¬f.times.length < 2 by omega), bind, Except.bind, hl]
    exact ⟨_, rfl⟩

/-- C102, finding (plate2d): with a `delta_t` smaller than half of the interval between the records, which asks for all the records, `plot1d`
draws none (sw1l draws all of them). -/
theorem C102_plate_delta_violated {a : ℕ} (f : SpecFile1d a a) {x y : ℕ → Fin a → ℝ} (hx : Records f.times f.spectraX x)
    (hy : Records f.times f.spectraY y) (h2 : 2 ≤ f.times.length) {t0 τ : ℝ} (hτ : 0 < τ) (hr : Regular f.times t0 τ) {tmin tmax : ℝ}
    {i0 i1 : ℕ} (h0 : IsClosest f.times tmin i0) (h1 : IsClosest f.times tmax i1) (h : i0 ≤ i1) {dt : ℝ} (hd : 0 < dt) (hd2 : dt < τ / 2)
    (coef : ℝ) : plot1dPlate f tmin tmax dt coef = .ok ([], none) ∧
      ∃ thin c, plot1dSw f tmin tmax dt coef = .ok (thin, c) ∧ thin.length = i1 + 1 - i0 := by
  obtain ⟨l, hl, hrec⟩ := sumRecords_eq f hx hy
  have hq : Increm.npRound (dt / τ) = 0 := by
    have q0 : 0 < dt / τ := by positivity
    have q1 : dt / τ < 1 / 2 := by rw [div_lt_iff₀ hτ]; linarith
    have fl : ⌊dt / τ⌋ = 0 := Int.floor_eq_zero_iff.2 ⟨q0.le, by linarith⟩
    rw [Increm.npRound, Int.fract, fl]
    norm_num
    intro h
    norm_num at q1
    linarith
  have hst : stepOf f.times dt = .ok 0 := by
    rw [stepOf, if_neg (by omega), meanStep_regular hr h2, hq]; rfl
  have hlt := h1.lt
  constructor
  · simp only [plot1dPlate, hst, bind, Except.bind, hl]
    simp
  · simp only [plot1dSw, hst, bind, Except.bind, hl, h0.eq, h1.eq, meanStep_regular hr h2]
    refine ⟨_, _, rfl, ?_⟩
    have c1 : (if (0 : ℕ) = 0 ∧ dt ≠ 0 then 1 else 0) = 1 := if_pos ⟨rfl, hd.ne'⟩
    simp only [true_and] at c1 ⊢
    rw [c1, if_pos (by simpa using hτ.ne'), List.length_map]
    have e : ∀ i ∈ indices i0 i1 1, l[i]? = some (fun k => x i k + y i k) := by
      intro i hi
      rw [mem_indices] at hi
      rw [hrec, List.getElem?_map, List.getElem?_range (by omega)]; rfl
    have : ∀ L : List ℕ, (∀ i ∈ L, l[i]? = some (fun k => x i k + y i k)) → (L.filterMap fun i => l[i]?).length = L.length := by
      intro L
      induction L with
      | nil => simp
      | cons j L ih =>
        intro hL
        rw [List.filterMap_cons, hL j (by simp)]
        simp only [List.length_cons]
        rw [ih fun i hi => hL i (by simp [hi])]
    rw [this _ e, indices, List.length_map, List.filter_eq_self.2 (by simp [Nat.mod_one]), List.length_range]

/-- C102 (plate2d, `plot2d`) for at least two records, at the wavenumbers with a kinetic energy of at least 1e-15: the three thick curves are the
means of the three energies, with the compensation. -/
theorem C102_plate_plot2d_partial {m : ℕ} (f : PlateFile m) {K L E : ℕ → Fin m → ℝ} (hK : Records f.times f.EK K) (hL : Records f.times f.EL L)
    (hE : Records f.times f.EE E) (h2 : 2 ≤ f.times.length) {tmin tmax : ℝ} {i0 i1 : ℕ} (h0 : IsClosest f.times tmin i0)
    (h1 : IsClosest f.times tmax i1) (h : i0 ≤ i1) (coef : ℝ) :
    ∃ r b y, plot2dPlate f tmin tmax coef = .ok (r, b, y) ∧ ∀ i, f.ks i ≠ 0 → 1e-15 ≤ timeMean K i0 i1 i →
      r i = some (timeMean K i0 i1 i * f.ks i ^ coef) ∧ b i = some (timeMean L i0 i1 i * f.ks i ^ coef) ∧
      y i = some (timeMean E i0 i1 i * f.ks i ^ coef) := by
  simp only [plot2dPlate, if_neg (show ¬f.times.length = 0 by omega), if_neg (show ¬f.times.length = 1 by omega), h0.eq, h1.eq]
  refine ⟨_, _, _, rfl, fun i hk hM => ?_⟩
  have hM' : ¬timeMean K i0 i1 i < 10e-16 := by norm_num at hM ⊢; exact hM
  simp only [average_records hK h h1.lt, average_records hL h h1.lt, average_records hE h h1.lt, Option.map_some, maskZero, if_neg hM', if_neg hk,
    and_self]

/-- C102, finding (plate2d): `plot2d` hides the potential and the elastic energy where the kinetic energy is small (a wrong mask): a bent plate
at rest is drawn without any energy. -/
theorem C102_plate_mask_violated {m : ℕ} (f : PlateFile m) {L E : ℕ → Fin m → ℝ} (hK : Records f.times f.EK fun _ _ => 0)
    (hL : Records f.times f.EL L) (hE : Records f.times f.EE E) (h2 : 2 ≤ f.times.length) {tmin tmax : ℝ} {i0 i1 : ℕ}
    (h0 : IsClosest f.times tmin i0) (h1 : IsClosest f.times tmax i1) (h : i0 ≤ i1) (coef : ℝ) :
    plot2dPlate f tmin tmax coef = .ok (fun _ => some 0, fun _ => some 0, fun _ => some 0) := by
  have e : ∀ i, timeMean (m := m) (fun _ _ => 0) i0 i1 i = 0 := by intro i; rw [timeMean, sum_const_zero, zero_div]
  simp only [plot2dPlate, if_neg (show ¬f.times.length = 0 by omega), if_neg (show ¬f.times.length = 1 by omega), h0.eq, h1.eq,
    average_records hK h h1.lt, average_records hL h h1.lt, average_records hE h h1.lt, Option.map_some, maskZero, e]
  norm_num

/-- C102, finding (plate2d): `plot2d` handles files with one record and then uses a variable which is not defined. -/
theorem C102_plate_one_record_violated {m : ℕ} (f : PlateFile m) (h1 : f.times.length = 1) (tmin tmax coef : ℝ) :
    plot2dPlate f tmin tmax coef = .error "UnboundLocalError" := by
  rw [plot2dPlate, if_neg (by omega), if_pos h1]

/-! ## ns2d.strat -/

/-- C102 (ns2d.strat, `plot2d`): the curve is the mean over the range, and (finding) it does not depend on `coef_compensate`. -/
theorem C102_strat_compensate_violated {m : ℕ} (f : SpecFile m) {s : ℕ → Fin m → ℝ} (hs : Records f.times f.spectra s) (h2 : 2 ≤ f.times.length)
    {tmin tmax : ℝ} {i0 i1 : ℕ} (h0 : IsClosest f.times tmin i0) (h1 : IsClosest f.times tmax i1) (h : i0 ≤ i1) (dt coef : ℝ) :
    plot2dStrat f tmin tmax dt coef = .ok fun i => some (timeMean s i0 i1 i) := by
  simp only [plot2dStrat, stepOf, if_neg (show ¬f.times.length < 2 by omega), bind, Except.bind, h0.eq, h1.eq]
  congr 1
  funext i
  exact average_records hs h h1.lt i

/-- The wavenumbers `0, d, ..., n d`. -/
def wavenumbers (d : ℝ) (n : ℕ) : List ℝ := (List.range (n + 1)).map fun i : ℕ => d * (i : ℝ)

theorem isClosest_wavenumbers {d : ℝ} (hd : 0 < d) {n i : ℕ} (hi : i ≤ n) {x : ℝ} (h1 : i - 1 / 2 < x) (h2 : x ≤ i + 1 / 2) :
    IsClosest (wavenumbers d n) (d * x) i := by
  have key : ∀ j : ℕ, |d * (j : ℝ) - d * x| = d * |(j : ℝ) - x| := by
    intro j; rw [← mul_sub, abs_mul, abs_of_pos hd]
  have hclose : |(i : ℝ) - x| ≤ 1 / 2 := abs_le.2 ⟨by linarith, by linarith⟩
  refine ⟨d * i, ?_, ?_, ?_⟩
  · rw [wavenumbers, List.getElem?_map, List.getElem?_range (by omega)]; rfl
  · intro y hy
    simp only [wavenumbers, List.mem_map, List.mem_range] at hy
    obtain ⟨j, -, rfl⟩ := hy
    rw [key, key]
    refine mul_le_mul_of_nonneg_left ?_ hd.le
    rcases lt_trichotomy j i with hj | rfl | hj
    · have : (j : ℝ) + 1 ≤ i := by exact_mod_cast hj
      rw [abs_of_nonpos (show (j : ℝ) - x ≤ 0 by linarith)]
      linarith
    · exact le_rfl
    · have : (i : ℝ) + 1 ≤ j := by exact_mod_cast hj
      rw [abs_of_nonneg (show 0 ≤ (j : ℝ) - x by linarith)]
      linarith
  · intro j y hj hy
    rw [wavenumbers, List.getElem?_map, List.getElem?_range (by omega)] at hy
    simp only [Option.map_some, Option.some.injEq] at hy
    subst hy
    rw [key, key]
    refine mul_lt_mul_of_pos_left ?_ hd
    have : (j : ℝ) + 1 ≤ i := by exact_mod_cast hj
    rw [abs_of_nonpos (show (j : ℝ) - x ≤ 0 by linarith), abs_lt]
    constructor <;> linarith

/-- C102, finding (ns2d.strat): `plot1d` "removes the dealiased modes" and removes also modes which are kept by the simulation: with the
wavenumbers `0, d, ..., n d` and the coefficient `c`, the wavenumber `i d` with `i ≤ c n < i + 1/2` is kept by the dealiasing
(`|k| ≤ c kmax`), and neither it nor the previous one is in the figure. -/
theorem C102_strat_dealiasing_violated {d c : ℝ} (hd : 0 < d) {n i : ℕ} (hi : 1 ≤ i) (hin : i ≤ n) (h1 : (i : ℝ) ≤ c * n) (h2 : c * n < i + 1 / 2)
    (b : Bool) : d * i ≤ c * (d * n) ∧ d * i ∉ drawnWavenumbers (wavenumbers d n) c b ∧ d * (i - 1 : ℕ) ∉ drawnWavenumbers (wavenumbers d n) c b := by
  have hmax : (wavenumbers d n).max? = some (d * n) := by
    rw [List.max?_eq_some_iff]
    refine ⟨List.mem_map.2 ⟨n, by simp, rfl⟩, fun y hy => ?_⟩
    simp only [wavenumbers, List.mem_map, List.mem_range] at hy
    obtain ⟨j, hj, rfl⟩ := hy
    exact mul_le_mul_of_nonneg_left (by exact_mod_cast (by omega : j ≤ n)) hd.le
  have hcl := (isClosest_wavenumbers hd hin (x := c * n) (by linarith) h2.le).eq
  have key : ∀ j : ℕ, i - 1 ≤ j → d * (j : ℝ) ∉ drawnWavenumbers (wavenumbers d n) c b := by
    intro j hj hmem
    rw [drawnWavenumbers, hmax, Option.getD_some, show d * (n : ℝ) * c = d * (c * n) by ring, hcl] at hmem
    simp only [if_neg (show ¬i = 0 by omega)] at hmem
    have : d * (j : ℝ) ∈ (wavenumbers d n).take (i - 1) := by
      cases b
      · simpa using hmem
      · exact List.mem_of_mem_tail (by simpa using hmem)
    rw [wavenumbers, ← List.map_take, List.take_range, List.mem_map] at this
    obtain ⟨j', hj', e⟩ := this
    have : j' = j := by
      have := mul_left_cancel₀ hd.ne' e
      exact_mod_cast this
    rw [List.mem_range] at hj'
    omega
  refine ⟨by nlinarith, key i (by omega), key (i - 1) (by omega)⟩

example : (8 : ℕ) * 1 ≤ (2 / 3 : ℝ) * 12 ∧ (2 / 3 : ℝ) * 12 < 8 + 1 / 2 := by norm_num

/-! ## Cumulated dissipation -/

/-- C102 (`plot3d_cumul_diss`): for positive spectra and viscosities, and if something is dissipated, the two curves are positive, increase with
the wavenumber, and the sum of their last values is one. -/
theorem C102_cumul_diss {m : ℕ} {nu2 nu4 dk : ℝ} (h2 : 0 ≤ nu2) (h4 : 0 ≤ nu4) (hdk : 0 < dk) {k E : Fin (m + 1) → ℝ} (hE : ∀ i, 0 ≤ E i)
    (hpos : 0 < ∑ j, (nu2 * k j ^ 2 + nu4 * k j ^ 4) * E j) :
    (∀ i, 0 ≤ (cumulDiss nu2 nu4 dk k E).1 i ∧ 0 ≤ (cumulDiss nu2 nu4 dk k E).2 i) ∧
    Monotone (cumulDiss nu2 nu4 dk k E).1 ∧ Monotone (cumulDiss nu2 nu4 dk k E).2 ∧
    (cumulDiss nu2 nu4 dk k E).1 (Fin.last m) + (cumulDiss nu2 nu4 dk k E).2 (Fin.last m) = 1 := by
  have htot : dk * ∑ j, nu2 * k j ^ 2 * E j + dk * ∑ j, nu4 * k j ^ 4 * E j = dk * ∑ j, (nu2 * k j ^ 2 + nu4 * k j ^ 4) * E j := by
    rw [← mul_add, ← sum_add_distrib]; congr 1; exact sum_congr rfl fun j _ => by ring
  have p2 : ∀ j, 0 ≤ nu2 * k j ^ 2 * E j := fun j => mul_nonneg (mul_nonneg h2 (by positivity)) (hE j)
  have p4 : ∀ j, 0 ≤ nu4 * k j ^ 4 * E j := fun j => mul_nonneg (mul_nonneg h4 (by positivity)) (hE j)
  have tpos : 0 < dk * ∑ j, (nu2 * k j ^ 2 + nu4 * k j ^ 4) * E j := mul_pos hdk hpos
  simp only [cumulDiss, htot]
  refine ⟨fun i => ⟨div_nonneg (mul_nonneg hdk.le (sum_nonneg fun j _ => p2 j)) tpos.le,
    div_nonneg (mul_nonneg hdk.le (sum_nonneg fun j _ => p4 j)) tpos.le⟩, ?_, ?_, ?_⟩
  · intro a b hab
    refine div_le_div_of_nonneg_right (mul_le_mul_of_nonneg_left ?_ hdk.le) tpos.le
    exact sum_le_sum_of_subset_of_nonneg (fun j hj => by simp only [mem_filter, mem_univ, true_and] at hj ⊢; exact hj.trans hab) fun j _ _ => p2 j
  · intro a b hab
    refine div_le_div_of_nonneg_right (mul_le_mul_of_nonneg_left ?_ hdk.le) tpos.le
    exact sum_le_sum_of_subset_of_nonneg (fun j hj => by simp only [mem_filter, mem_univ, true_and] at hj ⊢; exact hj.trans hab) fun j _ _ => p4 j
  · have : (univ : Finset (Fin (m + 1))).filter (· ≤ Fin.last m) = univ := filter_true_of_mem fun j _ => Fin.le_last j
    rw [this, ← add_div, htot, div_self tpos.ne']

example : 0 < ∑ j : Fin 3, ((1 : ℝ) * (j : ℝ) ^ 2 + 0 * (j : ℝ) ^ 4) * 1 := by
  simp [Fin.sum_univ_three]; norm_num

/-- C102, finding: the curves do not contain the dissipation by `nu_8` (nor `nu_m4`): if it is the only one, the total is zero and the curves are
divided by zero. -/
theorem C102_cumul_diss_hyper_violated {m : ℕ} (dk : ℝ) (k E : Fin m → ℝ) :
    dk * ∑ j, (0 : ℝ) * k j ^ 2 * E j + dk * ∑ j, (0 : ℝ) * k j ^ 4 * E j = 0 ∧ ∀ i, (cumulDiss 0 0 dk k E).1 i = 0 := by
  constructor
  · simp
  · intro i; simp [cumulDiss]

/-- C102 (`plot_kzkh_cumul_diss` of ns3d.strat): the curves versus `kh` and versus `kz` end at the same values, and the sum of the last values for
`nu_2` and `nu_4` is one. -/
theorem C102_cumul_diss_kzkh {mz mh : ℕ} {nu2 nu4 dkz dkh : ℝ} {kz : Fin (mz + 1) → ℝ} {kh : Fin (mh + 1) → ℝ}
    {E : Fin (mz + 1) → Fin (mh + 1) → ℝ} (hdz : dkz ≠ 0) (hdh : dkh ≠ 0)
    (hpos : ∑ z, ∑ h, (nu2 * (kh h ^ 2 + kz z ^ 2) + nu4 * (kh h ^ 2 + kz z ^ 2) ^ 2) * E z h ≠ 0) :
    let c := cumulDissKzkh nu2 nu4 dkz dkh kz kh E
    c.1 (Fin.last mh) = c.2.1 (Fin.last mz) ∧ c.2.2.1 (Fin.last mh) = c.2.2.2 (Fin.last mz) ∧
      c.1 (Fin.last mh) + c.2.2.1 (Fin.last mh) = 1 := by
  have fh : (univ : Finset (Fin (mh + 1))).filter (· ≤ Fin.last mh) = univ := filter_true_of_mem fun j _ => Fin.le_last j
  have fz : (univ : Finset (Fin (mz + 1))).filter (· ≤ Fin.last mz) = univ := filter_true_of_mem fun j _ => Fin.le_last j
  have sw : ∀ d : Fin (mz + 1) → Fin (mh + 1) → ℝ, dkh * ∑ h, dkz * ∑ z, d z h = dkh * dkz * ∑ z, ∑ h, d z h := by
    intro d; rw [← mul_sum, sum_comm]; ring
  have sz : ∀ d : Fin (mz + 1) → Fin (mh + 1) → ℝ, dkz * ∑ z, dkh * ∑ h, d z h = dkh * dkz * ∑ z, ∑ h, d z h := by
    intro d; rw [← mul_sum]; ring
  simp only [cumulDissKzkh, fh, fz, sw, sz, true_and]
  rw [← add_div, div_self]
  rw [← mul_add, ← sum_add_distrib]
  refine mul_ne_zero (mul_ne_zero hdh hdz) ?_
  rw [show (∑ z, (∑ h, nu2 * (kh h ^ 2 + kz z ^ 2) * E z h + ∑ h, nu4 * (kh h ^ 2 + kz z ^ 2) ^ 2 * E z h))
    = ∑ z, ∑ h, (nu2 * (kh h ^ 2 + kz z ^ 2) + nu4 * (kh h ^ 2 + kz z ^ 2) ^ 2) * E z h from
    sum_congr rfl fun z _ => by rw [← sum_add_distrib]; exact sum_congr rfl fun h _ => by ring]
  exact hpos

/-! ## The dissipative wavenumbers and the forced band -/

theorem kd_gen {nu P : ℝ} (hn : 0 < nu) (hP : 0 < P) {e a : ℝ} (he : e * a = 1) :
    (1 / (nu / P ^ (1 / 3 : ℝ)) ^ e) ^ a = P ^ (1 / 3 : ℝ) / nu := by
  have h0 : 0 < nu / P ^ (1 / 3 : ℝ) := div_pos hn (Real.rpow_pos_of_pos hP _)
  rw [one_div, Real.inv_rpow (Real.rpow_nonneg h0.le _), ← Real.rpow_mul h0.le, he, Real.rpow_one, inv_div]

/-- C102 (dissipative wavenumbers): at the wavenumbers drawn by `plot1d`, the dissipative frequency `nu_n k ^ n` is equal to the frequency
`(P k ^ 2) ^ (1/3)` of the eddies of the cascade with the flux `P`. -/
theorem C102_dissipative_scales {nu P : ℝ} (hn : 0 < nu) (hP : 0 < P) :
    (nu * kd2 nu P ^ 2 = (P * kd2 nu P ^ 2) ^ (1 / 3 : ℝ)) ∧ (nu * kd4 nu P ^ 4 = (P * kd4 nu P ^ 2) ^ (1 / 3 : ℝ)) ∧
      nu * kd8 nu P ^ 8 = (P * kd8 nu P ^ 2) ^ (1 / 3 : ℝ) := by
  have gen : ∀ (k e a : ℝ) (n : ℕ), k = 1 / (nu / P ^ (1 / 3 : ℝ)) ^ e → e * a = 1 → a = n - 2 / 3 →
      nu * k ^ n = (P * k ^ 2) ^ (1 / 3 : ℝ) := by
    intro k e a n hk he ha
    have h0 : 0 < nu / P ^ (1 / 3 : ℝ) := div_pos hn (Real.rpow_pos_of_pos hP _)
    have kpos : 0 < k := by rw [hk]; exact one_div_pos.2 (Real.rpow_pos_of_pos h0 _)
    have := kd_gen hn hP he
    rw [← hk] at this
    rw [Real.mul_rpow hP.le (by positivity), ← Real.rpow_natCast k 2, ← Real.rpow_mul kpos.le, ← Real.rpow_natCast k n,
      show (n : ℝ) = a + 2 / 3 by rw [ha]; ring, Real.rpow_add kpos, this]
    rw [show ((2 : ℕ) : ℝ) * (1 / 3) = 2 / 3 by norm_num]
    field_simp
  refine ⟨gen _ (3 / 4) (4 / 3) 2 ?_ (by norm_num) (by norm_num), gen _ (3 / 10) (10 / 3) 4 ?_ (by norm_num) (by norm_num),
    gen _ (3 / 22) (22 / 3) 8 ?_ (by norm_num) (by norm_num)⟩
  · rw [kd2]; norm_num
  · rw [kd4]; norm_num
  · rw [kd8]; norm_num

example : (0 : ℝ) < 1e-3 ∧ (0 : ℝ) < 1 := by norm_num

/-- C102 (forced band): with `delta_angle`, the horizontal and the vertical wavenumbers of a forced mode of norm `k` and angle `θ` with the vertical
are in the bands drawn by `plot1d`. -/
theorem C102_forced_band_partial {kmin kmax angle delta k θ : ℝ} (h0 : 0 ≤ angle - delta / 2) (h1 : angle + delta / 2 ≤ Real.pi / 2)
    (hd : 0 ≤ delta) (hk : 0 ≤ kmin) (h : ForcedRegion.InSector kmin kmax angle delta false k θ) :
    let b := forcingBands angle (some delta) kmin kmax
    (b.1.1 ≤ k * Real.sin θ ∧ k * Real.sin θ ≤ b.1.2) ∧ b.2.1 ≤ k * Real.cos θ ∧ k * Real.cos θ ≤ b.2.2 := by
  obtain ⟨⟨hk1, hk2⟩, hθ⟩ := h
  simp only [Bool.false_eq_true, false_and, or_false, abs_le] at hθ
  simp only [forcingBands, show (0.5 : ℝ) * delta = delta / 2 by ring]
  have pi := Real.pi_pos
  have s1 : Real.sin (angle - delta / 2) ≤ Real.sin θ := Real.sin_le_sin_of_le_of_le_pi_div_two (by linarith) (by linarith) (by linarith)
  have s2 : Real.sin θ ≤ Real.sin (angle + delta / 2) := Real.sin_le_sin_of_le_of_le_pi_div_two (by linarith) (by linarith) (by linarith)
  have c1 : Real.cos (angle + delta / 2) ≤ Real.cos θ := Real.cos_le_cos_of_nonneg_of_le_pi (by linarith) (by linarith) (by linarith)
  have c2 : Real.cos θ ≤ Real.cos (angle - delta / 2) := Real.cos_le_cos_of_nonneg_of_le_pi (by linarith) (by linarith) (by linarith)
  have z1 : 0 ≤ Real.sin (angle - delta / 2) := Real.sin_nonneg_of_nonneg_of_le_pi h0 (by linarith)
  have z2 : 0 ≤ Real.cos (angle + delta / 2) := Real.cos_nonneg_of_mem_Icc ⟨by linarith, h1⟩
  refine ⟨⟨?_, ?_⟩, ?_, ?_⟩ <;> nlinarith

example : ForcedRegion.InSector 1 3 (1 / 2) (1 / 5) false 2 (1 / 2) := by
  refine ⟨by norm_num, .inl ?_⟩
  norm_num

/-- C102, finding: the band of the horizontal wavenumbers is drawn on the axis of `kx` and of `ky`: the modes `(0, kh, kv)` of the forced region
have `kx = 0`, outside of the band, for all the horizontal wavenumbers which are forced. -/
theorem C102_forced_band_violated {kmin kmax angle : ℝ} (h0 : 0 < angle) (h1 : angle < Real.pi) (hk : 0 < kmin) {ky kv : ℝ} (hy : 0 ≤ ky)
    (h : ForcedRegion.InBox (Real.sin angle * kmin) (Real.sin angle * kmax) (Real.cos angle * kmin) (Real.cos angle * kmax) false ky kv) :
    ForcedRegion.InBox (Real.sin angle * kmin) (Real.sin angle * kmax) (Real.cos angle * kmin) (Real.cos angle * kmax) false
      √((0 : ℝ) ^ 2 + ky ^ 2) kv ∧ ¬(forcingBands angle none kmin kmax).1.1 ≤ 0 := by
  rw [show (0 : ℝ) ^ 2 + ky ^ 2 = ky ^ 2 by ring, Real.sqrt_sq hy]
  exact ⟨h, not_le.2 (mul_pos (Real.sin_pos_of_pos_of_lt_pi h0 h1) hk)⟩

end Verif.SpecFigs
