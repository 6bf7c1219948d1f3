import Verif.Pdf.Lemmas

/-! # C67: theorems on the probability density functions and the structure functions -/

set_option linter.unusedSectionVars false

namespace Verif.Pdf

open Verif.Increm (increments valuesInc strfunc)

variable {K : Type} [Field K] [LinearOrder K] [IsStrictOrderedRing K]

/-- C67: `pdf_normalized` returns the normalised histogram of the whole field between its extrema, whatever the
distribution of the field over the processes, as long as each process has one point. Each value is in
exactly one interval. -/
theorem C67_pdf [FloorRing K] {n : ℕ} (hn : 0 < n) {locals : List (List K)} {whole : List K}
    (h : locals.flatten.Perm whole) (h0 : locals ≠ []) (hne : ∀ l ∈ locals, l ≠ []) :
    ∃ p lo hi, pdfNormalized n locals = .ok (p, lo, hi) ∧ IsPdf n whole p lo hi ∧ Normalised lo hi p ∧
      (∀ i, 0 ≤ p i) ∧ ∀ x ∈ whole, ∃! i : Fin n, InBin n lo hi i x := by
  obtain ⟨m, hm, h1, h2, h3⟩ := Reduce.C46_extrema h h0 hne
  have hw : whole ≠ [] := List.ne_nil_of_mem h1
  have hnp : (0 : K) < n := by exact_mod_cast hn
  have main : ∀ lo hi, outer m.1 m.2 = (lo, hi) → lo < hi ∧ (∀ x ∈ whole, lo ≤ x ∧ x ≤ hi) ∧
      (lo ∈ whole ∧ hi ∈ whole ∨ ∃ c, (∀ x ∈ whole, x = c) ∧ lo = c - 1 / 2 ∧ hi = c + 1 / 2) := by
    intro lo hi e
    unfold outer at e
    by_cases he : m.1 = m.2
    · rw [if_pos he, Prod.mk.injEq] at e
      obtain ⟨rfl, rfl⟩ := e
      have hc : ∀ x ∈ whole, x = m.1 := fun x hx => le_antisymm ((h3 x hx).2.trans he.ge) (h3 x hx).1
      refine ⟨by linarith, fun x hx => ?_, .inr ⟨m.1, hc, rfl, by rw [he]⟩⟩
      rw [hc x hx]
      constructor <;> linarith
    · rw [if_neg he, Prod.mk.injEq] at e
      obtain ⟨rfl, rfl⟩ := e
      exact ⟨lt_of_le_of_ne (h3 _ h2).1 he, h3, .inl ⟨h1, h2⟩⟩
  obtain ⟨lo, hi, e⟩ : ∃ lo hi, outer m.1 m.2 = (lo, hi) := ⟨_, _, rfl⟩
  obtain ⟨a, b, c⟩ := main lo hi e
  have hpdf : IsPdf n whole (Reduce.pdfNormalized n (bin n lo hi) ((hi - lo) / n) locals) lo hi :=
    ⟨a, b, c, fun i => hist_eq hn a h b i⟩
  have hwid : 0 < (hi - lo) / n := div_pos (sub_pos.mpr a) hnp
  refine ⟨_, lo, hi, ?_, hpdf, ?_, ?_, fun x hx => inBin_unique hn a (b x hx)⟩
  · unfold pdfNormalized
    rw [hm]
    simp only [e]
  · exact Reduce.C46_pdf_integral hwid.ne' h (fun x hx => bin_ne_none hn (b x hx)) hw
  · intro i
    rw [hpdf.2.2.2 i]
    positivity

example : Reduce.extrema [[(0 : ℚ), 3], [1, 4, 4]] = .ok (0, 4) ∧ outer (0 : ℚ) 4 = (0, 4) ∧
    bin 2 (0 : ℚ) 4 3 = some 1 ∧ bin 2 (0 : ℚ) 4 4 = some 1 ∧ bin 2 (0 : ℚ) 4 1 = some 0 := by
  refine ⟨rfl, ?_, ?_, ?_, ?_⟩ <;> decide +kernel

/-- C67: a process without point makes `pdf_normalized` fail. -/
theorem C67_pdf_empty [FloorRing K] (n : ℕ) (l : List (List K)) :
    pdfNormalized n (l ++ [[]]) = .error "ValueError" := by
  have : ∀ l : List (List K), (l ++ [[]]).mapM Reduce.localExtrema = .error "ValueError" := by
    intro l
    induction l with
    | nil => rfl
    | cons a l ih =>
      rw [List.cons_append, List.mapM_cons, ih]
      rcases a with _ | ⟨x, xs⟩ <;> rfl
  unfold pdfNormalized Reduce.extrema
  rw [this]
  rfl

/-- C67: the structure function of any order `m` computed with a pdf is the mean of the powers of the values,
up to `m R^(m-1)` times half a bin, `R` being a bound of the range. -/
theorem C67_structure_error [FloorRing K] {n : ℕ} (hn : 2 ≤ n) {whole : List K} {p : Fin n → K} {lo hi : K}
    (h : IsPdf n whole p lo hi) (hne : whole ≠ []) {R : K} (hR : |lo| ≤ R ∧ |hi| ≤ R) (m : ℕ) :
    |strfunc hn p (valuesInc n lo hi) m false - (whole.map (· ^ m)).sum / whole.length|
      ≤ m * R ^ (m - 1) * ((hi - lo) / n / 2) := by
  have hn' : 0 < n := by omega
  have hnp : (0 : K) < n := by exact_mod_cast hn'
  have hin' : ∀ x ∈ whole, bin n lo hi x ≠ none := fun x hx => bin_ne_none hn' (h.2.1 x hx)
  have hlpos : (0 : K) < (whole.length : ℕ) := by
    have : 0 < whole.length := List.length_pos_iff.mpr hne
    exact_mod_cast this
  have hR0 : 0 ≤ R := (abs_nonneg _).trans hR.1
  have hwid : 0 < (hi - lo) / n := div_pos (sub_pos.mpr h.1) hnp
  rw [h.eq_hist hn', (Increm.C48_structure_function hn h.1 (locals := [whole]) (whole := whole) (by simp) hin' hne m).1,
    ← sub_div, abs_div, abs_of_pos hlpos, div_le_iff₀ hlpos]
  have key : ∀ l : List K, (∀ x ∈ l, x ∈ whole) →
      |(l.map fun x => (bin n lo hi x).elim 0 fun i => valuesInc n lo hi i ^ m).sum - (l.map (· ^ m)).sum|
        ≤ m * R ^ (m - 1) * ((hi - lo) / n / 2) * (l.length : ℕ) := by
    intro l
    induction l with
    | nil => intro _; simp
    | cons a l ih =>
      intro hl
      have ih' := ih fun x hx => hl x (List.mem_cons_of_mem _ hx)
      have hax := h.2.1 a (hl a (List.mem_cons_self ..))
      obtain ⟨i, hi'⟩ := Option.ne_none_iff_exists'.mp (hin' a (hl a (List.mem_cons_self ..)))
      obtain ⟨hb1, hb2⟩ := (bin_iff hn' h.1 hax i).mp hi'
      have hb2' : a ≤ lo + (hi - lo) / n * ((i : ℕ) + 1) := by
        rcases hb2 with hb2 | ⟨e, hb2⟩
        · exact hb2.le
        · have : ((i : ℕ) : K) + 1 = n := by exact_mod_cast e
          rw [this]
          have : lo + (hi - lo) / n * n = hi := by field_simp; ring
          rw [this]; exact hb2
      simp only [List.map_cons, List.sum_cons, List.length_cons, hi', Option.elim_some]
      have hc : valuesInc n lo hi i = lo + (hi - lo) / n * ((i : ℕ) + 1 / 2) := by
        rw [valuesInc]; field_simp
      have hi1 : ((i : ℕ) : K) + 1 ≤ n := by exact_mod_cast i.2
      have hi0 : (0 : K) ≤ (i : ℕ) := Nat.cast_nonneg _
      have e1 : (hi - lo) / n * n = hi - lo := by field_simp
      have hcr : lo ≤ valuesInc n lo hi i ∧ valuesInc n lo hi i ≤ hi := by
        rw [hc]
        constructor
        · nlinarith
        · nlinarith
      have hdist : |valuesInc n lo hi i - a| ≤ (hi - lo) / n / 2 := by
        rw [hc, abs_le]
        constructor <;> nlinarith
      have hb : ∀ z, lo ≤ z ∧ z ≤ hi → |z| ≤ R := fun z hz =>
        abs_le.mpr ⟨by linarith [neg_abs_le lo, hz.1, hR.1], by linarith [le_abs_self hi, hz.2, hR.2]⟩
      have hpow : |valuesInc n lo hi i ^ m - a ^ m| ≤ m * R ^ (m - 1) * ((hi - lo) / n / 2) := by
        refine (abs_pow_sub_pow_le _ _ m).trans ?_
        have hmax : max |valuesInc n lo hi i| |a| ^ (m - 1) ≤ R ^ (m - 1) :=
          pow_le_pow_left₀ (le_max_of_le_left (abs_nonneg _)) (max_le (hb _ hcr) (hb _ hax)) _
        have hm0 : (0 : K) ≤ m := Nat.cast_nonneg m
        have hRp : 0 ≤ R ^ (m - 1) := pow_nonneg hR0 _
        calc |valuesInc n lo hi i - a| * m * max |valuesInc n lo hi i| |a| ^ (m - 1)
            ≤ ((hi - lo) / n / 2) * m * R ^ (m - 1) := by
              refine mul_le_mul (mul_le_mul_of_nonneg_right hdist hm0) hmax
                (pow_nonneg (le_max_of_le_left (abs_nonneg _)) _) ?_
              have := hwid.le
              positivity
          _ = _ := by ring
      push_cast
      calc _ = |(valuesInc n lo hi i ^ m - a ^ m) + ((l.map fun x => (bin n lo hi x).elim 0 fun i =>
            valuesInc n lo hi i ^ m).sum - (l.map (· ^ m)).sum)| := by congr 1; ring
        _ ≤ _ := abs_add_le _ _
        _ ≤ m * R ^ (m - 1) * ((hi - lo) / n / 2) * (((l.length : ℕ) : K) + 1) := by linarith
  exact key whole fun x hx => hx

/-- C67: what is saved for the increments of a variable: for each separation `rx` smaller than the length of the
lines, the pdf of all the differences between the points of the same line `rx` points apart. -/
theorem C67_record [FloorRing K] {n : ℕ} (hn : 0 < n) {locals : List (List (List K))} (h0 : locals ≠ []) {nx : ℕ}
    (hl : ∀ rows ∈ locals, rows ≠ [] ∧ ∀ l ∈ rows, l.length = nx) {rxs : List ℕ} (hr : ∀ rx ∈ rxs, rx < nx) :
    ∃ rs : List ((Fin n → K) × K × K), record n locals rxs = .ok rs ∧ rs.length = rxs.length ∧
      ∀ (k rx : ℕ), rxs[k]? = some rx → ∃ p lo hi, rs[k]? = some (p, lo, hi) ∧ Normalised lo hi p ∧
        IsPdf n ((pairs rx locals.flatten).map fun q => q.1 - q.2) p lo hi := by
  induction rxs with
  | nil => exact ⟨[], rfl, rfl, by simp⟩
  | cons rx rxs ih =>
    obtain ⟨rs, h1, h2, h3⟩ := ih fun r h => hr r (List.mem_cons_of_mem _ h)
    have hrx := hr rx (List.mem_cons_self ..)
    have hflat : (locals.map (incRows rx)).flatten = (pairs rx locals.flatten).map fun q => q.1 - q.2 := by
      unfold incRows pairs increments
      rw [List.map_flatten, List.map_map, List.map_flatten, List.flatten_flatten, List.map_map]
      refine congrArg List.flatten (List.map_congr_left fun rows _ => ?_)
      simp only [Function.comp_apply]
      refine congrArg List.flatten ?_
      refine List.map_congr_left fun l _ => ?_
      simp only [Function.comp_apply, List.map_zip_eq_zipWith]
      rfl
    have hne : ∀ l ∈ locals.map (incRows rx), l ≠ [] := by
      intro l hl'
      obtain ⟨rows, hrows, rfl⟩ := List.mem_map.mp hl'
      obtain ⟨hr1, hr2⟩ := hl rows hrows
      obtain ⟨a, rows', rfl⟩ := List.exists_cons_of_ne_nil hr1
      have := hr2 a (List.mem_cons_self ..)
      have h2 := (Increm.C48_increments a (irx := rx) (by omega)).2.1
      simp only [incRows, List.map_cons, List.flatten_cons]
      exact fun e => h2 (List.append_eq_nil_iff.mp e).1
    obtain ⟨p, lo, hi, e, hp, hnorm, -, -⟩ := C67_pdf hn (List.Perm.of_eq hflat) (by simpa using h0) hne
    refine ⟨(p, lo, hi) :: rs, ?_, by simp [h2], ?_⟩
    · rw [record, e, h1]
    · intro k rx' hk
      cases k with
      | zero =>
        simp only [List.getElem?_cons_zero, Option.some.injEq] at hk
        subst hk
        exact ⟨p, lo, hi, rfl, hnorm, hp⟩
      | succ k =>
        rw [List.getElem?_cons_succ] at hk ⊢
        exact h3 k rx' hk

example : pairs 1 [[(1 : ℚ), 2, 4], [5, 5, 8]] = [(2, 1), (4, 2), (5, 5), (8, 5)] := by decide +kernel

/-! ## The average over the time -/

/-- C67, partial: if all the records of the time range have the same range of values, `load_pdf_from_file` returns
the mean of the saved functions, with the centres of the bins, and it is normalised.
Missing: the same with different ranges (see `C67_load_mean_violated`). -/
theorem C67_load_mean_partial {n : ℕ} (times : List K) (recs : List ((Fin n → K) × K × K)) (tmin : K)
    (tmax : Option K) {lo hi : K} (hlt : lo < hi) (hne : inRange times recs tmin tmax ≠ [])
    (h : ∀ r ∈ inRange times recs tmin tmax, r.2 = (lo, hi) ∧ Normalised lo hi r.1) :
    ∃ p, loadPdf n times recs tmin tmax = some (p, valuesInc n lo hi) ∧
      (∀ i, p i = mean ((inRange times recs tmin tmax).map fun r => r.1 i)) ∧ Normalised lo hi p := by
  set l := inRange times recs tmin tmax with hl
  have hmin : mean (l.map fun r => r.2.1) = lo := by
    refine mean_const (by simpa using hne) fun x hx => ?_
    obtain ⟨r, hr, rfl⟩ := List.mem_map.mp hx
    rw [(h r hr).1]
  have hmax : mean (l.map fun r => r.2.2) = hi := by
    refine mean_const (by simpa using hne) fun x hx => ?_
    obtain ⟨r, hr, rfl⟩ := List.mem_map.mp hx
    rw [(h r hr).1]
  have hp : ∀ i, mean (l.map fun r =>
      interp (List.ofFn fun j => (valuesInc n r.2.1 r.2.2 j, r.1 j)) (valuesInc n lo hi i))
        = mean (l.map fun r => r.1 i) := by
    intro i
    refine congrArg mean (List.map_congr_left fun r hr => ?_)
    rw [(h r hr).1]
    exact interp_values hlt r.1 i
  refine ⟨fun i => mean (l.map fun r => r.1 i), ?_, fun _ => rfl, ?_⟩
  · unfold loadPdf
    rw [← hl]
    dsimp only
    rw [if_neg (by simpa using hne), hmin, hmax]
    simp only [hp]
  · unfold Normalised
    rw [Finset.sum_congr rfl fun i _ => mean_mul l (fun r => r.1 i) _, sum_mean l fun r i => r.1 i * ((hi - lo) / n)]
    refine mean_const (by simpa using hne) fun x hx => ?_
    obtain ⟨r, hr, rfl⟩ := List.mem_map.mp hx
    exact (h r hr).2

/-- C67: for one time, the result is the record which is the closest to this time, and the centres of its bins. -/
theorem C67_load_one {n : ℕ} (times : List K) (recs : List ((Fin n → K) × K × K)) (t : K) {r : (Fin n → K) × K × K}
    (hr : recs[PhysFiles.closest times t]? = some r) (hlt : r.2.1 < r.2.2) :
    loadPdf n times recs t (some t) = some (r.1, valuesInc n r.2.1 r.2.2) := by
  have hl : inRange times recs t (some t) = [r] := by
    obtain ⟨hlt', hr'⟩ := List.getElem?_eq_some_iff.mp hr
    unfold inRange
    simp only [Option.getD_some]
    rw [List.drop_take, Nat.add_sub_cancel_left, List.drop_eq_getElem_cons hlt', hr']
    rfl
  unfold loadPdf
  rw [hl]
  simp only [List.map_cons, List.map_nil, mean, List.sum_cons, List.sum_nil, List.length_cons, List.length_nil]
  simp only [add_zero, zero_add, Nat.cast_one, div_one, interp_values hlt]
  simp

/-- C67, violated: the pdf averaged over the time by `load_pdf_from_file` is not normalised: its integral can be as
large as one wants, for two saved functions which are normalised. -/
theorem C67_load_mean_violated (M : K) :
    ∃ (times : List K) (r₁ r₂ : (Fin 2 → K) × K × K) (p v : Fin 2 → K), Normalised r₁.2.1 r₁.2.2 r₁.1 ∧
      Normalised r₂.2.1 r₂.2.2 r₂.1 ∧ loadPdf 2 times [r₁, r₂] 0 none = some (p, v) ∧
      M < ∑ i, p i * (v 1 - v 0) := by
  set b : K := 4 * |M| + 4 with hb
  have hM := abs_nonneg M
  have hM' := le_abs_self M
  have hb0 : 0 < b := by linarith
  have e1 : (1 : K) < 2 := by norm_num
  have hin : inRange ([0, 1] : List K) [((fun _ => 1 : Fin 2 → K), (0 : K), (1 : K)), ((fun _ => 1 / b), 0, b)] 0 none
      = [((fun _ => 1 : Fin 2 → K), (0 : K), (1 : K)), ((fun _ => 1 / b), 0, b)] := by
    have hmx : ([0, 1] : List K).max? = some 1 := by
      simp
    unfold inRange
    rw [hmx]
    have : ¬ (1 : K) ≤ 0 := by norm_num
    simp [PhysFiles.closest, PhysFiles.argmin, this]
  have hconst : ∀ (c a : K) (x : K), 0 < a →
      interp (List.ofFn fun j : Fin 2 => (valuesInc 2 0 a j, c)) x = c := by
    intro c a x ha
    simp only [List.ofFn_succ, List.ofFn_zero, interp]
    split
    · rfl
    · split
      · simp
      · rfl
  refine ⟨[0, 1], ((fun _ => 1), 0, 1), ((fun _ => 1 / b), 0, b), fun _ => (1 + 1 / b) / 2,
    valuesInc 2 0 ((1 + b) / 2), ?_, ?_, ?_, ?_⟩
  · simp only [Normalised, Fin.sum_univ_two]; push_cast; norm_num
  · simp only [Normalised, Fin.sum_univ_two]; push_cast; field_simp; norm_num
  · unfold loadPdf
    rw [hin]
    simp only [List.map_cons, List.map_nil, hconst _ _ _ hb0, hconst _ _ _ one_pos, mean, List.sum_cons, List.sum_nil,
      List.length_cons, List.length_nil, add_zero, zero_add]
    norm_num
  · simp only [Fin.sum_univ_two, valuesInc]
    push_cast
    simp only [Fin.val_zero, Fin.val_one]
    have : (1 + 1 / b) / 2 * (0 + ((1 + b) / 2 - 0) * (((1 : ℕ) + 1 / 2) / 2) - (0 + ((1 + b) / 2 - 0) * (((0 : ℕ) + 1 / 2) / 2)))
        + (1 + 1 / b) / 2 * (0 + ((1 + b) / 2 - 0) * (((1 : ℕ) + 1 / 2) / 2) - (0 + ((1 + b) / 2 - 0) * (((0 : ℕ) + 1 / 2) / 2)))
        = (b + 2 + 1 / b) / 4 := by
      push_cast; field_simp; ring
    push_cast at this ⊢
    rw [this]
    have : 0 < 1 / b := by positivity
    linarith

/-- C67: if the record which is the closest to `tmax` is before the one which is the closest to `tmin`, the result
contains no number. -/
theorem C67_load_empty (n : ℕ) (times : List K) (recs : List ((Fin n → K) × K × K)) {tmin tmax : K}
    (h : PhysFiles.closest times tmax < PhysFiles.closest times tmin) :
    loadPdf n times recs tmin (some tmax) = none := by
  have : inRange times recs tmin (some tmax) = [] := by
    unfold inRange
    simp only [Option.getD_some]
    rw [List.drop_eq_nil_iff, List.length_take]
    omega
  unfold loadPdf
  rw [this]
  rfl

/-! ## The pdf of the velocity -/

/-- The modulus of the difference with the mean velocity. -/
noncomputable def fluct (whole : List (ℝ × ℝ)) (u : ℝ × ℝ) : ℝ :=
  √((u.1 - (whole.map Prod.fst).sum / whole.length) ^ 2 + (u.2 - (whole.map Prod.snd).sum / whole.length) ^ 2)

/-- C67, partial: `pdf_u` is the pdf of `|u - <u>|` if the mean over each process is the mean over the whole field,
in particular for one process. Missing: the same for any field (see `C67_pdf_u_violated`). -/
theorem C67_pdf_u_partial {n : ℕ} (hn : 0 < n) {locals : List (List (ℝ × ℝ))} (h0 : locals ≠ [])
    (hne : ∀ l ∈ locals, l ≠ [])
    (hm : ∀ l ∈ locals, mean (l.map Prod.fst) = mean (locals.flatten.map Prod.fst) ∧
      mean (l.map Prod.snd) = mean (locals.flatten.map Prod.snd)) :
    ∃ p lo hi, pdfU n locals = .ok (p, lo, hi) ∧ IsPdf n (locals.flatten.map (fluct locals.flatten)) p lo hi := by
  have e : (locals.map uNorm).flatten = locals.flatten.map (fluct locals.flatten) := by
    rw [List.map_flatten]
    refine congrArg List.flatten (List.map_congr_left fun l hl => ?_)
    obtain ⟨a, b⟩ := hm l hl
    simp only [uNorm, a, b]
    simp only [mean, List.length_map]
    rfl
  obtain ⟨p, lo, hi, e1, e2, -⟩ := C67_pdf hn (locals := locals.map uNorm) (List.Perm.of_eq e) (by simpa using h0) (by
    intro l hl
    obtain ⟨a, ha, rfl⟩ := List.mem_map.mp hl
    simpa [uNorm] using hne a ha)
  exact ⟨p, lo, hi, e1, e2⟩

example : ∃ p lo hi, pdfU 3 [[(0, 0), (2, 1)]] = .ok (p, lo, hi) ∧
    IsPdf 3 (([[(0, 0), (2, 1)]] : List (List (ℝ × ℝ))).flatten.map (fluct [(0, 0), (2, 1)])) p lo hi :=
  C67_pdf_u_partial (by norm_num) (by simp) (by simp) (by simp)

/-- C67, violated: with several processes, `pdf_u` uses the mean velocity of each process. For two processes, each
with a uniform velocity, the modulus is zero everywhere; with one process it is half of the difference. -/
theorem C67_pdf_u_violated (n : ℕ) :
    (∃ p, pdfU n [[(0, 0)], [(2, 0)]] = .ok (p, -1 / 2, 1 / 2)) ∧
      ∃ p, pdfU n [[(0, 0), (2, 0)]] = .ok (p, 1 / 2, 3 / 2) := by
  have gen : ∀ (locals : List (List ℝ)) (m : ℝ × ℝ), Reduce.extrema locals = .ok m →
      ∃ p, pdfNormalized n locals = .ok (p, outer m.1 m.2) := by
    intro locals m e
    unfold pdfNormalized
    rw [e]
    exact ⟨_, rfl⟩
  constructor
  · have e : [[((0 : ℝ), (0 : ℝ))], [(2, 0)]].map uNorm = [[0], [0]] := by simp [uNorm, mean]
    obtain ⟨p, hp⟩ := gen [[0], [0]] (min 0 0, max 0 0) rfl
    refine ⟨p, ?_⟩
    rw [pdfU, e, hp]
    simp only [min_self, max_self, outer, if_true]
    norm_num
  · have e : [[((0 : ℝ), (0 : ℝ)), (2, 0)]].map uNorm = [[1, 1]] := by
      simp [uNorm, mean]; norm_num
    obtain ⟨p, hp⟩ := gen [[1, 1]] (min 1 1, max 1 1) rfl
    refine ⟨p, ?_⟩
    rw [pdfU, e, hp]
    simp only [min_self, max_self, outer, if_true]
    norm_num

/-! ## The structure functions of sw1l -/

/-- C67, partial: with one process, the saved structure functions of sw1l are the means over all the pairs of points
of the same line at the distance `rx`. Missing: the same with several processes (see
`C67_sw1l_structure_violated`). -/
theorem C67_sw1l_structure_partial (c2 : K) (rx : ℕ) (rows : List (List (Cell K))) :
    let q := pairs rx rows
    let dJ := fun x : Cell K × Cell K => (1 + x.1.eta) * x.1.ux - (1 + x.2.eta) * x.2.ux
    let dx := fun x : Cell K × Cell K => x.1.ux - x.2.ux
    let dy := fun x : Cell K × Cell K => x.1.uy - x.2.uy
    let de := fun x : Cell K × Cell K => x.1.eta - x.2.eta
    swSaved c2 rx [rows] = (mean (q.map fun x => dx x ^ 2 * dJ x), mean (q.map fun x => dy x ^ 2 * dJ x),
      mean (q.map fun x => c2 * (de x ^ 2 * dx x)),
      mean (q.map fun x => (dx x ^ 2 + dy x ^ 2) * dJ x + c2 * (de x ^ 2 * dx x)),
      mean (q.map fun x => dy x ^ 2 * dx x)) := by
  intro q dJ dx dy de
  have hz : ∀ (f g : Cell K → K) (F : K → K → K), List.zipWith F (incOf f rx rows) (incOf g rx rows)
      = q.map fun x => F (f x.1 - f x.2) (g x.1 - g x.2) := by
    intro f g F
    rw [incOf_eq, incOf_eq, List.zipWith_map_left, List.zipWith_map_right, List.zipWith_self]
  have hc : c2 * mean (q.map fun x => de x ^ 2 * dx x) = mean (q.map fun x => c2 * (de x ^ 2 * dx x)) := by
    simp only [mean, List.length_map, List.sum_map_mul_left, mul_div_assoc]
  have hsum : mean (q.map fun x => dx x ^ 2 * dJ x) + mean (q.map fun x => dy x ^ 2 * dJ x)
      + mean (q.map fun x => c2 * (de x ^ 2 * dx x))
      = mean (q.map fun x => (dx x ^ 2 + dy x ^ 2) * dJ x + c2 * (de x ^ 2 * dx x)) := by
    simp only [mean, List.length_map, ← add_div]
    congr 1
    clear hz hc
    clear_value q
    induction q with
    | nil => simp
    | cons a q ih =>
      simp only [List.map_cons, List.sum_cons]
      rw [← ih]
      ring
  show swStruct c2 rx rows = _
  unfold swStruct
  dsimp only
  rw [hz, hz, hz, hz]
  show (mean (q.map fun x => dx x ^ 2 * dJ x), mean (q.map fun x => dy x ^ 2 * dJ x),
    c2 * mean (q.map fun x => de x ^ 2 * dx x), mean (q.map fun x => dx x ^ 2 * dJ x) + mean (q.map fun x => dy x ^ 2 * dJ x)
      + c2 * mean (q.map fun x => de x ^ 2 * dx x), mean (q.map fun x => dy x ^ 2 * dx x)) = _
  rw [hc, hsum]

/-- C67, violated: with several processes, only the lines of the first one are taken into account. -/
theorem C67_sw1l_structure_violated (c2 : K) (rx : ℕ) (rows : List (List (Cell K)))
    (others others' : List (List (List (Cell K)))) :
    swSaved c2 rx (rows :: others) = swSaved c2 rx (rows :: others') ∧
      (swSaved (1 : ℚ) 1 [[[⟨0, 0, 0⟩, ⟨0, 0, 0⟩]], [[⟨0, 0, 0⟩, ⟨1, 0, 0⟩]]]).2.2.2.1
        ≠ (swSaved (1 : ℚ) 1 [[[⟨0, 0, 0⟩, ⟨0, 0, 0⟩], [⟨0, 0, 0⟩, ⟨1, 0, 0⟩]]]).2.2.2.1 := by
  refine ⟨rfl, ?_⟩
  decide +kernel

/-- C67: the PDFs of increments read on other abscissas are interpolated linearly: between two consecutive nodes the
value is on the segment which joins them, before the first node and after the last one it is constant. -/
theorem C67_interp {l : List (K × K)} (h : (l.map Prod.fst).Pairwise (· < ·)) (x : K) :
    (∀ i (hi : i + 1 < l.length), l[i].1 ≤ x → x ≤ l[i + 1].1 →
      (l[i + 1].1 - l[i].1) * interp l x = (l[i + 1].1 - x) * l[i].2 + (x - l[i].1) * l[i + 1].2) ∧
    (∀ hl : 0 < l.length, x ≤ l[0].1 → interp l x = l[0].2) ∧
    (∀ hl : 0 < l.length, l[l.length - 1].1 ≤ x → interp l x = l[l.length - 1].2) := by
  refine ⟨?_, ?_, ?_⟩
  · induction l with
    | nil => intro i hi; simp at hi
    | cons p l ih =>
      cases l with
      | nil => intro i hi; simp at hi
      | cons q l =>
        intro i hi h1 h2
        have h' := List.pairwise_cons.mp h
        have hpq : p.1 < q.1 := h'.1 _ (by simp)
        have hne : q.1 - p.1 ≠ 0 := (sub_pos.mpr hpq).ne'
        cases i with
        | zero =>
          simp only [List.getElem_cons_zero, zero_add, List.getElem_cons_succ] at h1 h2 ⊢
          rcases h2.eq_or_lt with rfl | h3
          · have := interp_node h 1 (by simp)
            simp only [List.getElem_cons_succ, List.getElem_cons_zero] at this
            rw [this]; ring
          · rcases h1.eq_or_lt with h4 | h4
            · have := interp_node h 0 (by simp)
              simp only [List.getElem_cons_zero] at this
              rw [← h4, this]; ring
            · rw [interp, if_neg (not_le.mpr h4), if_pos h3, mul_add]
              field_simp
              ring
        | succ i =>
          simp only [List.getElem_cons_succ] at h1 h2 ⊢
          have hi2 : i + 1 < (q :: l).length := by simpa using hi
          have h3 : q.1 ≤ x := by
            refine le_trans ?_ h1
            cases i with
            | zero => exact le_rfl
            | succ j => exact le_of_lt ((List.pairwise_cons.mp h'.2).1 _ (List.mem_map_of_mem (List.getElem_mem _)))
          rw [interp, if_neg (not_le.mpr (hpq.trans_le h3)), if_neg (not_lt.mpr h3)]
          exact ih h'.2 i hi2 h1 h2
  · intro hl h1
    cases l with
    | nil => simp at hl
    | cons p l =>
      cases l with
      | nil => rfl
      | cons q l => rw [interp, if_pos (by simpa using h1)]; rfl
  · induction l with
    | nil => intro hl; simp at hl
    | cons p l ih =>
      cases l with
      | nil => intro _ _; rfl
      | cons q l =>
        intro hl h1
        have h' := List.pairwise_cons.mp h
        have hpq : p.1 < q.1 := h'.1 _ (by simp)
        have e : ∀ h, (p :: q :: l)[(p :: q :: l).length - 1]'h = (q :: l)[(q :: l).length - 1]'(by simp) := by
          intro h; simp
        rw [e] at h1 ⊢
        have h3 : q.1 ≤ x := by
          refine le_trans ?_ h1
          cases l with
          | nil => exact le_rfl
          | cons r l =>
            refine le_of_lt ((List.pairwise_cons.mp h'.2).1 _ (List.mem_map_of_mem ?_))
            simp
        rw [interp, if_neg (not_le.mpr (hpq.trans_le h3)), if_neg (not_lt.mpr h3)]
        exact ih h'.2 (by simp) h1

/-- Three nodes. -/
example : (([(0, 0), (1, 5), (3, 1)] : List (ℚ × ℚ)).map Prod.fst).Pairwise (· < ·) ∧
    interp ([(0, 0), (1, 5), (3, 1)] : List (ℚ × ℚ)) 2 = 3 := by decide +kernel

end Verif.Pdf
