import Verif.Increm.Model
import Verif.Reduce.Props
import Mathlib.Analysis.Convex.SpecificFunctions.Basic
import Mathlib.Algebra.BigOperators.Field
import Mathlib.Tactic.Linarith
import Mathlib.Tactic.FieldSimp
import Mathlib.Tactic.Positivity

/-! # C48: separations, structure functions, shells -/

namespace Verif.Increm

set_option linter.unusedSectionVars false

/-! ### The loop on the separations -/

theorem dedupeFrom_length (prev : ℤ) (l : List ℤ) : (dedupeFrom prev l).length = l.length := by
  induction l generalizing prev with
  | nil => rfl
  | cons x l ih => simp [dedupeFrom, ih]

theorem dedupeFrom_chain (prev : ℤ) (l : List ℤ) : (prev :: dedupeFrom prev l).IsChain (· < ·) := by
  induction l generalizing prev with
  | nil => simp [dedupeFrom]
  | cons x l ih =>
      simp only [dedupeFrom]
      refine List.IsChain.cons_cons ?_ (ih _)
      split <;> omega

theorem dedupeFrom_ge (prev : ℤ) (l : List ℤ) (i : ℕ) (hi : i < l.length) :
    l[i] ≤ (dedupeFrom prev l)[i]'(by rw [dedupeFrom_length]; exact hi) := by
  induction l generalizing prev i with
  | nil => simp at hi
  | cons x l ih =>
      cases i with
      | zero => simp only [dedupeFrom, List.getElem_cons_zero]; split <;> omega
      | succ i =>
          simp only [dedupeFrom, List.getElem_cons_succ]
          exact ih _ i (by simpa using hi)

/-- The loop gives the smallest list. -/
theorem dedupeFrom_least (prev : ℤ) (l s : List ℤ) (p' : ℤ) (hp : prev ≤ p') (hs : (p' :: s).IsChain (· < ·))
    (hlen : s.length = l.length) (hle : ∀ i (hi : i < l.length), l[i] ≤ s[i]'(hlen ▸ hi)) (i : ℕ)
    (hi : i < l.length) :
    (dedupeFrom prev l)[i]'(by rw [dedupeFrom_length]; exact hi) ≤ s[i]'(hlen ▸ hi) := by
  induction l generalizing prev s p' i with
  | nil => simp at hi
  | cons x l ih =>
      rcases s with _ | ⟨y, s⟩
      · simp at hlen
      · have h0 : x ≤ y := hle 0 (by simp)
        have hpy : p' < y := by
          have := List.isChain_cons_cons.mp hs
          exact this.1
        have hs' : (y :: s).IsChain (· < ·) := (List.isChain_cons_cons.mp hs).2
        have hy : (if prev ≥ x then prev + 1 else x) ≤ y := by split <;> omega
        cases i with
        | zero => simpa only [dedupeFrom, List.getElem_cons_zero] using hy
        | succ i =>
            simp only [dedupeFrom, List.getElem_cons_succ]
            exact ih _ s y hy hs' (by simpa using hlen)
              (fun j hj => by
                have := hle (j + 1) (by simpa using hj)
                rwa [List.getElem_cons_succ, List.getElem_cons_succ] at this) i (by simpa using hi)

/-- C48: for every initial list of rounded values, the separations are strictly increasing, as many as the initial
values and not smaller. -/
theorem C48_separations_increasing (l : List ℤ) :
    (dedupe l).Pairwise (· < ·) ∧ (dedupe l).length = l.length ∧ (dedupe l).head? = l.head? ∧
      ∀ i (hi : i < l.length) (hi' : i < (dedupe l).length), l[i] ≤ (dedupe l)[i] := by
  rcases l with _ | ⟨x, l⟩
  · simp [dedupe]
  · refine ⟨List.isChain_iff_pairwise.mp (dedupeFrom_chain x l), by simp [dedupe, dedupeFrom_length], rfl, ?_⟩
    intro i hi hi'
    cases i with
    | zero => simp [dedupe]
    | succ i => simpa [dedupe] using dedupeFrom_ge x l i (by simpa using hi)

/-- C48: the separations are the smallest possible: any strictly increasing list with values which are not smaller
than the rounded values has larger values. -/
theorem C48_separations_least {l s : List ℤ} (hs : s.Pairwise (· < ·)) (hlen : s.length = l.length)
    (hle : ∀ i (hi : i < l.length) (hi' : i < s.length), l[i] ≤ s[i]) {i : ℕ} (hi : i < (dedupe l).length)
    (hi' : i < s.length) : (dedupe l)[i] ≤ s[i] := by
  rcases l with _ | ⟨x, l⟩
  · simp [dedupe] at hi
  · rcases s with _ | ⟨y, s⟩
    · simp at hlen
    · have h0 : x ≤ y := hle 0 (by simp) (by simp)
      cases i with
      | zero => simpa [dedupe] using h0
      | succ i =>
          simp only [dedupe, List.getElem_cons_succ]
          exact dedupeFrom_least x l s y h0 (List.isChain_iff_pairwise.mpr hs) (by simpa using hlen)
            (fun j hj => by
              have := hle (j + 1) (by simpa using hj) (by simp at hlen; simp; omega)
              rwa [List.getElem_cons_succ, List.getElem_cons_succ] at this) i
            (by simp at hlen hi'; omega)

/-! ### The separations of the code -/

theorem npRound_le (x : ℝ) : (npRound x : ℝ) ≤ x + 1 / 2 := by
  have h1 := Int.floor_add_fract x
  have h2 := Int.fract_nonneg x
  unfold npRound
  split
  · linarith
  · split
    · push_cast; linarith
    · split
      · linarith
      · push_cast; linarith

theorem le_npRound (x : ℝ) : x - 1 / 2 ≤ (npRound x : ℝ) := by
  have h1 := Int.floor_add_fract x
  have h2 := Int.fract_nonneg x
  have h3 := Int.fract_lt_one x
  unfold npRound
  split
  · linarith
  · split
    · push_cast; linarith
    · split
      · linarith
      · push_cast; linarith

theorem npRound_intCast (n : ℤ) : npRound n = n := by
  unfold npRound
  simp

theorem nbSeparations_eq (nx : ℕ) : nbSeparations nx = nx / 2 := by
  unfold nbSeparations; omega

/-- The exponential is under its chord. -/
theorem exp_chord {a : ℝ} (ha : 1 ≤ a) {t : ℝ} (h0 : 0 ≤ t) (h1 : t ≤ 1) :
    Real.exp (Real.log a * t) ≤ 1 + t * (a - 1) := by
  have hc := convexOn_exp.2 (Set.mem_univ (0 : ℝ)) (Set.mem_univ (Real.log a)) (sub_nonneg.mpr h1) h0 (by ring)
  simp only [smul_eq_mul, mul_zero, zero_add, Real.exp_zero, mul_one] at hc
  rw [Real.exp_log (by linarith)] at hc
  calc Real.exp (Real.log a * t) = Real.exp (t * Real.log a) := by rw [mul_comm]
    _ ≤ 1 - t + t * a := hc
    _ = 1 + t * (a - 1) := by ring

/-- The initial values. -/
theorem separations0_get {nx : ℕ} (i : ℕ) (hi : i < (separations0 nx).length) :
    (separations0 nx)[i] = npRound (Real.exp (Real.log (rMax nx) * (i / ((nbSeparations nx : ℝ) - 1)))) := by
  simp only [separations0, List.getElem_map, List.getElem_range, Real.log_one, zero_add, div_one]
  congr 2
  ring

theorem separations0_length (nx : ℕ) : (separations0 nx).length = nbSeparations nx := by
  simp [separations0]

/-- The upper bound for the whole loop: the arithmetic list from 1 to `rMax`. -/
theorem separations_bound {nx : ℕ} (hnx : 4 ≤ nx) {i : ℕ} (hi : i < (separations nx).length) :
    (separations nx)[i] ≤ (rMax nx : ℤ) - ((nbSeparations nx : ℤ) - 1 - i) := by
  have hn := nbSeparations_eq nx
  have hlen := (C48_separations_increasing (separations0 nx)).2.1
  rw [separations0_length] at hlen
  have hi2 : i < nbSeparations nx := by rw [← hlen]; exact hi
  have hr : nbSeparations nx ≤ rMax nx := by rw [hn, rMax]; omega
  have h1 : 1 ≤ rMax nx := by rw [rMax]; omega
  let s : List ℤ := (List.range (nbSeparations nx)).map fun j : ℕ =>
    (rMax nx : ℤ) - ((nbSeparations nx : ℤ) - 1 - j)
  have hs : s.Pairwise (· < ·) := by
    rw [List.pairwise_map]
    refine List.Pairwise.imp ?_ List.pairwise_lt_range
    intro a b hab
    omega
  have := C48_separations_least (l := separations0 nx) (s := s) hs (by simp [s, separations0_length]) (by
    intro j hj hj'
    have hj2 : j < nbSeparations nx := by rw [← separations0_length]; exact hj
    rw [separations0_get]
    simp only [s, List.getElem_map, List.getElem_range]
    have hM : (1 : ℝ) ≤ rMax nx := by exact_mod_cast h1
    have hN1 : (1 : ℝ) ≤ (nbSeparations nx : ℝ) - 1 := by
      have : 2 ≤ nbSeparations nx := by omega
      have : (2 : ℝ) ≤ nbSeparations nx := by exact_mod_cast this
      linarith
    have hjN : (j : ℝ) ≤ (nbSeparations nx : ℝ) - 1 := by
      have : j + 1 ≤ nbSeparations nx := hj2
      have : ((j + 1 : ℕ) : ℝ) ≤ nbSeparations nx := by exact_mod_cast this
      push_cast at this; linarith
    have hRN : (nbSeparations nx : ℝ) ≤ rMax nx := by exact_mod_cast hr
    set t : ℝ := j / ((nbSeparations nx : ℝ) - 1) with ht
    have ht0 : 0 ≤ t := by positivity
    have ht1 : t ≤ 1 := by rw [ht, div_le_one (by linarith)]; exact hjN
    have hchord := exp_chord hM ht0 ht1
    have hround := npRound_le (Real.exp (Real.log (rMax nx) * t))
    have htj : t * ((nbSeparations nx : ℝ) - 1) = j := by rw [ht]; field_simp
    have : (1 - t) * ((rMax nx : ℝ) - 1) ≥ (1 - t) * ((nbSeparations nx : ℝ) - 1) :=
      mul_le_mul_of_nonneg_left (by linarith) (by linarith)
    have hreal : ((npRound (Real.exp (Real.log (rMax nx) * t)) : ℤ) : ℝ)
        ≤ (((rMax nx : ℤ) - ((nbSeparations nx : ℤ) - 1 - j) : ℤ) : ℝ) + 1 / 2 := by
      push_cast
      nlinarith
    have h2 : ((npRound (Real.exp (Real.log (rMax nx) * t)) : ℤ) : ℝ)
        < (((rMax nx : ℤ) - ((nbSeparations nx : ℤ) - 1 - j) + 1 : ℤ) : ℝ) := by
      push_cast at hreal ⊢; linarith
    have h3 := Int.cast_lt.mp h2
    omega) (i := i) hi (by simp [s]; exact hi2)
  simp only [s, List.getElem_map, List.getElem_range] at this
  exact this

/-- C48: the separations of the code, for every resolution: there are `nx // 2` of them, strictly increasing from 1
to the integer part of `0.8 nx`: all are smaller than `nx` and the arrays of increments are not empty. -/
theorem C48_separations {nx : ℕ} (hnx : 4 ≤ nx) :
    (separations nx).length = nx / 2 ∧ (separations nx).Pairwise (· < ·) ∧ (separations nx).head? = some 1 ∧
      (separations nx).getLast? = some ((4 * nx / 5 : ℕ) : ℤ) ∧ ∀ r ∈ separations nx, 1 ≤ r ∧ r < nx := by
  have hn := nbSeparations_eq nx
  obtain ⟨h1, h2, h3, h4⟩ := C48_separations_increasing (separations0 nx)
  rw [separations0_length] at h2
  have hlen : (separations nx).length = nbSeparations nx := h2
  have hpos : 0 < nbSeparations nx := by omega
  have hhead : (separations nx).head? = some 1 := by
    show (dedupe (separations0 nx)).head? = _
    rw [h3, List.head?_eq_getElem?, List.getElem?_eq_getElem (by rw [separations0_length]; exact hpos),
      separations0_get]
    simp only [Nat.cast_zero, zero_div, mul_zero, Real.exp_zero]
    have := npRound_intCast 1
    rw [Int.cast_one] at this
    rw [this]
  have hlt : nbSeparations nx - 1 < (separations nx).length := by omega
  have hlast : (separations nx)[nbSeparations nx - 1]'hlt = ((4 * nx / 5 : ℕ) : ℤ) := by
    apply le_antisymm
    · have := separations_bound hnx hlt
      have e : ((rMax nx : ℕ) : ℤ) = ((4 * nx / 5 : ℕ) : ℤ) := rfl
      omega
    · have hi0 : nbSeparations nx - 1 < (separations0 nx).length := by rw [separations0_length]; omega
      have := h4 (nbSeparations nx - 1) hi0 hlt
      rw [separations0_get] at this
      have hN1 : (nbSeparations nx : ℝ) - 1 ≠ 0 := by
        have : 2 ≤ nbSeparations nx := by omega
        have : (2 : ℝ) ≤ nbSeparations nx := by exact_mod_cast this
        linarith
      have e : ((nbSeparations nx - 1 : ℕ) : ℝ) / ((nbSeparations nx : ℝ) - 1) = 1 := by
        rw [Nat.cast_sub hpos, Nat.cast_one, div_self hN1]
      rw [e, mul_one, Real.exp_log] at this
      · have e2 : ((rMax nx : ℕ) : ℝ) = (((rMax nx : ℕ) : ℤ) : ℝ) := by push_cast; rfl
        rw [e2, npRound_intCast] at this
        exact this
      · have : 0 < rMax nx := by rw [rMax]; omega
        exact_mod_cast this
  refine ⟨by rw [hlen, hn], h1, hhead, ?_, ?_⟩
  · rw [List.getLast?_eq_getElem?, hlen, List.getElem?_eq_getElem hlt, hlast]
  · intro r hr
    obtain ⟨i, hi, rfl⟩ := List.mem_iff_getElem.mp hr
    constructor
    · have h0 : 0 < (separations nx).length := by omega
      have e0 : (separations nx)[0]'h0 = 1 := by
        rw [List.head?_eq_getElem?, List.getElem?_eq_getElem h0] at hhead
        exact Option.some.inj hhead
      rcases Nat.eq_zero_or_pos i with rfl | hip
      · rw [e0]
      · have := List.pairwise_iff_getElem.mp h1 0 i h0 hi hip
        have e0' : (dedupe (separations0 nx))[0]'h0 = 1 := e0
        rw [e0'] at this
        exact this.le
    · have := separations_bound hnx hi
      have hr : rMax nx < nx := by rw [rMax]; omega
      rw [hlen] at hi
      omega

example : dedupe [1, 1, 1, 2, 3, 9] = [1, 2, 3, 4, 5, 9] := by decide

/-- C48: the increments are the differences of all the pairs of values of the line separated by `irx`. -/
theorem C48_increments {K : Type} [Field K] (line : List K) {irx : ℕ} (h : irx < line.length) :
    (increments line irx).length = line.length - irx ∧ increments line irx ≠ [] ∧
      ∀ j, j + irx < line.length →
        (increments line irx).getD j 0 = line.getD (j + irx) 0 - line.getD j 0 := by
  have hl : (increments line irx).length = line.length - irx := by simp [increments]
  refine ⟨hl, ?_, ?_⟩
  · intro h0
    rw [h0] at hl
    simp at hl
    omega
  · intro j hj
    have h1 : j < line.length := by omega
    have h2 : j < line.length - irx := by omega
    simp [increments, List.getD_eq_getElem?_getD, h1, hj, h2,
      Nat.add_comm irx j]

/-! ### Structure functions -/

section Strfunc

variable {K : Type} [Field K] [LinearOrder K] [IsStrictOrderedRing K]

theorem sum_bins {β : Type} {n : ℕ} {bin : β → Option (Fin n)} (c : Fin n → K) (l : List β)
    (h : ∀ x ∈ l, bin x ≠ none) :
    ∑ i, ((l.countP fun x => decide (bin x = some i) : ℕ) : K) * c i
      = (l.map fun x => (bin x).elim 0 c).sum := by
  induction l with
  | nil => simp
  | cons a l ih =>
      obtain ⟨j, hj⟩ := Option.ne_none_iff_exists'.mp (h a (List.mem_cons_self ..))
      rw [List.map_cons, List.sum_cons, ← ih fun x hx => h x (List.mem_cons_of_mem _ hx), hj]
      have : ∀ i, (((a :: l).countP fun x => decide (bin x = some i) : ℕ) : K) * c i
          = ((l.countP fun x => decide (bin x = some i) : ℕ) : K) * c i + if i = j then c i else 0 := by
        intro i
        simp only [List.countP_cons, hj, Option.some.injEq, decide_eq_true_eq, eq_comm (a := j)]
        split
        · push_cast; ring
        · simp
      rw [Finset.sum_congr rfl fun i _ => this i, Finset.sum_add_distrib, add_comm]
      simp

/-- C48: the structure function computed from the saved pdf is the mean of the power of the increments, each
increment being replaced by the centre of its bin; `whole` contains the increments of all the processes.
With `absolute`, the two first centres have to have the same sign. -/
theorem C48_structure_function {β : Type} {n : ℕ} (hn : 2 ≤ n) {valmin valmax : K} (hv : valmin < valmax)
    {bin : β → Option (Fin n)} {locals : List (List β)} {whole : List β} (h : locals.flatten.Perm whole)
    (hin : ∀ x ∈ whole, bin x ≠ none) (hne : whole ≠ []) (order : ℕ) :
    let width := (valmax - valmin) / n
    let centre := valuesInc n valmin valmax
    strfunc hn (Reduce.pdfNormalized n bin width locals) centre order false
      = (whole.map fun x => (bin x).elim 0 fun i => centre i ^ order).sum / whole.length ∧
    (0 ≤ centre ⟨0, by omega⟩ ∨ centre ⟨1, hn⟩ ≤ 0 →
      strfunc hn (Reduce.pdfNormalized n bin width locals) centre order true
        = (whole.map fun x => (bin x).elim 0 fun i => |centre i| ^ order).sum / whole.length) := by
  intro width centre
  have hn0 : (n : K) ≠ 0 := by
    have : n ≠ 0 := by omega
    exact_mod_cast this
  have hnpos : (0 : K) < n := by
    have : 0 < n := by omega
    exact_mod_cast this
  have hw : 0 < width := div_pos (sub_pos.mpr hv) hnpos
  have hl0 : ((whole.length : ℕ) : K) ≠ 0 := by
    rw [Nat.cast_ne_zero]; exact fun h => hne (List.length_eq_zero_iff.mp h)
  have hdiff : centre ⟨1, hn⟩ - centre ⟨0, by omega⟩ = width := by
    simp only [centre, valuesInc, width]
    push_cast
    field_simp
    ring
  have main : ∀ c : Fin n → K, width * ∑ i, Reduce.pdfNormalized n bin width locals i * c i
      = (whole.map fun x => (bin x).elim 0 c).sum / whole.length := by
    intro c
    rw [← sum_bins c whole hin, Finset.mul_sum, Finset.sum_div]
    refine Finset.sum_congr rfl fun i _ => ?_
    rw [Reduce.C46_pdf width h hin]
    field_simp
  constructor
  · simp only [strfunc, Bool.false_eq_true, if_false]
    rw [hdiff, abs_of_pos hw]
    exact main fun i => centre i ^ order
  · intro hsign
    simp only [strfunc, if_true]
    have : |(|centre ⟨1, hn⟩| - |centre ⟨0, by omega⟩|)| = width := by
      clear_value centre width
      rcases hsign with hs | hs
      · have h1 : 0 ≤ centre ⟨1, hn⟩ := by linarith
        rw [abs_of_nonneg hs, abs_of_nonneg h1, hdiff, abs_of_pos hw]
      · have h0 : centre ⟨0, by omega⟩ ≤ 0 := by linarith
        rw [abs_of_nonpos hs, abs_of_nonpos h0, abs_of_nonpos (by linarith)]
        linarith
    rw [this]
    exact main fun i => |centre i| ^ order

/-- C48: the first structure function is the mean increment, with an error smaller than half a bin. -/
theorem C48_structure_function_error {n : ℕ} (hn : 2 ≤ n) {valmin valmax : K} (hv : valmin < valmax)
    {bin : K → Option (Fin n)} {locals : List (List K)} {whole : List K} (h : locals.flatten.Perm whole)
    (hin : ∀ x ∈ whole, ∃ i : Fin n, bin x = some i ∧
      valmin + (valmax - valmin) / n * (i : ℕ) ≤ x ∧ x ≤ valmin + (valmax - valmin) / n * ((i : ℕ) + 1))
    (hne : whole ≠ []) :
    |strfunc hn (Reduce.pdfNormalized n bin ((valmax - valmin) / n) locals) (valuesInc n valmin valmax) 1 false
      - whole.sum / whole.length| ≤ (valmax - valmin) / n / 2 := by
  have hin' : ∀ x ∈ whole, bin x ≠ none := by
    intro x hx
    obtain ⟨i, hi, _⟩ := hin x hx
    simp [hi]
  have hn0 : (n : K) ≠ 0 := by
    have : n ≠ 0 := by omega
    exact_mod_cast this
  have hlpos : (0 : K) < (whole.length : ℕ) := by
    have : 0 < whole.length := List.length_pos_iff.mpr hne
    exact_mod_cast this
  rw [(C48_structure_function hn hv h hin' hne 1).1, ← sub_div, abs_div, abs_of_pos hlpos, div_le_iff₀ hlpos]
  have key : ∀ l : List K, (∀ x ∈ l, x ∈ whole) →
      |(l.map fun x => (bin x).elim 0 fun i => valuesInc n valmin valmax i ^ 1).sum - l.sum|
        ≤ (valmax - valmin) / n / 2 * (l.length : ℕ) := by
    intro l
    induction l with
    | nil => intro _; simp
    | cons a l ih =>
        intro hl
        have ih' := ih fun x hx => hl x (List.mem_cons_of_mem _ hx)
        obtain ⟨i, hi, hlo, hup⟩ := hin a (hl a (List.mem_cons_self ..))
        simp only [List.map_cons, List.sum_cons, List.length_cons, hi, Option.elim_some]
        have hc : valuesInc n valmin valmax i = valmin + (valmax - valmin) / n * ((i : ℕ) + 1 / 2) := by
          rw [valuesInc]; field_simp
        have ha : |valuesInc n valmin valmax i ^ 1 - a| ≤ (valmax - valmin) / n / 2 := by
          rw [pow_one, hc, abs_le]
          constructor <;> nlinarith
        push_cast
        calc _ = |(valuesInc n valmin valmax i ^ 1 - a) + ((l.map fun x => (bin x).elim 0 fun i =>
              valuesInc n valmin valmax i ^ 1).sum - l.sum)| := by congr 1; ring
          _ ≤ _ := abs_add_le _ _
          _ ≤ (valmax - valmin) / n / 2 * (((l.length : ℕ) : K) + 1) := by linarith
  exact key whole fun x hx => hx

/-- C48, finding: with `absolute`, the width of the bins is computed with the absolute values: if 0 is in the
middle of the two first centres, the structure function is zero whatever the pdf is. -/
theorem C48_absolute_violated {n : ℕ} (hn : 2 ≤ n) (w : K) (pdf : Fin n → K) (order : ℕ) :
    strfunc hn pdf (valuesInc n (-w) (-w + n * w)) order true = 0 := by
  have hn0 : (n : K) ≠ 0 := by
    have : n ≠ 0 := by omega
    exact_mod_cast this
  have e0 : valuesInc n (-w) (-w + n * w) ⟨0, by omega⟩ = -(w / 2) := by
    simp only [valuesInc]; push_cast; field_simp; ring
  have e1 : valuesInc n (-w) (-w + n * w) ⟨1, hn⟩ = w / 2 := by
    simp only [valuesInc]; push_cast; field_simp; ring
  simp only [strfunc, if_true]
  rw [e0, e1, abs_neg, sub_self, abs_zero, zero_mul]

end Strfunc

/-! ### Shells -/

/-- The condition on the rounded values for which the shells are right. -/
def Spread (l : List ℤ) : Prop :=
  ∀ i j (_ : i < j) (hj : j < l.length), l[i] + ((j : ℤ) - i - 1) ≤ l[j]

theorem spread_cons_cons (p x : ℤ) (l : List ℤ) :
    Spread (p :: x :: l) ↔ p ≤ x ∧ Spread ((if p = x then x + 1 else x) :: l) := by
  constructor
  · intro h
    have h0 : p ≤ x := by
      have := h 0 1 (by omega) (by simp)
      simp only [List.getElem_cons_zero, List.getElem_cons_succ] at this
      push_cast at this
      omega
    refine ⟨h0, ?_⟩
    intro i j hij hj
    cases i with
    | zero =>
        obtain ⟨j, rfl⟩ : ∃ j', j = j' + 1 := ⟨j - 1, by omega⟩
        have h1 := h 0 (j + 2) (by omega) (by simpa using hj)
        have h2 := h 1 (j + 2) (by omega) (by simpa using hj)
        simp only [List.getElem_cons_zero, List.getElem_cons_succ] at h1 h2 ⊢
        split <;> push_cast at * <;> omega
    | succ i =>
        obtain ⟨j, rfl⟩ : ∃ j', j = j' + 1 := ⟨j - 1, by omega⟩
        have h1 := h (i + 2) (j + 2) (by omega) (by simpa using hj)
        simp only [List.getElem_cons_succ] at h1 ⊢
        push_cast at *; omega
  · rintro ⟨h0, h⟩ i j hij hj
    obtain ⟨j, rfl⟩ : ∃ j', j = j' + 1 := ⟨j - 1, by omega⟩
    cases i with
    | zero =>
        cases j with
        | zero => simpa using h0
        | succ j =>
            have h1 := h 0 (j + 1) (by omega) (by simpa using hj)
            simp only [List.getElem_cons_zero, List.getElem_cons_succ] at h1 ⊢
            split at h1 <;> push_cast at * <;> omega
    | succ i =>
        cases i with
        | zero =>
            obtain ⟨j, rfl⟩ : ∃ j', j = j' + 1 := ⟨j - 1, by omega⟩
            have h1 := h 0 (j + 1) (by omega) (by simpa using hj)
            simp only [List.getElem_cons_zero, List.getElem_cons_succ] at h1 ⊢
            split at h1 <;> push_cast at * <;> omega
        | succ i =>
            obtain ⟨j, rfl⟩ : ∃ j', j = j' + 1 := ⟨j - 1, by omega⟩
            have h1 := h (i + 1) (j + 1) (by omega) (by simpa using hj)
            simp only [List.getElem_cons_succ] at h1 ⊢
            push_cast at *; omega

theorem shellsFrom_chain (p : ℤ) (l : List ℤ) : (p :: shellsFrom p l).IsChain (· < ·) ↔ Spread (p :: l) := by
  induction l generalizing p with
  | nil =>
      simp only [shellsFrom]
      refine ⟨fun _ i j hij hj => ?_, fun _ => List.isChain_singleton _⟩
      simp at hj; omega
  | cons x l ih =>
      rw [spread_cons_cons, ← ih]
      simp only [shellsFrom]
      rw [List.isChain_cons_cons]
      constructor
      · rintro ⟨h1, h2⟩
        refine ⟨?_, h2⟩
        split at h1 <;> omega
      · rintro ⟨h1, h2⟩
        refine ⟨?_, h2⟩
        split <;> omega

/-- C48: the shells are strictly increasing (so that they are distinct) exactly if each rounded value is at least
the value obtained from the previous ones by steps of one `deltak`, up to one repetition. Missing: the other lists,
see `C48_shells_violated`. -/
theorem C48_shells_partial (l : List ℤ) : (shells l).Pairwise (· < ·) ↔ Spread l := by
  rcases l with _ | ⟨x, l⟩
  · simp [shells, Spread]
  · rw [← List.isChain_iff_pairwise]
    exact shellsFrom_chain x l

example : Spread [1, 1, 2, 4] ∧ shells [1, 1, 2, 4] = [1, 2, 3, 4] := by
  constructor
  · rw [← C48_shells_partial]; decide
  · decide

/-- C48, finding: with the parameters `nx = 6`, `coef_dealiasing = 2/3` and 9 shells, the three first rounded values
are equal and the first and the third shells are the same. -/
theorem C48_shells_violated :
    ∃ a b c l, shells0 (6 / 2 * (2 / 3)) 9 = a :: b :: c :: l ∧
      shells (a :: b :: c :: l) = 1 :: 2 :: 1 :: shellsFrom 1 l := by
  have h : ∀ i : ℕ, i ≤ 3 → npRound (Real.exp (Real.log (6 / 2 * (2 / 3)) / (((9 : ℕ) : ℝ) + 3) * ((i : ℝ) + 3))) = 1 := by
    intro i hi
    have e : (6 / 2 * (2 / 3) : ℝ) = 2 := by norm_num
    rw [e]
    set y := Real.exp (Real.log 2 / (((9 : ℕ) : ℝ) + 3) * ((i : ℝ) + 3)) with hy
    have hlog : 0 < Real.log 2 := Real.log_pos (by norm_num)
    have hi' : (i : ℝ) ≤ 3 := by exact_mod_cast hi
    have hi0 : (0 : ℝ) ≤ i := Nat.cast_nonneg i
    have h1 : 1 < y := by
      rw [hy, Real.one_lt_exp_iff]
      positivity
    have h2 : y * y ≤ 2 := by
      rw [hy, ← Real.exp_add]
      calc Real.exp _ ≤ Real.exp (Real.log 2) := by
            apply Real.exp_le_exp.mpr
            push_cast
            nlinarith
        _ = 2 := Real.exp_log (by norm_num)
    have h3 : y < 3 / 2 := by nlinarith
    have hup := npRound_le y
    have hlo := le_npRound y
    have a1 : ((npRound y : ℤ) : ℝ) < ((2 : ℤ) : ℝ) := by push_cast; linarith
    have a2 : ((0 : ℤ) : ℝ) < ((npRound y : ℤ) : ℝ) := by push_cast; linarith
    have b1 := Int.cast_lt.mp a1
    have b2 := Int.cast_lt.mp a2
    omega
  have hr : List.range 9 = 0 :: 1 :: 2 :: [3, 4, 5, 6, 7, 8] := by decide
  refine ⟨_, _, _, _, by rw [shells0, hr]; rfl, ?_⟩
  simp only [h 0 (by omega), h 1 (by omega), h 2 (by omega)]
  rfl

/-! ### Slots -/

theorem foldlM_slots (tot : ℕ) (ws : List (ℕ × (ℕ × ℕ))) (a : ℕ → Option (ℕ × ℕ)) (h : ∀ w ∈ ws, w.1 < tot) :
    ∃ a', ws.foldlM (fun a w => if w.1 < tot then (Except.ok (fun i => if i = w.1 then some w.2 else a i))
        else Except.error "IndexError") a = (Except.ok a' : Except String _) ∧
      (∀ i, (∀ w ∈ ws, w.1 ≠ i) → a' i = a i) ∧
      (∀ i v, a' i = some v → a i = some v ∨ (i, v) ∈ ws) ∧
      (∀ w ∈ ws, a' w.1 ≠ none) := by
  induction ws generalizing a with
  | nil => exact ⟨a, rfl, fun _ _ => rfl, fun _ _ h => Or.inl h, by simp⟩
  | cons w ws ih =>
      obtain ⟨a', e, h1, h2, h3⟩ := ih (fun i => if i = w.1 then some w.2 else a i)
        fun x hx => h x (List.mem_cons_of_mem _ hx)
      refine ⟨a', ?_, ?_, ?_, ?_⟩
      · rw [List.foldlM_cons, if_pos (h w (List.mem_cons_self ..))]
        exact e
      · intro i hi
        rw [h1 i fun x hx => hi x (List.mem_cons_of_mem _ hx), if_neg]
        exact fun hc => hi w (List.mem_cons_self ..) hc.symm
      · intro i v hv
        rcases h2 i v hv with hh | hh
        · split at hh
          · rename_i hi
            right
            rw [hi, ← Option.some.inj hh]
            exact List.mem_cons_self ..
          · exact Or.inl hh
        · exact Or.inr (List.mem_cons_of_mem _ hh)
      · intro x hx
        by_cases hin : ∃ w' ∈ ws, w'.1 = x.1
        · obtain ⟨w', hw', e'⟩ := hin
          rw [← e']; exact h3 w' hw'
        · rcases List.mem_cons.mp hx with rfl | hx
          · rw [h1 x.1 fun w' hw' he => hin ⟨w', hw', he⟩]
            simp
          · exact h3 x hx

theorem foldlM_error (tot : ℕ) (ws : List (ℕ × (ℕ × ℕ))) (a : ℕ → Option (ℕ × ℕ)) (h : ∃ w ∈ ws, tot ≤ w.1) :
    ws.foldlM (fun a w => if w.1 < tot then (Except.ok (fun i => if i = w.1 then some w.2 else a i))
        else Except.error "IndexError") a = (Except.error "IndexError" : Except String (ℕ → Option (ℕ × ℕ))) := by
  induction ws generalizing a with
  | nil => simp at h
  | cons w ws ih =>
      rw [List.foldlM_cons]
      by_cases hw : w.1 < tot
      · rw [if_pos hw]
        refine ih _ ?_
        obtain ⟨x, hx, hx'⟩ := h
        rcases List.mem_cons.mp hx with rfl | hx
        · omega
        · exact ⟨x, hx, hx'⟩
      · rw [if_neg hw]; rfl

theorem mem_slotWrites {S P : ℕ} {w : ℕ × (ℕ × ℕ)} :
    w ∈ slotWrites S P ↔ w.2.1 < S ∧ w.2.2 < P ∧ w.1 = w.2.1 * S + w.2.2 := by
  obtain ⟨i, s, k⟩ := w
  simp only [slotWrites, List.mem_flatMap, List.mem_range, List.mem_map, Prod.mk.injEq]
  constructor
  · rintro ⟨s', hs, k', hk, rfl, rfl, rfl⟩; exact ⟨hs, hk, rfl⟩
  · rintro ⟨hs, hk, rfl⟩; exact ⟨s, hs, k, hk, rfl, rfl, rfl⟩

/-- C48: all the slots are filled if there is one shell or as many shells as wavenumbers by shell; then each
(shell, number) has its slot. Missing: the other values, see `C48_slots_violated`. -/
theorem C48_slots_partial {S P : ℕ} (hP : 2 ≤ P) (h : S = 1 ∨ S = P) :
    ∃ a, slots S P = .ok a ∧ ∀ s < S, ∀ k < P, s * P + k < S * P ∧ a (s * P + k) = some (s, k) := by
  have hlt : ∀ w ∈ slotWrites S P, w.1 < S * P := by
    intro w hw
    obtain ⟨h1, h2, h3⟩ := mem_slotWrites.mp hw
    rw [h3]
    rcases h with rfl | rfl
    · have : w.2.1 = 0 := by omega
      rw [this]; omega
    · calc w.2.1 * S + w.2.2 < w.2.1 * S + S := by omega
        _ = (w.2.1 + 1) * S := by ring
        _ ≤ S * S := Nat.mul_le_mul_right _ h1
  obtain ⟨a, e, h1, h2, h3⟩ := foldlM_slots (S * P) (slotWrites S P) (fun _ => none) hlt
  refine ⟨a, ?_, ?_⟩
  · rw [slots, if_neg (by omega)]
    exact e
  · intro s hs k hk
    have hidx : s * P + k = s * S + k := by
      rcases h with rfl | rfl
      · have : s = 0 := by omega
        simp [this]
      · rfl
    have hmem : (s * P + k, (s, k)) ∈ slotWrites S P := mem_slotWrites.mpr ⟨hs, hk, hidx⟩
    refine ⟨hlt _ hmem, ?_⟩
    obtain ⟨v, hv⟩ := Option.ne_none_iff_exists'.mp (h3 _ hmem)
    rw [hv]
    rcases h2 _ _ hv with hh | hh
    · simp at hh
    · obtain ⟨g1, g2, g3⟩ := mem_slotWrites.mp hh
      simp only at g1 g2 g3
      rw [hidx] at g3
      obtain ⟨v1, v2⟩ := v
      simp only at g1 g2 g3
      rcases h with rfl | rfl
      · have a1 : s = 0 := by omega
        have a2 : v1 = 0 := by omega
        subst a1; subst a2
        simp at g3
        simp [g3]
      · have hs0 : 0 < S := by omega
        have d1 : (s * S + k) / S = s := by
          rw [mul_comm, Nat.mul_add_div hs0, Nat.div_eq_of_lt hk, add_zero]
        have d2 : (v1 * S + v2) / S = v1 := by
          rw [mul_comm, Nat.mul_add_div hs0, Nat.div_eq_of_lt g2, add_zero]
        rw [g3] at d1
        have e1 : v1 = s := d2.symm.trans d1
        subst e1
        have e2 : v2 = k := by omega
        rw [e2]

/-- C48, finding: with fewer wavenumbers by shell than shells, the output cannot be created; with more (and at least
two shells), the last slot is never filled. -/
theorem C48_slots_violated {S P : ℕ} (hP : 2 ≤ P) (hS : 2 ≤ S) :
    (P < S → slots S P = .error "IndexError") ∧
    (S < P → ∃ a, slots S P = .ok a ∧ a (S * P - 1) = none) := by
  constructor
  · intro h
    rw [slots, if_neg (by omega)]
    refine foldlM_error _ _ _ ⟨((S - 1) * S + (P - 1), (S - 1, P - 1)), mem_slotWrites.mpr ⟨by simp; omega, by simp; omega, rfl⟩, ?_⟩
    have : S * P ≤ S * (S - 1) := Nat.mul_le_mul_left _ (by omega)
    rw [mul_comm (S - 1) S]
    omega
  · intro h
    have hlt1 : ∀ w ∈ slotWrites S P, w.1 < S * P - 1 := by
      intro w hw
      obtain ⟨h1, h2, h3⟩ := mem_slotWrites.mp hw
      obtain ⟨T, rfl⟩ : ∃ T, S = T + 2 := ⟨S - 2, by omega⟩
      obtain ⟨d, rfl⟩ : ∃ d, P = T + 2 + 1 + d := ⟨P - (T + 3), by omega⟩
      have h4 : w.2.1 * (T + 2) ≤ (T + 1) * (T + 2) := Nat.mul_le_mul_right _ (by omega)
      have h5 : (T + 2) * (T + 2 + 1 + d) = (T + 1) * (T + 2) + (T + 2) + (T + 2) + (T + 2) * d := by ring
      have h6 : d ≤ (T + 2) * d := Nat.le_mul_of_pos_left _ (by omega)
      omega
    obtain ⟨a, e, h1, h2, h3⟩ := foldlM_slots (S * P) (slotWrites S P) (fun _ => none)
      fun w hw => by have := hlt1 w hw; omega
    refine ⟨a, ?_, ?_⟩
    · rw [slots, if_neg (by omega)]; exact e
    · rw [h1 (S * P - 1)]
      intro w hw
      have := hlt1 w hw
      omega

/-- The default parameters (4 shells, 4 wavenumbers). -/
example : (4 : ℕ) = 1 ∨ (4 : ℕ) = 4 := by decide

/-- C48, finding: the period computed from the frequencies of the waves is never used. -/
theorem C48_period_violated {K : Type} (param computed : K) (h : param ≠ computed) :
    periodSave param computed ≠ computed := h

end Verif.Increm
