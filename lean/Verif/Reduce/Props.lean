import Verif.Reduce.Model
import Mathlib.Algebra.BigOperators.Group.List.Lemmas
import Mathlib.Algebra.BigOperators.Group.Finset.Basic
import Mathlib.Data.List.Perm.Basic
import Mathlib.Tactic.FieldSimp
import Mathlib.Tactic.Ring
import Mathlib.Tactic.NormNum
import Mathlib.Algebra.Order.Ring.Rat

/-! # C46: the reductions over the processes -/

namespace Verif.Reduce

set_option linter.unusedSectionVars false

variable {K : Type} [Field K]

/-! ### Specification -/

/-- The row of index `i` (of the whole array) in a process. -/
def Block.row {β : Type} (b : Block β) (i : ℕ) : List β :=
  if b.start ≤ i then b.rows.getD (i - b.start) [] else []

/-- The blocks are a distribution of the whole array: they are in the array and each row of the array is shared
between the processes, in any order. -/
structure Distributes {β : Type} (blocks : List (Block β)) (whole : List (List β)) : Prop where
  inside : ∀ b ∈ blocks, b.start + b.rows.length ≤ whole.length
  rows : ∀ i < whole.length, ((blocks.map fun b => b.row i).flatten).Perm (whole.getD i [])

/-! ### Means -/

theorem sum_flatten (l : List (List K)) : l.flatten.sum = (l.map List.sum).sum := by
  induction l with
  | nil => simp
  | cons a l ih => simp [ih]

theorem length_flatten' {β : Type} (l : List (List β)) : l.flatten.length = (l.map List.length).sum := by
  induction l with
  | nil => simp
  | cons a l ih => simp

/-- C46: the mean computed by the processes is the mean of the whole array, for any distribution. -/
theorem C46_mean_space {locals : List (List K)} {whole : List K} (h : locals.flatten.Perm whole) :
    meanSpace locals = whole.sum / (whole.length : K) := by
  have h1 : (locals.map List.sum).sum = whole.sum := by rw [← sum_flatten, h.sum_eq]
  have h2 : (locals.map List.length).sum = whole.length := by rw [← length_flatten', h.length_eq]
  unfold meanSpace
  split
  · simp only [List.flatten_cons, List.flatten_nil, List.append_nil] at h
    rw [npMean, h.sum_eq, h.length_eq]
  · rw [h1, h2]

example : meanSpace ([[1, 2], [3], [6]] : List (List ℚ)) = 3 := by
  norm_num [meanSpace]

/-! ### Histograms -/

theorem hist_sum {β : Type} (n : ℕ) (bin : β → Option (Fin n)) (locals : List (List β)) (i : Fin n) :
    (locals.map fun l => histogram n bin l i).sum = histogram n bin locals.flatten i := by
  induction locals with
  | nil => simp [histogram]
  | cons a l ih =>
      simp only [List.map_cons, List.sum_cons, List.flatten_cons, ih]
      simp only [histogram, List.countP_append]

theorem hist_perm {β : Type} (n : ℕ) (bin : β → Option (Fin n)) {l l' : List β} (h : l.Perm l') :
    histogram n bin l = histogram n bin l' := by
  funext i
  exact h.countP_eq _

theorem hist_total {β : Type} (n : ℕ) (bin : β → Option (Fin n)) (l : List β) (h : ∀ x ∈ l, bin x ≠ none) :
    ∑ i, histogram n bin l i = l.length := by
  induction l with
  | nil => simp [histogram]
  | cons a l ih =>
      have hl := ih fun x hx => h x (List.mem_cons_of_mem _ hx)
      obtain ⟨j, hj⟩ := Option.ne_none_iff_exists'.mp (h a (List.mem_cons_self ..))
      have : ∀ i, histogram n bin (a :: l) i = histogram n bin l i + if i = j then 1 else 0 := by
        intro i
        simp only [histogram, List.countP_cons, hj, Option.some.injEq, decide_eq_true_eq, eq_comm (a := j)]
      rw [Finset.sum_congr rfl fun i _ => this i, Finset.sum_add_distrib, hl]
      simp

/-- C46: the pdf computed by the processes only depends on the whole field: it is the number of values in each
bin divided by the number of values and by the width of the bins. -/
theorem C46_pdf {β : Type} {n : ℕ} {bin : β → Option (Fin n)} (width : K) {locals : List (List β)} {whole : List β}
    (h : locals.flatten.Perm whole) (hin : ∀ x ∈ whole, bin x ≠ none) (i : Fin n) :
    pdfNormalized n bin width locals i
      = ((whole.countP fun x => decide (bin x = some i) : ℕ) : K) / (width * (whole.length : K)) := by
  simp only [pdfNormalized, hist_sum, hist_perm n bin h, hist_total n bin whole hin]
  rfl

/-- C46: the integral of the pdf is 1. -/
theorem C46_pdf_integral [CharZero K] {β : Type} {n : ℕ} {bin : β → Option (Fin n)} {width : K} (hw : width ≠ 0)
    {locals : List (List β)} {whole : List β} (h : locals.flatten.Perm whole)
    (hin : ∀ x ∈ whole, bin x ≠ none) (hne : whole ≠ []) :
    ∑ i, pdfNormalized n bin width locals i * width = 1 := by
  have h0 : ((whole.length : ℕ) : K) ≠ 0 := by
    rw [Nat.cast_ne_zero]; exact fun h => hne (List.length_eq_zero_iff.mp h)
  have h1 : ∑ i, ((whole.countP fun x => decide (bin x = some i) : ℕ) : K) = (whole.length : K) := by
    rw [← Nat.cast_sum]
    exact congrArg _ (hist_total n bin whole hin)
  calc ∑ i, pdfNormalized n bin width locals i * width
      = ∑ i, ((whole.countP fun x => decide (bin x = some i) : ℕ) : K) * (1 / (whole.length : K)) := by
        refine Finset.sum_congr rfl fun i _ => ?_
        rw [C46_pdf width h hin]
        field_simp
    _ = 1 := by rw [← Finset.sum_mul, h1]; field_simp

example : (pdfNormalized 2 (fun x : ℕ => if x < 2 then some 0 else some 1) (2 : ℚ) [[0, 3], [1, 1]] 0 = 3 / 8) ∧
    (∀ x ∈ [0, 3, 1, 1], (fun x : ℕ => if x < 2 then some (0 : Fin 2) else some 1) x ≠ none) := by
  constructor
  · simp [pdfNormalized, histogram, Fin.sum_univ_two]
    norm_num
  · decide

section Extrema

variable [LinearOrder K]

theorem foldl_min_le (l : List K) (x : K) : l.foldl min x ≤ x ∧ ∀ y ∈ l, l.foldl min x ≤ y := by
  induction l generalizing x with
  | nil => simp
  | cons a l ih =>
      obtain ⟨h1, h2⟩ := ih (min x a)
      refine ⟨h1.trans (min_le_left _ _), fun y hy => ?_⟩
      rcases List.mem_cons.mp hy with rfl | hy
      · exact h1.trans (min_le_right _ _)
      · exact h2 y hy

theorem foldl_min_mem (l : List K) (x : K) : l.foldl min x = x ∨ l.foldl min x ∈ l := by
  induction l generalizing x with
  | nil => simp
  | cons a l ih =>
      rcases ih (min x a) with h | h
      · rcases min_choice x a with e | e
        · left; rw [List.foldl_cons, h, e]
        · right; rw [List.foldl_cons, h, e]; exact List.mem_cons_self ..
      · right; exact List.mem_cons_of_mem _ h

theorem le_foldl_max (l : List K) (x : K) : x ≤ l.foldl max x ∧ ∀ y ∈ l, y ≤ l.foldl max x := by
  induction l generalizing x with
  | nil => simp
  | cons a l ih =>
      obtain ⟨h1, h2⟩ := ih (max x a)
      refine ⟨(le_max_left _ _).trans h1, fun y hy => ?_⟩
      rcases List.mem_cons.mp hy with rfl | hy
      · exact (le_max_right _ _).trans h1
      · exact h2 y hy

theorem foldl_max_mem (l : List K) (x : K) : l.foldl max x = x ∨ l.foldl max x ∈ l := by
  induction l generalizing x with
  | nil => simp
  | cons a l ih =>
      rcases ih (max x a) with h | h
      · rcases max_choice x a with e | e
        · left; rw [List.foldl_cons, h, e]
        · right; rw [List.foldl_cons, h, e]; exact List.mem_cons_self ..
      · right; exact List.mem_cons_of_mem _ h

/-- The extrema of one local array. -/
theorem local_extrema (x : K) (xs : List K) :
    (xs.foldl min x ∈ x :: xs ∧ ∀ y ∈ x :: xs, xs.foldl min x ≤ y) ∧
    (xs.foldl max x ∈ x :: xs ∧ ∀ y ∈ x :: xs, y ≤ xs.foldl max x) := by
  refine ⟨⟨?_, ?_⟩, ?_, ?_⟩
  · rcases foldl_min_mem xs x with h | h
    · rw [h]; exact List.mem_cons_self ..
    · exact List.mem_cons_of_mem _ h
  · intro y hy
    rcases List.mem_cons.mp hy with rfl | hy
    · exact (foldl_min_le xs y).1
    · exact (foldl_min_le xs x).2 y hy
  · rcases foldl_max_mem xs x with h | h
    · rw [h]; exact List.mem_cons_self ..
    · exact List.mem_cons_of_mem _ h
  · intro y hy
    rcases List.mem_cons.mp hy with rfl | hy
    · exact (le_foldl_max xs y).1
    · exact (le_foldl_max xs x).2 y hy

theorem mapM_extrema (locals : List (List K)) (hne : ∀ l ∈ locals, l ≠ []) :
    ∃ ms : List (K × K), locals.mapM localExtrema = .ok ms ∧
      ms.length = locals.length ∧
      (∀ m ∈ ms, m.1 ∈ locals.flatten ∧ m.2 ∈ locals.flatten) ∧
      ∀ y ∈ locals.flatten, ∃ m ∈ ms, m.1 ≤ y ∧ y ≤ m.2 := by
  induction locals with
  | nil => exact ⟨[], rfl, rfl, by simp, by simp⟩
  | cons a l ih =>
      obtain ⟨ms, h1, hlen, h2, h3⟩ := ih fun x hx => hne x (List.mem_cons_of_mem _ hx)
      rcases a with _ | ⟨x, xs⟩
      · exact absurd rfl (hne [] (List.mem_cons_self ..))
      · obtain ⟨⟨e1, e2⟩, e3, e4⟩ := local_extrema x xs
        refine ⟨(xs.foldl min x, xs.foldl max x) :: ms, ?_, by simp [hlen], ?_, ?_⟩
        · rw [List.mapM_cons, h1]; rfl
        · intro m hm
          rcases List.mem_cons.mp hm with rfl | hm
          · exact ⟨List.mem_append_left _ e1, List.mem_append_left _ e3⟩
          · exact ⟨List.mem_append_right _ (h2 m hm).1, List.mem_append_right _ (h2 m hm).2⟩
        · intro y hy
          rcases List.mem_append.mp hy with hy | hy
          · exact ⟨_, List.mem_cons_self .., e2 y hy, e4 y hy⟩
          · obtain ⟨m, hm, hh⟩ := h3 y hy
            exact ⟨m, List.mem_cons_of_mem _ hm, hh⟩

/-- C46: the extrema used by all the processes are the extrema of the whole field, for every distribution in
which no process is empty. -/
theorem C46_extrema {locals : List (List K)} {whole : List K} (h : locals.flatten.Perm whole)
    (h0 : locals ≠ []) (hne : ∀ l ∈ locals, l ≠ []) :
    ∃ m, extrema locals = .ok m ∧ m.1 ∈ whole ∧ m.2 ∈ whole ∧ ∀ y ∈ whole, m.1 ≤ y ∧ y ≤ m.2 := by
  obtain ⟨ms, h1, hlen, h2, h3⟩ := mapM_extrema locals hne
  rcases ms with _ | ⟨m, ms⟩
  · exact absurd (List.length_eq_zero_iff.mp hlen.symm) h0
  · refine ⟨((ms.map Prod.fst).foldl min m.1, (ms.map Prod.snd).foldl max m.2), ?_, ?_, ?_, ?_⟩
    · unfold extrema
      rw [h1]
      rfl
    · rw [← h.mem_iff]
      rcases foldl_min_mem (ms.map Prod.fst) m.1 with e | e
      · show (ms.map Prod.fst).foldl min m.1 ∈ _
        rw [e]; exact (h2 m (List.mem_cons_self ..)).1
      · obtain ⟨m', hm', e'⟩ := List.mem_map.mp e
        show (ms.map Prod.fst).foldl min m.1 ∈ _
        rw [← e']; exact (h2 m' (List.mem_cons_of_mem _ hm')).1
    · rw [← h.mem_iff]
      rcases foldl_max_mem (ms.map Prod.snd) m.2 with e | e
      · show (ms.map Prod.snd).foldl max m.2 ∈ _
        rw [e]; exact (h2 m (List.mem_cons_self ..)).2
      · obtain ⟨m', hm', e'⟩ := List.mem_map.mp e
        show (ms.map Prod.snd).foldl max m.2 ∈ _
        rw [← e']; exact (h2 m' (List.mem_cons_of_mem _ hm')).2
    · intro y hy
      obtain ⟨m', hm', e1, e2⟩ := h3 y (h.mem_iff.mpr hy)
      rcases List.mem_cons.mp hm' with rfl | hm'
      · exact ⟨((foldl_min_le _ _).1).trans e1, e2.trans (le_foldl_max _ _).1⟩
      · exact ⟨((foldl_min_le _ _).2 _ (List.mem_map_of_mem hm')).trans e1,
          e2.trans ((le_foldl_max _ _).2 _ (List.mem_map_of_mem hm'))⟩

end Extrema

/-! ### Horizontal means -/

theorem addSlice_row (g : ℕ → K) (b : Block K) (i : ℕ) :
    addSlice g b.start (b.rows.map List.sum) i = g i + (b.row i).sum := by
  simp only [addSlice, List.length_map, Block.row]
  by_cases h1 : b.start ≤ i
  · by_cases h2 : i < b.start + b.rows.length
    · rw [if_pos ⟨h1, h2⟩, if_pos h1]
      have : i - b.start < b.rows.length := by omega
      simp [List.getD_eq_getElem?_getD, this]
    · rw [if_neg (by omega), if_pos h1]
      have : b.rows.length ≤ i - b.start := by omega
      simp [List.getD_eq_getElem?_getD, this]
  · rw [if_neg (by omega), if_neg h1]
    simp

theorem foldl_addSlice (blocks : List (Block K)) (g : ℕ → K) (i : ℕ) :
    blocks.foldl (fun g b => addSlice g b.start (b.rows.map List.sum)) g i
      = g i + (blocks.map fun b => (b.row i).sum).sum := by
  induction blocks generalizing g with
  | nil => simp
  | cons b bs ih => rw [List.foldl_cons, ih, addSlice_row]; simp [add_assoc]

/-- The sum of the values of a row of the whole array, from the processes. -/
theorem row_sum {blocks : List (Block K)} {whole : List (List K)} (h : Distributes blocks whole)
    {i : ℕ} (hi : i < whole.length) : (blocks.map fun b => (b.row i).sum).sum = (whole.getD i []).sum := by
  rw [← (h.rows i hi).sum_eq, sum_flatten, List.map_map]
  rfl

/-- C46: the horizontal mean computed by the processes is, at each level, the mean of the values at this level,
for every distribution (slabs, pencils, any order of the processes). -/
theorem C46_horizontal_mean {blocks : List (Block K)} {whole : List (List K)} (h : Distributes blocks whole)
    {nh : ℕ} (hnh : ∀ row ∈ whole, row.length = nh) {i : ℕ} (hi : i < whole.length) :
    hmean nh blocks i = (whole.getD i []).sum / ((whole.getD i []).length : K) := by
  have hl : (whole.getD i []).length = nh := by
    refine hnh _ ?_
    simp [List.getD_eq_getElem?_getD, hi]
  show (blocks.foldl (fun g b => addSlice g b.start (b.rows.map List.sum)) (fun _ => 0)) i / (nh : K) = _
  rw [foldl_addSlice, zero_add, row_sum h hi, hl]

/-- The local operations on distributed arrays give the distributed result. -/
theorem distributes_mapLevel {β γ : Type} {blocks : List (Block β)} {whole : List (List β)}
    (h : Distributes blocks whole) (f : ℕ → β → γ) :
    Distributes (blocks.map (Block.mapLevel f)) (whole.mapIdx fun i row => row.map (f i)) := by
  constructor
  · intro b hb
    obtain ⟨b, hb', rfl⟩ := List.mem_map.mp hb
    simpa [Block.mapLevel] using h.inside b hb'
  · intro i hi
    rw [List.length_mapIdx] at hi
    have h1 : (whole.mapIdx fun i row => row.map (f i)).getD i [] = (whole.getD i []).map (f i) := by
      simp [List.getD_eq_getElem?_getD, hi]
    have h2 : ((blocks.map (Block.mapLevel f)).map fun b => b.row i)
        = (blocks.map fun b => b.row i).map (List.map (f i)) := by
      rw [List.map_map, List.map_map]
      refine List.map_congr_left fun b _ => ?_
      show (if b.start ≤ i then (b.rows.mapIdx fun j row => row.map (f (b.start + j))).getD (i - b.start) [] else [])
        = (if b.start ≤ i then b.rows.getD (i - b.start) [] else []).map (f i)
      by_cases hs : b.start ≤ i
      · rw [if_pos hs, if_pos hs]
        by_cases hlt : i - b.start < b.rows.length
        · have e : b.start + (i - b.start) = i := by omega
          simp [List.getD_eq_getElem?_getD, hlt, e]
        · have : b.rows.length ≤ i - b.start := by omega
          simp [List.getD_eq_getElem?_getD, this]
      · rw [if_neg hs, if_neg hs]; rfl
    rw [h1, h2, ← List.map_flatten]
    exact (h.rows i hi).map _

/-- C46: the saved correlations are the ones of the fluctuations: for two distributed fields (`whole` contains
the pairs of values), the horizontal mean of the product of their deviations from their horizontal means is the
mean of the product minus the product of the means. In particular the mean of a deviation is zero. -/
theorem C46_fluctuations [CharZero K] {blocks : List (Block (K × K))} {whole : List (List (K × K))}
    (h : Distributes blocks whole) {nh : ℕ} (h0 : nh ≠ 0) (hnh : ∀ row ∈ whole, row.length = nh)
    {i : ℕ} (hi : i < whole.length) :
    let row := whole.getD i []
    let a := hmean nh (blocks.map (Block.mapLevel fun _ p => p.1))
    let b := hmean nh (blocks.map (Block.mapLevel fun _ p => p.2))
    hmean nh (blocks.map (Block.mapLevel fun i p => p.1 - a i)) i = 0 ∧
    hmean nh (blocks.map (Block.mapLevel fun i p => (p.1 - a i) * (p.2 - b i))) i
      = (row.map fun p => p.1 * p.2).sum / nh - (row.map Prod.fst).sum / nh * ((row.map Prod.snd).sum / nh) := by
  have hl : (whole.getD i []).length = nh := by
    refine hnh _ ?_
    simp [List.getD_eq_getElem?_getD, hi]
  have key : ∀ f : ℕ → K × K → K, hmean nh (blocks.map (Block.mapLevel f)) i
      = ((whole.getD i []).map (f i)).sum / nh := by
    intro f
    have := C46_horizontal_mean (distributes_mapLevel h f) (nh := nh) (by
      intro row hrow
      obtain ⟨j, hj, rfl⟩ := List.mem_mapIdx.mp hrow
      rw [List.length_map]
      exact hnh _ (List.getElem_mem ..)) (i := i) (by simpa using hi)
    rw [this]
    have e : (whole.mapIdx fun i row => row.map (f i)).getD i [] = (whole.getD i []).map (f i) := by
      simp [List.getD_eq_getElem?_getD, hi]
    rw [e, List.length_map, hl]
  intro row a b
  have hn : (nh : K) ≠ 0 := Nat.cast_ne_zero.mpr h0
  have ha : a i = (row.map Prod.fst).sum / nh := key fun _ p => p.1
  have hb : b i = (row.map Prod.snd).sum / nh := key fun _ p => p.2
  have hlen : row.length = nh := hl
  constructor
  · rw [key fun i p => p.1 - a i]
    have : (row.map fun p => p.1 - a i).sum = (row.map Prod.fst).sum - row.length * a i := by
      generalize row = l
      induction l with
      | nil => simp
      | cons p l ih => simp only [List.map_cons, List.sum_cons, ih, List.length_cons]; push_cast; ring
    show (row.map fun p => p.1 - a i).sum / nh = 0
    rw [this, ha, hlen]
    field_simp
    ring
  · rw [key fun i p => (p.1 - a i) * (p.2 - b i)]
    have : (row.map fun p => (p.1 - a i) * (p.2 - b i)).sum
        = (row.map fun p => p.1 * p.2).sum - b i * (row.map Prod.fst).sum - a i * (row.map Prod.snd).sum
          + row.length * (a i * b i) := by
      generalize row = l
      induction l with
      | nil => simp
      | cons p l ih => simp only [List.map_cons, List.sum_cons, ih, List.length_cons]; push_cast; ring
    show (row.map fun p => (p.1 - a i) * (p.2 - b i)).sum / nh = _
    rw [this, ha, hb, hlen]
    field_simp
    ring

/-- Two levels, four points by level; three processes: one has half of both levels, the others a quarter of
the points. -/
example : Distributes [⟨0, [[1, 2], [5, 6]]⟩, ⟨0, [[4, 3]]⟩, ⟨1, [[7, 8]]⟩]
    ([[1, 2, 3, 4], [5, 6, 7, 8]] : List (List ℕ)) := by
  constructor
  · decide
  · decide

/-! ### Regions -/

theorem length_row {β : Type} {blocks : List (Block β)} {whole : List (List β)} (h : Distributes blocks whole)
    {i : ℕ} (hi : i < whole.length) :
    (blocks.map fun b => (b.row i).length).sum = (whole.getD i []).length := by
  rw [← (h.rows i hi).length_eq, length_flatten', List.map_map]
  rfl

theorem locIndex_row {β : Type} (b : Block β) (ix : ℕ) :
    ((locIndex ix b.start b.rows.length).elim [] fun l => b.rows.getD l []) = b.row ix := by
  simp only [locIndex, Block.row]
  by_cases h1 : b.start ≤ ix
  · by_cases h2 : ix - b.start < b.rows.length
    · rw [if_neg (by omega), if_pos h1]
      have : ((ix : ℤ) - b.start).toNat = ix - b.start := by omega
      simp only [this]
      rfl
    · rw [if_pos (by omega), if_pos h1]
      have : b.rows.length ≤ ix - b.start := by omega
      simp [List.getD_eq_getElem?_getD, this]
  · rw [if_pos (by omega), if_neg h1]
    rfl

/-- C46: the flux through a surface is the mean over the whole surface (divided by the length of the region), for
every distribution. -/
theorem C46_flux {blocks : List (Block K)} {whole : List (List K)} (h : Distributes blocks whole)
    {ix : ℕ} (hix : ix < whole.length) (length : K) :
    flux ix length blocks = (whole.getD ix []).sum / ((whole.getD ix []).length : K) / length := by
  have e1 : (blocks.map fun b => (locIndex ix b.start b.rows.length).elim 0 fun l => (b.rows.getD l []).sum).sum = (whole.getD ix []).sum := by
    rw [← row_sum h hix]
    refine congrArg _ (List.map_congr_left fun b _ => ?_)
    rw [← locIndex_row b ix]
    cases locIndex ix b.start b.rows.length <;> simp
  have e2 : (blocks.map fun b => (locIndex ix b.start b.rows.length).elim 0 fun l => (b.rows.getD l []).length).sum = (whole.getD ix []).length := by
    rw [← length_row h hix]
    refine congrArg _ (List.map_congr_left fun b _ => ?_)
    rw [← locIndex_row b ix]
    cases locIndex ix b.start b.rows.length <;> simp
  rw [flux, e1, e2]

/-- C46: if the region is the whole domain, nothing leaves it. -/
theorem C46_flux_whole_domain {blocks : List (Block K)} {nx : ℕ} (hnx : 0 < nx) (dx : K) :
    (fluxes nx 0 (nx - 1) dx blocks).1 + (fluxes nx 0 (nx - 1) dx blocks).2 = 0 := by
  have : regionSurf nx 0 (nx - 1) dx = (0, ((nx - 1 : ℕ) : K) * dx + dx - ((0 : ℕ) : K) * dx) := by
    simp only [regionSurf, and_self, if_true]
    rw [Nat.sub_add_cancel hnx, Nat.mod_self]
  simp only [fluxes, this, add_neg_cancel]

/-- C46: the fluxes of a region are the mean of the flux on its first surface and minus the mean on its last
surface, divided by the length of the region. If the region is the whole periodic domain, the last surface is the
first one and the length is the one of the domain. -/
theorem C46_fluxes {blocks : List (Block K)} {whole : List (List K)} (h : Distributes blocks whole)
    {ixmin ixmax : ℕ} (h1 : ixmin ≤ ixmax) (h2 : ixmax < whole.length) (dx : K) :
    let mean := fun ix => (whole.getD ix []).sum / ((whole.getD ix []).length : K)
    (¬ (ixmin = 0 ∧ ixmax + 1 = whole.length) → fluxes whole.length ixmin ixmax dx blocks
      = (mean ixmin / (((ixmax : K) - ixmin) * dx), -(mean ixmax / (((ixmax : K) - ixmin) * dx)))) ∧
    (ixmin = 0 ∧ ixmax + 1 = whole.length → fluxes whole.length ixmin ixmax dx blocks
      = (mean 0 / (whole.length * dx), -(mean 0 / (whole.length * dx)))) := by
  intro mean
  constructor
  · intro hn
    have hr : regionSurf whole.length ixmin ixmax dx = (ixmax, ((ixmax : K) - ixmin) * dx) := by
      rw [regionSurf, if_neg (by omega), Nat.mod_eq_of_lt h2, sub_mul]
    simp only [fluxes, hr]
    rw [C46_flux h (by omega), C46_flux h h2]
  · rintro ⟨rfl, he⟩
    have hr : regionSurf whole.length 0 ixmax dx = (0, (whole.length : K) * dx) := by
      rw [regionSurf, if_pos ⟨by omega, rfl⟩, he, Nat.mod_self, ← he]
      push_cast; simp only [Prod.mk.injEq, true_and]; ring
    simp only [fluxes, hr]
    rw [C46_flux h (by omega)]

/-- Three planes; the region made of the first two. -/
example : fluxes 3 0 1 (2 : ℚ) [⟨0, [[1], [2]]⟩, ⟨2, [[4]]⟩] = (1 / 2, -1) := by decide +kernel

theorem map_sum_comm {M β γ : Type} [AddCommMonoid M] (l : List β) (m : List γ) (f : β → γ → M) :
    (l.map fun b => (m.map fun c => f b c).sum).sum = (m.map fun c => (l.map fun b => f b c).sum).sum := by
  induction l with
  | nil => simp
  | cons a l ih =>
      simp only [List.map_cons, List.sum_cons, ih]
      exact List.sum_map_add.symm

/-- The rows of the mask if the direction x is not distributed. -/
theorem maskRows_full {β : Type} {b : Block β} {n ixmin ixmax : ℕ} (hs : b.start = 0) (hn : b.rows.length = n)
    (h1 : ixmin ≤ ixmax) (h2 : ixmax < n) :
    maskRows ixmin ixmax b = (List.range' ixmin (ixmax + 1 - ixmin)).map b.row := by
  have hloc : locIndex ixmin b.start b.rows.length = some ixmin := by
    rw [locIndex, if_neg (by omega), hs]; simp
  have hstop : sliceStop b.rows.length ((ixmax : ℤ) - b.start + 1) = ixmax + 1 := by
    rw [sliceStop, if_neg (by omega)]; omega
  rw [maskRows, slice, hloc, hstop]
  refine List.ext_getElem (by simp; omega) fun j hj1 hj2 => ?_
  simp only [List.length_map, List.length_range'] at hj2
  simp [Block.row, hs, List.getD_eq_getElem?_getD, show ixmin + j < b.rows.length by omega]

/-- C46: if the direction x is not distributed, the mean over a region is the mean over all its points. Missing:
distributions along x, see `C46_region_violated`. -/
theorem C46_region_partial {blocks : List (Block K)} {whole : List (List K)} (h : Distributes blocks whole)
    (hx : ∀ b ∈ blocks, b.start = 0 ∧ b.rows.length = whole.length) {ixmin ixmax : ℕ} (h1 : ixmin ≤ ixmax)
    (h2 : ixmax < whole.length) :
    let points := ((List.range' ixmin (ixmax + 1 - ixmin)).map fun i => whole.getD i []).flatten
    meanRegion ixmin ixmax blocks = points.sum / (points.length : K) := by
  intro points
  have e1 : (blocks.map fun b => ((maskRows ixmin ixmax b).map List.sum).sum).sum = points.sum := by
    rw [sum_flatten, List.map_map]
    have : (blocks.map fun b => ((maskRows ixmin ixmax b).map List.sum).sum)
        = blocks.map fun b => ((List.range' ixmin (ixmax + 1 - ixmin)).map fun i => (b.row i).sum).sum := by
      refine List.map_congr_left fun b hb => ?_
      rw [maskRows_full (hx b hb).1 (hx b hb).2 h1 h2, List.map_map]
      rfl
    rw [this, map_sum_comm]
    refine congrArg _ (List.map_congr_left fun i hi => ?_)
    have hi' := List.mem_range'_1.mp hi
    exact row_sum h (by omega)
  have e2 : (blocks.map fun b => ((maskRows ixmin ixmax b).map List.length).sum).sum = points.length := by
    rw [length_flatten', List.map_map]
    have : (blocks.map fun b => ((maskRows ixmin ixmax b).map List.length).sum)
        = blocks.map fun b => ((List.range' ixmin (ixmax + 1 - ixmin)).map fun i => (b.row i).length).sum := by
      refine List.map_congr_left fun b hb => ?_
      rw [maskRows_full (hx b hb).1 (hx b hb).2 h1 h2, List.map_map]
      rfl
    rw [this, map_sum_comm]
    refine congrArg _ (List.map_congr_left fun i hi => ?_)
    have hi' := List.mem_range'_1.mp hi
    exact length_row h (by omega)
  rw [meanRegion, e1, e2]

/-- A region of 2 columns in 4, two processes with complete lines. -/
example : (Distributes [⟨0, [[1], [2], [3], [4]]⟩, ⟨0, [[5], [6], [7], [8]]⟩]
      ([[1, 5], [2, 6], [3, 7], [4, 8]] : List (List ℕ))) ∧
    meanRegion 1 2 ([⟨0, [[1], [2], [3], [4]]⟩, ⟨0, [[5], [6], [7], [8]]⟩] : List (Block ℚ)) = 9 / 2 := by
  constructor
  · constructor
    · decide
    · decide
  · decide +kernel

/-- C46, finding: if the direction x is distributed, a process located before the region includes all its points
in the region: the mean of the field (0, 0, 1, 1) over its two last points is computed as 1/2. -/
theorem C46_region_violated :
    ∃ (blocks : List (Block ℚ)) (whole : List (List ℚ)), Distributes blocks whole ∧
      whole = [[0], [0], [1], [1]] ∧ meanRegion 2 3 blocks = 1 / 2 := by
  refine ⟨[⟨0, [[0], [0]]⟩, ⟨2, [[1], [1]]⟩], [[0], [0], [1], [1]], ⟨by decide, by decide⟩, rfl, ?_⟩
  decide +kernel

/-- C46, finding: a process located after the region includes some of its points, because of the negative end of
the slice: the mean of the field (1, 0, 0, 0) over its first point is computed as 1/2. -/
theorem C46_region_after_violated :
    ∃ (blocks : List (Block ℚ)) (whole : List (List ℚ)), Distributes blocks whole ∧
      whole = [[1], [0], [0], [0]] ∧ meanRegion 0 0 blocks = 1 / 2 := by
  refine ⟨[⟨0, [[1], [0]]⟩, ⟨2, [[0], [0]]⟩], [[1], [0], [0], [0]], ⟨by decide, by decide⟩, rfl, ?_⟩
  decide +kernel

end Verif.Reduce
