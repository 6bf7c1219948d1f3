import Mathlib.Data.Rat.Defs
import Mathlib.Algebra.Order.Ring.Rat
import Mathlib.Data.List.TakeWhile
import Mathlib.Tactic.IntervalCases
import Verif.SpatioTemporal.Lemmas

/-!
# C62 (first part): loading the time series of the probes

Property theorems about `load_time_series` of the spatiotemporal and temporal spectra.
-/

namespace Verif.SpatioTemporal

open Verif.Modes

set_option linter.unusedSectionVars false

variable {Q V : Type*} [Field Q] [LinearOrder Q] [IsStrictOrderedRing Q]

/-! ### Data used in the examples -/

/-- One process with two probes and two files. -/
def exRank : Rank ℚ ℤ :=
  ⟨[(0, 0, 0), (-1, 2, 1)],
    [⟨0, [(0, [10, 20]), (1, [11, 21])]⟩, ⟨2, [(2, [12, 22])]⟩]⟩

/-- The values it has recorded. -/
def exVal : ℤ × ℤ × ℤ → ℚ → ℤ := fun k t => if k = (0, 0, 0) then 10 + t.num else 20 + t.num

theorem exRecorded : Recorded exRank [0, 1, 2] exVal :=
  ⟨by decide +kernel, by decide +kernel, by decide +kernel⟩

/-- The region `probes_region = (2, 2, 2)` with arrays ordered (z, y, x). -/
def exBounds : Bounds × Bounds × Bounds := axisBounds (physBounds 2 2 2) (0, 1, 2)

/-! ### Theorems -/

/-- **C62**: whatever the order of the axes, each mode of the documented region
(`ikx ∈ [0, ikxmax]`, `iky ∈ [1 - ikymax, ikymax]`, `ikz ∈ [1 - ikzmax, ikzmax]`) is stored at
the cell where the arrays `K0_adim`, `K1_adim`, `K2_adim` hold its own wavenumbers, no
exception is raised, and two modes never share a cell. -/
theorem C62_placement (ikxmax ikymax ikzmax : ℤ) (hx : 0 ≤ ikxmax) (hy : 1 ≤ ikymax)
    (hz : 1 ≤ ikzmax) (order : ℕ × ℕ × ℕ) (k : ℤ × ℤ × ℤ)
    (hk : InRegion (axisBounds (physBounds ikxmax ikymax ikzmax) order) k) :
    let bs := axisBounds (physBounds ikxmax ikymax ikzmax) order
    (∃ i0 i1 i2, pyIdx3 (shape bs) k = some (i0, i1, i2) ∧ bs.1.adims[i0]? = some k.1 ∧
      bs.2.1.adims[i1]? = some k.2.1 ∧ bs.2.2.adims[i2]? = some k.2.2) ∧
    ∀ k', InRegion bs k' → pyIdx3 (shape bs) k' = pyIdx3 (shape bs) k → k' = k := by
  intro bs
  have hph : ∀ n, (physBounds ikxmax ikymax ikzmax n).has 0 := by
    intro n
    unfold physBounds Bounds.has
    split <;> simp only <;> omega
  have h0 : ZeroIn bs := ⟨hph _, hph _, hph _⟩
  obtain ⟨c, hc, hcell⟩ := pyIdx3_cell bs h0 k hk
  refine ⟨⟨c.1, c.2.1, c.2.2, hc, hcell⟩, ?_⟩
  intro k' hk' he
  obtain ⟨c', hc', hcell'⟩ := pyIdx3_cell bs h0 k' hk'
  rw [hc, hc'] at he
  have := Option.some.inj he
  subst this
  exact hcell'.inj hcell

example : InRegion (axisBounds (physBounds 3 2 4) (1, 2, 0)) (-1, 3, -3) := by
  simp [InRegion, axisBounds, physBounds, Bounds.has]

/-- **C62**: and every cell of the array is the cell of one mode of the region, so that after
the loading of all the modes none is left uninitialised (`np.empty`). -/
theorem C62_no_empty_cell (ikxmax ikymax ikzmax : ℤ) (hx : 0 ≤ ikxmax) (hy : 1 ≤ ikymax)
    (hz : 1 ≤ ikzmax) (order : ℕ × ℕ × ℕ) (i0 i1 i2 : ℕ) :
    let bs := axisBounds (physBounds ikxmax ikymax ikzmax) order
    i0 < (shape bs).1 → i1 < (shape bs).2.1 → i2 < (shape bs).2.2 →
      ∃ k, InRegion bs k ∧ pyIdx3 (shape bs) k = some (i0, i1, i2) := by
  intro bs h0 h1 h2
  have key : ∀ (b : Bounds), b.has 0 → ∀ i, i < b.size → ∃ k, b.has k ∧ pyIdx b.size k = some i := by
    intro b hb i hi
    have hb' : b.lo ≤ 0 ∧ 0 ≤ b.hi := hb
    have hsz : (b.size : ℤ) = b.hi + 1 - b.lo := by unfold Bounds.size; omega
    unfold pyIdx
    by_cases h : (i : ℤ) ≤ b.hi
    · exact ⟨i, ⟨by omega, h⟩, by rw [if_pos (by omega)]; simp⟩
    · refine ⟨(i : ℤ) - b.size, ⟨by omega, by omega⟩, ?_⟩
      rw [if_neg (by omega), if_pos (by omega)]
      simp
  have hph : ∀ n, (physBounds ikxmax ikymax ikzmax n).has 0 := by
    intro n
    unfold physBounds Bounds.has
    split <;> simp only <;> omega
  obtain ⟨a, ha, ha'⟩ := key bs.1 (hph _) i0 h0
  obtain ⟨b, hb, hb'⟩ := key bs.2.1 (hph _) i1 h1
  obtain ⟨c, hc, hc'⟩ := key bs.2.2 (hph _) i2 h2
  refine ⟨(a, b, c), ⟨ha, hb, hc⟩, ?_⟩
  unfold pyIdx3 shape
  simp only
  rw [ha', hb', hc']

example : shape (axisBounds (physBounds 3 2 4) (1, 2, 0)) = (4, 4, 8) := by decide +kernel

/-- **C62**: `load_time_series(tmin, tmax)` with `tmin` not after the first recorded time (the
default `tmin=0`) returns exactly the recorded times up to `tmax` and, in the cell of each
recorded mode, its recorded values at these times, whatever the number of processes and of
files per process. -/
theorem C62_load_from_start (bs : Bounds × Bounds × Bounds) (h0 : ZeroIn bs) (T : List Q)
    (hT : T.Pairwise (· < ·)) (val : ℤ × ℤ × ℤ → Q → V) (ranks : List (Rank Q V))
    (hne : ranks ≠ []) (hr : ∀ r ∈ ranks, Recorded r T val)
    (hps : ∀ r ∈ ranks, ∀ k ∈ r.probes, InRegion bs k) (tmin b t0 : Q) (tmax : Option Q)
    (ht0 : T.head? = some t0) (hmin : tmin ≤ t0) (hb : t0 ≤ b)
    (htmax : tmax = some b ∨ (tmax = none ∧ T.getLast? = some b)) :
    ∃ s, load bs ranks tmin tmax = .ok s ∧
      ∀ r ∈ ranks, ∀ k ∈ r.probes, Holds bs T tmin b val k s := by
  have ht0T := List.mem_of_head? ht0
  refine load_spec h0 T hT tmin b tmax htmax ⟨t0, ht0T, hmin, hb⟩ ranks hne hr hps ?_
  intro r hr' t _ ht
  have hrec := hr r hr'
  have hst := starts_sorted r.files (hrec.times ▸ hT) hrec.names
  cases hf : r.files with
  | nil =>
    have := hrec.times
    rw [hf] at this
    rw [← this] at ht0T
    simp at ht0T
  | cons f fs =>
    have hf0 : f.tmin = t0 := by
      have h1 := hrec.times
      rw [hf, List.flatMap_cons] at h1
      have h2 := hrec.names f (by rw [hf]; simp)
      cases hft : f.times with
      | nil => rw [hft] at h2; simp at h2
      | cons z l =>
        rw [hft] at h1 h2
        rw [← h1] at ht0
        simp at ht0 h2
        rw [← h2, ht0]
    rw [hf] at hst
    refine keeps_of_le _ (by simp) (hst.imp fun h => h.2) t f rfl ?_
    rw [hf0]
    rcases ht with rfl | ⟨_, _, h⟩
    · exact hmin
    · exact h t0 ht0T hmin

example : (exRank :: [⟨[(1, 1, 1)], [⟨0, [(0, [20]), (1, [21]), (2, [22])]⟩]⟩]).map
      (fun r => r.files.length) = [2, 1] ∧
    Recorded exRank [0, 1, 2] exVal ∧
    Recorded (⟨[(1, 1, 1)], [⟨0, [(0, [20]), (1, [21]), (2, [22])]⟩]⟩ : Rank ℚ ℤ) [0, 1, 2] exVal ∧
    ZeroIn exBounds ∧ (∀ k ∈ exRank.probes, InRegion exBounds k) ∧
    [(0 : ℚ), 1, 2].Pairwise (· < ·) ∧ [(0 : ℚ), 1, 2].head? = some 0 := by
  refine ⟨rfl, exRecorded, ⟨by decide +kernel, by decide +kernel, by decide +kernel⟩, ?_, ?_,
    by decide +kernel, rfl⟩
  · simp [ZeroIn, exBounds, axisBounds, physBounds, Bounds.has]
  · simp [exRank, InRegion, exBounds, axisBounds, physBounds, Bounds.has]

/-- **C62**, partial: for any `tmin` and `tmax` between which something has been recorded, the
same holds if in no process a file lasts longer than the shortest interval between the
beginnings of two successive files. (What is missing is the irregular case: see
`C62_load_violated`.) -/
theorem C62_load_partial (bs : Bounds × Bounds × Bounds) (h0 : ZeroIn bs) (T : List Q)
    (hT : T.Pairwise (· < ·)) (val : ℤ × ℤ × ℤ → Q → V) (ranks : List (Rank Q V))
    (hne : ranks ≠ []) (hr : ∀ r ∈ ranks, Recorded r T val)
    (hps : ∀ r ∈ ranks, ∀ k ∈ r.probes, InRegion bs k) (hreg : ∀ r ∈ ranks, Regular r.files)
    (tmin b : Q) (tmax : Option Q) (hex : ∃ t ∈ T, tmin ≤ t ∧ t ≤ b)
    (htmax : tmax = some b ∨ (tmax = none ∧ T.getLast? = some b)) :
    ∃ s, load bs ranks tmin tmax = .ok s ∧
      ∀ r ∈ ranks, ∀ k ∈ r.probes, Holds bs T tmin b val k s := by
  refine load_spec h0 T hT tmin b tmax htmax hex ranks hne hr hps ?_
  rintro r hr' t ⟨s, hs, hts⟩ _
  rw [← (hr r hr').times, List.mem_flatMap] at hs
  obtain ⟨f, hf, hsf⟩ := hs
  exact keeps_of_regular r.files (hreg r hr') t f hf s hsf hts

example : Regular exRank.files ∧ ∃ t ∈ [(0 : ℚ), 1, 2], (1 / 2 : ℚ) ≤ t ∧ t ≤ 3 / 2 := by
  refine ⟨?_, 1, by simp, by norm_num, by norm_num⟩
  intro f hf s hs d hd
  simp only [exRank, List.mem_cons, List.not_mem_nil, or_false] at hf
  have hd' : d = 2 := by
    have : diffs (exRank.files.map File.tmin) = [2] := by decide +kernel
    rw [this] at hd
    simpa using hd
  subst hd'
  rcases hf with rfl | rfl
  · simp only [File.times, List.map_cons, List.map_nil, List.mem_cons, List.not_mem_nil,
      or_false] at hs
    rcases hs with rfl | rfl <;> norm_num
  · simp only [File.times, List.map_cons, List.map_nil, List.mem_cons, List.not_mem_nil,
      or_false] at hs
    subst hs
    norm_num

/-- A process whose last files are shorter (for instance after a restart with a smaller
`file_max_size`). -/
def irregular : Rank ℚ ℤ :=
  ⟨[(0, 0, 0)],
    [⟨0, [(0, [0]), (2, [2]), (4, [4]), (6, [6])]⟩, ⟨8, [(8, [8])]⟩, ⟨9, [(9, [9])]⟩]⟩

/-- **C62**, FINDING: with files of different durations, `load_time_series(tmin=3)` silently
leaves out recorded times after `tmin` (here 4 and 6): the file which contains them is dropped
because it begins more than the shortest duration before `tmin`. -/
theorem C62_load_violated :
    Recorded irregular [0, 2, 4, 6, 8, 9] (fun _ t => t.num) ∧
    (load exBounds [irregular] 3 none).toOption.map Loaded.times = some [8, 9] := by
  refine ⟨⟨by decide +kernel, by decide +kernel, by decide +kernel⟩, by decide +kernel⟩

/-- A process whose last file is longer than the previous ones. -/
def longLast : Rank ℚ ℤ :=
  ⟨[(0, 0, 0)],
    [⟨0, [(0, [0])]⟩, ⟨1, [(1, [1])]⟩, ⟨2, [(2, [2]), (3, [3]), (4, [4]), (5, [5])]⟩]⟩

/-- **C62**, FINDING: and if the last file is longer than the others, a `tmin` in its second
part is refused with `ValueError` although there are recorded times after it. -/
theorem C62_load_error_violated :
    Recorded longLast [0, 1, 2, 3, 4, 5] (fun _ t => t.num) ∧
    (match load exBounds [longLast] 4 none with | .error e => some e | .ok _ => none)
      = some .value := by
  refine ⟨⟨by decide +kernel, by decide +kernel, by decide +kernel⟩, by decide +kernel⟩

/-- **C62**: the functions which pick the axis of `kx`, `ky` and `kz` as `K{order[2]}_adim`,
`K{order[1]}_adim`, `K{order[0]}_adim` (spatiotemporal_spectra.py 763, 772, 783, 1212) are
right, for the axis orders `order` which are their own inverse: there the axis number
`order[p]` is the one which holds the physical axis `p`. -/
theorem C62_axes_partial (order : ℕ → ℕ) (hinv : ∀ i < 3, order (order i) = i) (p : ℕ)
    (hp : p < 3) : order (order p) = p ∧ ∀ j < 3, order j = p → j = order p := by
  refine ⟨hinv p hp, ?_⟩
  intro j hj h
  rw [← h, hinv j hj]

example : ∀ i < 3, (fun i => if i = 0 then 1 else if i = 1 then 0 else i : ℕ → ℕ)
    ((fun i => if i = 0 then 1 else if i = 1 then 0 else i : ℕ → ℕ) i) = i := by decide

/-- **C62**, FINDING: for the two cyclic orders they are wrong for all three axes: the axis
`order[p]` of the arrays does not hold the physical axis `p` (what is used as `kx` is `ky` or
`kz`). -/
theorem C62_axes_violated (order : ℕ → ℕ)
    (h : (order 0 = 1 ∧ order 1 = 2 ∧ order 2 = 0) ∨ (order 0 = 2 ∧ order 1 = 0 ∧ order 2 = 1)) :
    ∀ p < 3, order (order p) ≠ p := by
  intro p hp
  rcases h with ⟨h0, h1, h2⟩ | ⟨h0, h1, h2⟩ <;>
    interval_cases p <;> simp [h0, h1, h2]

example : ∃ order : ℕ → ℕ, order 0 = 1 ∧ order 1 = 2 ∧ order 2 = 0 :=
  ⟨fun i => (i + 1) % 3, by decide⟩

/-! ### `temporal_spectra` -/

theorem files_kept (T : List Q) (hT : T.Pairwise (· < ·)) (val : ℤ × ℤ × ℤ → Q → V)
    (r : Rank Q V) (hrec : Recorded r T val) (t0 t : Q) (ht0 : T.head? = some t0) (ht : t ≤ t0) :
    filterFiles t (sortFiles r.files) = .ok r.files := by
  have ht0T := List.mem_of_head? ht0
  have hst := starts_sorted r.files (hrec.times ▸ hT) hrec.names
  have hTmin : ∀ s ∈ T, t0 ≤ s := by
    intro s hs
    cases T with
    | nil => simp at hs
    | cons z l =>
      have : z = t0 := by simpa using ht0
      subst this
      rcases List.mem_cons.1 hs with h | h
      · exact le_of_eq h.symm
      · exact le_of_lt ((List.pairwise_cons.1 hT).1 s h)
  rw [sortFiles_eq r.files (hst.imp fun h => h.2)]
  have hk : Keeps t r.files := by
    cases hf : r.files with
    | nil =>
      have := hrec.times
      rw [hf] at this
      rw [← this] at ht0T
      simp at ht0T
    | cons f fs =>
      have hfm : f.tmin ∈ T := by
        rw [← hrec.times, List.mem_flatMap]
        exact ⟨f, by rw [hf]; simp, List.mem_of_head? (hrec.names f (by rw [hf]; simp))⟩
      rw [hf] at hst
      exact keeps_of_le _ (by simp) (hst.imp fun h => h.2) t f rfl (le_trans ht (hTmin _ hfm))
  obtain ⟨n, hn, hdrop⟩ := hk
  have : r.files.take n = [] := by
    cases h : r.files.take n with
    | nil => rfl
    | cons f fs =>
      have hf : f ∈ r.files.take n := by rw [h]; simp
      have hfm : f.tmin ∈ f.times := List.mem_of_head? (hrec.names f (List.mem_of_mem_take hf))
      have h1 := hdrop f hf f.tmin hfm
      have h2 : f.tmin ∈ T := by
        rw [← hrec.times, List.mem_flatMap]
        exact ⟨f, List.mem_of_mem_take hf, hfm⟩
      exact absurd (lt_of_lt_of_le h1 (le_trans ht (hTmin _ h2))) (lt_irrefl _)
  rw [hn]
  conv_rhs => rw [← List.take_append_drop n r.files, this, List.nil_append]

/-- The records of one process when nothing is left out. -/
theorem temporal_rank_loop (val : ℤ × ℤ × ℤ → Q → V) (ps : List (ℤ × ℤ × ℤ)) (a b : Q)
    (files : List (File Q V)) (hn : ∀ f ∈ files, f.times ≠ [])
    (hs : ∀ f ∈ files, f.times.Pairwise (· < ·))
    (hab : ∀ f ∈ files, ∀ s ∈ f.times, a ≤ s ∧ s ≤ b)
    (hv : ∀ f ∈ files, ∀ e ∈ f.recs, e.2 = ps.map fun k => val k e.1) (acc : List (List V)) :
    loop (temporalFile a b) files acc
      = .ok (acc ++ (files.flatMap File.times).map fun t => ps.map fun k => val k t) := by
  induction files generalizing acc with
  | nil => simp [loop]
  | cons f files ih =>
    obtain ⟨last, hlast⟩ : ∃ l, f.times.getLast? = some l := by
      cases h : f.times.getLast? with
      | some x => exact ⟨x, rfl⟩
      | none => exact absurd (List.getLast?_eq_none_iff.1 h) (hn f (by simp))
    obtain ⟨its, h1, h2⟩ := arange_spec f.times a b (hs f (by simp)) last hlast
      (hab f (by simp) last (List.mem_of_getLast? hlast)).1
    have hall : (f.times.filter fun t => decide (a ≤ t) && decide (t ≤ b)) = f.times := by
      rw [List.filter_eq_self]
      intro t ht
      simp [hab f (by simp) t ht]
    rw [hall] at h2
    have hc := cols_eq f ps (hv f (by simp)) its f.times h2
    simp only [loop, temporalFile]
    rw [h1]
    simp only
    rw [hc, ih (fun g hg => hn g (List.mem_cons_of_mem _ hg))
      (fun g hg => hs g (List.mem_cons_of_mem _ hg))
      (fun g hg => hab g (List.mem_cons_of_mem _ hg))
      (fun g hg => hv g (List.mem_cons_of_mem _ hg))]
    simp

theorem temporal_ranks_loop {A B : Type*} (f : A → Except Err B) (g : A → B) (l : List A)
    (h : ∀ x ∈ l, f x = .ok (g x)) (acc : List B) :
    loop (collect f) l acc = .ok (acc ++ l.map g) := by
  induction l generalizing acc with
  | nil => simp [loop]
  | cons x l ih =>
    simp only [loop, collect]
    rw [h x (by simp)]
    simp only
    rw [ih fun y hy => h y (List.mem_cons_of_mem _ hy)]
    simp

/-- **C62**, partial: `load_time_series` of the temporal spectra over all that has been
recorded (`tmin` not after the first time, `tmax` not before the last one) returns all times
and all values, if no process has fewer files than the first one. (Missing: any smaller
`tmax`, see `C62_temporal_tmax_violated`, and processes with fewer files, see
`C62_temporal_files_violated`.) -/
theorem C62_temporal_load_partial (T : List Q) (hT : T.Pairwise (· < ·))
    (val : ℤ × ℤ × ℤ → Q → V) (r0 : Rank Q V) (rs : List (Rank Q V))
    (hr : ∀ r ∈ r0 :: rs, Recorded r T val)
    (hlen : ∀ r ∈ r0 :: rs, r0.files.length ≤ r.files.length)
    (t0 tl tmin tmax : Q) (ht0 : T.head? = some t0) (htl : T.getLast? = some tl)
    (hmin : tmin ≤ t0) (hmax : tl ≤ tmax) :
    temporalLoad (r0 :: rs) tmin tmax
      = .ok (T, (r0 :: rs).map fun r => T.map fun t => r.probes.map fun k => val k t) := by
  have ht0T := List.mem_of_head? ht0
  have htlT := List.mem_of_getLast? htl
  have hTmin : ∀ s ∈ T, t0 ≤ s := by
    intro s hs
    cases T with
    | nil => simp at hs
    | cons z l =>
      have : z = t0 := by simpa using ht0
      subst this
      rcases List.mem_cons.1 hs with h | h
      · exact le_of_eq h.symm
      · exact le_of_lt ((List.pairwise_cons.1 hT).1 s h)
  have hTmax : ∀ s ∈ T, s ≤ tl := by
    intro s hs
    obtain ⟨ys, hys⟩ := List.getLast?_eq_some_iff.1 htl
    rw [hys] at hs hT
    rcases List.mem_append.1 hs with h | h
    · exact le_of_lt ((List.pairwise_append.1 hT).2.2 s h tl (by simp))
    · exact le_of_eq (by simpa using h)
  have hfull : (T.filter fun t => decide (tmin ≤ t) && decide (t ≤ tmax)) = T := by
    rw [List.filter_eq_self]
    intro t ht
    simp [le_trans hmin (hTmin t ht), le_trans (hTmax t ht) hmax]
  have hrec0 := hr r0 (by simp)
  have htimes : getTimes r0.files tmin tmax = T := by
    have := getTimes_eq T hT r0 hrec0 tmin tmax 0 (by simp)
    rw [List.drop_zero] at this
    rw [this, hfull]
  have hmn : T.min? = some t0 := List.min?_eq_some_iff.2 ⟨ht0T, hTmin⟩
  have hmx : T.max? = some tl := List.max?_eq_some_iff.2 ⟨htlT, hTmax⟩
  unfold temporalLoad
  simp only
  rw [files_kept T hT val r0 hrec0 t0 tmin ht0 hmin]
  simp only
  rw [htimes, hmn, hmx]
  simp only
  rw [temporal_ranks_loop (temporalRank (leftAt r0.files tmax) t0 tl)
    (fun r => T.map fun t => r.probes.map fun k => val k t)]
  · rfl
  · intro r hr'
    have hrec := hr r hr'
    unfold temporalRank
    rw [files_kept T hT val r hrec t0 t0 ht0 le_rfl]
    simp only
    have hne : r0.files ≠ [] := by
      intro h
      have := hrec0.times
      rw [h] at this
      rw [← this] at ht0T
      simp at ht0T
    have hip : leftAt r0.files tmax < r.files.length := by
      have h1 : leftAt r0.files tmax ≤ r0.files.length - 1 := min_le_right _ _
      have h2 := List.length_pos_of_ne_nil hne
      have h3 := hlen r hr'
      omega
    rw [List.getElem?_map, List.getElem?_eq_getElem hip]
    simp only [Option.map_some]
    have hfT : ∀ f ∈ r.files, ∀ s ∈ f.times, s ∈ T := by
      intro f hf s hs
      rw [← hrec.times]
      exact List.mem_flatMap.2 ⟨f, hf, hs⟩
    have hfm : (r.files[leftAt r0.files tmax]).tmin ∈ T :=
      hfT _ (List.getElem_mem hip) _ (List.mem_of_head? (hrec.names _ (List.getElem_mem hip)))
    rw [if_neg (not_lt.2 (hTmax _ hfm))]
    rw [temporal_rank_loop val r.probes t0 tl r.files]
    · rw [hrec.times, List.nil_append]
    · intro f hf h
      have := hrec.names f hf
      rw [h] at this
      simp at this
    · intro f hf
      obtain ⟨A, B, hAB⟩ := split_file r.files f hf File.times
      rw [hrec.times] at hAB
      rw [hAB, List.pairwise_append, List.pairwise_append] at hT
      exact hT.1.2.1
    · exact fun f hf s hs => ⟨hTmin s (hfT f hf s hs), hTmax s (hfT f hf s hs)⟩
    · exact hrec.values

example : (∀ r ∈ [exRank, exRank], Recorded r [0, 1, 2] exVal) ∧
    (∀ r ∈ [exRank, exRank], exRank.files.length ≤ r.files.length) := by
  constructor
  · intro r hr
    have : r = exRank := by simpa using hr
    exact this ▸ exRecorded
  · intro r hr
    have : r = exRank := by simpa using hr
    rw [this]

/-- **C62**, FINDING: `load_time_series` of the temporal spectra with a `tmax` before the
beginning of the last file always fails with `ValueError`, although data have been recorded in
the interval: the loop over the files of a process tests the name of a fixed file (the one
after `tmax`) and stops before reading anything. -/
theorem C62_temporal_tmax_violated (T : List Q) (hT : T.Pairwise (· < ·))
    (val : ℤ × ℤ × ℤ → Q → V) (r : Rank Q V) (rs : List (Rank Q V)) (hr : Recorded r T val)
    (t0 tmin tmax : Q) (ht0 : T.head? = some t0) (hmin : tmin ≤ t0) (hmax : t0 ≤ tmax)
    (f : File Q V) (hf : f ∈ r.files) (hlate : tmax < f.tmin) :
    temporalLoad (r :: rs) tmin tmax = .error .value := by
  have ht0T := List.mem_of_head? ht0
  have hTmin : ∀ s ∈ T, t0 ≤ s := by
    intro s hs
    cases T with
    | nil => simp at hs
    | cons z l =>
      have : z = t0 := by simpa using ht0
      subst this
      rcases List.mem_cons.1 hs with h | h
      · exact le_of_eq h.symm
      · exact le_of_lt ((List.pairwise_cons.1 hT).1 s h)
  have htimes := getTimes_eq T hT r hr tmin tmax 0 (by simp)
  rw [List.drop_zero] at htimes
  unfold temporalLoad
  simp only
  rw [files_kept T hT val r hr t0 tmin ht0 hmin]
  simp only
  rw [htimes]
  set S := T.filter fun t => decide (tmin ≤ t) && decide (t ≤ tmax) with hS
  have hSmem : ∀ t, t ∈ S ↔ t ∈ T ∧ tmin ≤ t ∧ t ≤ tmax := by
    intro t; rw [hS, List.mem_filter]; simp
  have ht0S : t0 ∈ S := (hSmem t0).2 ⟨ht0T, hmin, hmax⟩
  have hmn : S.min? = some t0 :=
    List.min?_eq_some_iff.2 ⟨ht0S, fun s hs => hTmin s ((hSmem s).1 hs).1⟩
  rw [hmn]
  cases hmx : S.max? with
  | none => rw [List.max?_eq_none_iff] at hmx
  | some b' =>
    simp only [loop, collect]
    have hb' := (hSmem b').1 (List.max?_eq_some_iff.1 hmx).1
    have hrank : temporalRank (leftAt r.files tmax) t0 b' r = .error .value := by
      unfold temporalRank
      rw [files_kept T hT val r hr t0 t0 ht0 le_rfl]
      simp only
      have hst := starts_sorted r.files (hr.times ▸ hT) hr.names
      set p : File Q V → Bool := fun f => decide (f.tmin ≤ tmax) with hp
      have htw := List.takeWhile_append_dropWhile (p := p) (l := r.files)
      cases hd : r.files.dropWhile p with
      | nil =>
        exfalso
        rw [hd, List.append_nil] at htw
        have hall := List.mem_takeWhile_imp (htw.symm ▸ hf : f ∈ r.files.takeWhile p)
        rw [hp] at hall
        simp only [decide_eq_true_eq] at hall
        exact absurd hlate (not_lt.2 hall)
      | cons g gs =>
        have hg : p g = false := by
          have := List.head?_dropWhile_not p r.files
          rw [hd] at this
          simpa using this
        rw [hd] at htw
        have hlen : (r.files.takeWhile p).length + gs.length + 1 = r.files.length := by
          conv_rhs => rw [← htw]
          rw [List.length_append, List.length_cons]
          omega
        have hleft : leftAt r.files tmax = (r.files.takeWhile p).length := by
          unfold leftAt
          have : (r.files.takeWhile p).length ≤ r.files.length - 1 := by omega
          exact min_eq_left this
        have hget : r.files[(r.files.takeWhile p).length]? = some g := by
          have : (r.files.takeWhile p ++ g :: gs)[(r.files.takeWhile p).length]? = some g := by
            rw [List.getElem?_append_right le_rfl]
            simp
          rwa [htw] at this
        rw [hleft, List.getElem?_map, hget]
        simp only [Option.map_some]
        rw [if_pos]
        rw [hp] at hg
        simp only [decide_eq_false_iff_not, not_le] at hg
        exact lt_of_le_of_lt hb'.2.2 hg
    rw [hrank]

example : Recorded exRank [0, 1, 2] exVal ∧ ∃ f ∈ exRank.files, (1 : ℚ) < f.tmin :=
  ⟨exRecorded, ⟨2, [(2, [12, 22])]⟩, by simp [exRank], by norm_num⟩

/-- **C62**, FINDING: and if a process has fewer files than the first one (its files hold more
times since it has fewer probes), loading all the recorded data fails with `IndexError`. -/
theorem C62_temporal_files_violated :
    Recorded (⟨[(1, 1, 1)], [⟨0, [(0, [20]), (1, [21]), (2, [22])]⟩]⟩ : Rank ℚ ℤ) [0, 1, 2] exVal ∧
    (match temporalLoad [exRank, ⟨[(1, 1, 1)], [⟨0, [(0, [20]), (1, [21]), (2, [22])]⟩]⟩] 0 2 with
      | .error e => some e | .ok _ => none) = some .index :=
  ⟨⟨by decide +kernel, by decide +kernel, by decide +kernel⟩, by decide +kernel⟩

end Verif.SpatioTemporal
