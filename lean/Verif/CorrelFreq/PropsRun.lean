import Verif.CorrelFreq.PropsNorm

/-! # C75: the arrays of a whole simulation -/

set_option linter.unusedSectionVars false

namespace Verif.CorrelFreq

open Finset

noncomputable section

theorem average_flatMap {I P : Type} (l : List I) (F : I → List P) (g : P → ℂ) (n : ℕ) (h : ∀ i ∈ l, (F i).length = n) :
    average (l.flatMap F) g = meanOf (l.map fun i => average (F i) g) := by
  have hlen : (l.flatMap F).length = l.length * n := by
    induction l with
    | nil => simp
    | cons a l ih =>
      rw [List.flatMap_cons, List.length_append, ih (fun i hi => h i (List.mem_cons_of_mem _ hi)), h a List.mem_cons_self,
        List.length_cons]
      ring
  have hsum : ((l.flatMap F).map g).sum = (l.map fun i => ((F i).map g).sum).sum := by
    rw [List.map_flatMap, List.flatMap_def, List.sum_flatten, List.map_map]
    rfl
  have hdiv : (l.map fun i => average (F i) g).sum = (l.map fun i => ((F i).map g).sum).sum / (n : ℂ) := by
    clear hlen hsum
    induction l with
    | nil => simp
    | cons a l ih =>
      rw [List.map_cons, List.map_cons, List.sum_cons, List.sum_cons, ih (fun i hi => h i (List.mem_cons_of_mem _ hi)),
        add_div]
      congr 1
      unfold average
      rw [h a List.mem_cons_self]
  unfold meanOf
  rw [List.length_map, hdiv]
  unfold average
  rw [hsum, hlen, Complex.real_smul]
  push_cast
  rw [div_mul_div_comm, one_mul]

/-- The signals used by a simulation: for each complete window and each point, the fields multiplied by the Hann window. -/
def signals (period : ℝ) (itStart : ℤ) (N : ℕ) (sizes : List ℕ) (f : ℕ → ℕ → ℕ → ℝ) (m : ℕ) : List (ℕ → ℝ) :=
  (List.range m).flatMap fun j => (points sizes).map fun p t =>
    hanning N t * f (sampleIt itStart period (j * N + t)) p.1 p.2

/-- The arrays of a simulation are the correlations of the set of all the signals of all its complete windows: the theorems on the
normalised correlations of one window apply to the arrays of the whole simulation. -/
theorem C75_run_signals (period : ℝ) (itStart : ℤ) (N : ℕ) (sizes : List ℕ) (hN : 1 ≤ N) (f : ℕ → ℕ → ℕ → ℝ) (n : ℕ) :
    ∃ k, (∀ i, i < k ↔ sampleIt itStart period i ≤ n) ∧
      (∀ io1 io3 io4, (run (plate period itStart N sizes) f n).mean.1 io1 io3 io4 =
        c4Of N io1 [signals period itStart N sizes f (k / N)] io3 io4) ∧
      (∀ io3 io4, (run (plate period itStart N sizes) f n).mean.2 io3 io4 =
        c2Of N [signals period itStart N sizes f (k / N)] io3 io4) := by
  obtain ⟨k, h1, _, h2, _⟩ := C75_windows (plate period itStart N sizes) hN f n
  have hs : ∀ j, spatioFft sizes N ((List.range N).map fun i => f (sampleIt itStart period (j * N + i))) =
      spatioFft' sizes N fun r ix t => f (sampleIt itStart period (j * N + t)) r ix := by
    intro j
    apply spatioFft_eq
    intro t ht
    simp [List.getD_eq_getElem?_getD, List.getElem?_range ht]
  have hpts : ∀ j ∈ List.range (k / N), ((points sizes).map fun p t =>
      hanning N t * f (sampleIt itStart period (j * N + t)) p.1 p.2).length = (points sizes).length := by
    intro j _
    rw [List.length_map]
  refine ⟨k, h1, fun io1 io3 io4 => ?_, fun io3 io4 => ?_⟩
  · rw [h2]
    have e := meanOf_map (⟨⟨fun v : (ℕ → ℕ → ℕ → ℂ) × (ℕ → ℕ → ℂ) => v.1 io1 io3 io4, fun _ _ => rfl⟩, fun _ _ => rfl⟩ :
      ((ℕ → ℕ → ℕ → ℂ) × (ℕ → ℕ → ℂ)) →ₗ[ℝ] ℂ)
    refine (e _).trans ?_
    rw [List.map_map]
    unfold c4Of signals
    rw [correl4_eq, ← List.map_flatten, average_map, List.flatten_singleton, average_flatMap _ _ _ _ hpts]
    show meanOf ((List.range (k / N)).map _) = _
    congr 2
    funext j
    show correl4 (nbOmegas N) io1 (spatioFft sizes N ((List.range N).map fun i =>
      f (sampleIt itStart period (j * N + i)))) io3 io4 = _
    rw [hs, spatioFft', correl4_eq, ← List.map_flatten, average_map, average_map]
    exact average_points sizes N _ _
  · rw [h2]
    have e := meanOf_map (⟨⟨fun v : (ℕ → ℕ → ℕ → ℂ) × (ℕ → ℕ → ℂ) => v.2 io3 io4, fun _ _ => rfl⟩, fun _ _ => rfl⟩ :
      ((ℕ → ℕ → ℕ → ℂ) × (ℕ → ℕ → ℂ)) →ₗ[ℝ] ℂ)
    refine (e _).trans ?_
    rw [List.map_map]
    unfold c2Of signals
    rw [correl2_eq, ← List.map_flatten, average_map, List.flatten_singleton, average_flatMap _ _ _ _ hpts]
    show meanOf ((List.range (k / N)).map _) = _
    congr 2
    funext j
    show correl2 (spatioFft sizes N ((List.range N).map fun i =>
      f (sampleIt itStart period (j * N + i)))) io3 io4 = _
    rw [hs, spatioFft', correl2_eq, ← List.map_flatten, average_map, average_map]
    exact average_points sizes N (fun r ix t => f (sampleIt itStart period (j * N + t)) r ix)
      (fun p => fft1 N p io3 * (starRingEnd ℂ) (fft1 N p io4))

/-- The array plotted by `plot_corr2` for a whole simulation: its modulus is at most one. -/
theorem C75_run_corr2_bound (period : ℝ) (itStart : ℤ) (N : ℕ) (sizes : List ℕ) (hN : 1 ≤ N) (f : ℕ → ℕ → ℕ → ℝ)
    (n io3 io4 : ℕ) (z : ℂ) (h : corr2Norm (run (plate period itStart N sizes) f n).mean.2 io3 io4 = some z) :
    ‖z‖ ≤ 1 := by
  obtain ⟨k, _, _, h2⟩ := C75_run_signals period itStart N sizes hN f n
  rw [show (run (plate period itStart N sizes) f n).mean.2 = c2Of N [signals period itStart N sizes f (k / N)] from
    funext fun a => funext fun b => h2 a b] at h
  exact C75_corr2_bound N _ io3 io4 z h

end

end Verif.CorrelFreq
