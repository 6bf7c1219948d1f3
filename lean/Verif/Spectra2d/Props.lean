import Verif.Spectra2d.Spec
import Verif.Spectra.PropsValues
import Verif.PhysFiles.Props
import Mathlib.Tactic.Ring
import Mathlib.Tactic.Linarith
import Mathlib.Tactic.NormNum
import Mathlib.Tactic.IntervalCases
import Mathlib.Data.List.Basic

/-!
# C65: the files of the spectra of the 2D solvers, and their loading
-/

namespace Verif.Spectra2d

set_option linter.unusedSectionVars false

open Verif.Spectra (Err slice mean)
open Verif.PhysFiles (IsClosest)

/-! ## Files -/

section files

variable {R : Type*}

theorem addAll_range (r : R) : ∀ (n a m : ℕ) (c : ℕ → List R),
    addAll r m ((List.range' a n).map fun i => some (c i))
      = ((List.range' a n).map fun i => some (if i < a + m then c i ++ [r] else c i), none) := by
  intro n
  induction n with
  | zero => intro a m c; cases m <;> rfl
  | succ n ih =>
    intro a m c
    cases m with
    | zero =>
      simp only [addAll, Nat.add_zero]
      refine congrArg (·, none) (List.map_congr_left fun i hi => ?_)
      rw [List.mem_range'_1] at hi
      rw [if_neg (by omega)]
    | succ m =>
      rw [List.range'_succ, List.map_cons, addAll, ih (a + 1) m c]
      simp only [List.map_cons, Prod.mk.injEq, and_true]
      rw [if_pos (by omega)]
      refine congrArg _ (List.map_congr_left fun i _ => ?_)
      rw [show a + 1 + m = a + (m + 1) by omega]

theorem createAll_replicate (r : R) : ∀ n, createAll r n (List.replicate n none)
    = List.replicate n (some [r]) := by
  intro n
  induction n with
  | zero => rfl
  | succ n ih => simp [List.replicate_succ, createAll, ih]

/-- The disk where the file number `i` contains `c i`. -/
def full (n : ℕ) (c : ℕ → List R) : Disk R := (List.range' 0 n).map fun i => some (c i)

theorem add_full (r : R) (n m : ℕ) (c : ℕ → List R) :
    addAll r m (full n c) = (full n fun i => if i < m then c i ++ [r] else c i, none) := by
  rw [full, addAll_range]; simp [full]

theorem init_full (r : R) {n : ℕ} (hn : 0 < n) (m : ℕ) (c : ℕ → List R) :
    initFiles r m (full n c) = (full n fun i => if i < m then c i ++ [r] else c i, none) := by
  rw [← add_full]
  obtain ⟨n, rfl⟩ : ∃ k, n = k + 1 := ⟨n - 1, by omega⟩
  simp only [full, List.range'_succ, List.map_cons, initFiles]

theorem full_length (n : ℕ) (c : ℕ → List R) : (full n c).length = n := by simp [full]

theorem full_all (n : ℕ) (c : ℕ → List R) (r : R) :
    (full n fun i => if i < n then c i ++ [r] else c i) = full n fun i => c i ++ [r] := by
  unfold full
  refine List.map_congr_left fun i hi => ?_
  rw [List.mem_range'_1] at hi
  show some (if i < n then c i ++ [r] else c i) = _
  rw [if_pos (by omega)]

theorem full_congr (n : ℕ) {c d : ℕ → List R} (h : ∀ i, c i = d i) : full n c = full n d := by
  rw [funext h]

theorem fold_full {n : ℕ} (hn : 0 < n) : ∀ (h : List (Ev R)) (c : ℕ → List R) (al : Bool),
    (h.foldl step ⟨full n c, al, []⟩).disk = full n (fun i => c i ++ reached i al h) ∧
      (h.foldl step ⟨full n c, al, []⟩).errs = [] := by
  intro h
  induction h with
  | nil => intro c al; simp [reached]
  | cons e h ih =>
    intro c al
    rw [List.foldl_cons]
    cases e with
    | start r =>
      have : step ⟨full n c, al, []⟩ (.start r) = ⟨full n (fun i => c i ++ [r]), true, []⟩ := by
        simp only [step, full_length, init_full r hn, full_all]
      rw [this]
      obtain ⟨h1, h2⟩ := ih (fun i => c i ++ [r]) true
      exact ⟨h1.trans (full_congr n fun i => by simp [reached]), h2⟩
    | save r =>
      cases al with
      | false =>
        have : step (⟨full n c, false, []⟩ : St R) (.save r) = ⟨full n c, false, []⟩ := rfl
        rw [this]
        obtain ⟨h1, h2⟩ := ih c false
        exact ⟨h1.trans (full_congr n fun i => by simp [reached]), h2⟩
      | true =>
        have : step ⟨full n c, true, []⟩ (.save r) = ⟨full n (fun i => c i ++ [r]), true, []⟩ := by
          simp only [step, full_length, add_full, full_all, if_true]
        rw [this]
        obtain ⟨h1, h2⟩ := ih (fun i => c i ++ [r]) true
        exact ⟨h1.trans (full_congr n fun i => by simp [reached]), h2⟩
    | killStart m r =>
      have : step ⟨full n c, al, []⟩ (.killStart m r)
          = ⟨full n (fun i => if i < m then c i ++ [r] else c i), false, []⟩ := by
        simp only [step, init_full r hn]
      rw [this]
      obtain ⟨h1, h2⟩ := ih (fun i => if i < m then c i ++ [r] else c i) false
      refine ⟨h1.trans (full_congr n fun i => ?_), h2⟩
      by_cases hi : i < m <;> simp [reached, hi]
    | killSave m r =>
      cases al with
      | false =>
        have : step (⟨full n c, false, []⟩ : St R) (.killSave m r) = ⟨full n c, false, []⟩ := rfl
        rw [this]
        obtain ⟨h1, h2⟩ := ih c false
        exact ⟨h1.trans (full_congr n fun i => by simp [reached]), h2⟩
      | true =>
        have : step ⟨full n c, true, []⟩ (.killSave m r)
            = ⟨full n (fun i => if i < m then c i ++ [r] else c i), false, []⟩ := by
          simp only [step, add_full, if_true]
        rw [this]
        obtain ⟨h1, h2⟩ := ih (fun i => if i < m then c i ++ [r] else c i) false
        refine ⟨h1.trans (full_congr n fun i => ?_), h2⟩
        by_cases hi : i < m <;> simp [reached, hi]

theorem run_start {n : ℕ} (hn : 0 < n) (r : R) (h : List (Ev R)) :
    run n (.start r :: h) = h.foldl step ⟨full n fun _ => [r], true, []⟩ := by
  have : step (⟨List.replicate n none, false, []⟩ : St R) (.start r) = ⟨full n fun _ => [r], true, []⟩ := by
    obtain ⟨k, rfl⟩ : ∃ k, n = k + 1 := ⟨n - 1, by omega⟩
    have hc := createAll_replicate r (k + 1)
    rw [List.replicate_succ] at hc
    simp only [step, List.replicate_succ, initFiles]
    rw [show (none :: List.replicate k (none : Option (List R))).length = k + 1 by simp, hc]
    congr 1
    apply List.ext_getElem <;> simp [full]
  rw [run, List.foldl_cons, this]

/-- C65: once a first process has created the files, for all histories of starts, restarts, records
and kills at any point, no exception is raised and each file contains, in their order and once each, the
records that were brought to it. -/
theorem C65_files_partial {n : ℕ} (hn : 0 < n) (r : R) (h : List (Ev R)) :
    (∀ i < n, (run n (.start r :: h)).disk[i]? = some (some (r :: reached i true h))) ∧
      (run n (.start r :: h)).errs = [] := by
  rw [run_start hn]
  obtain ⟨h1, h2⟩ := fold_full hn h (fun _ => [r]) true
  refine ⟨fun i hi => ?_, h2⟩
  rw [h1]
  simp [full, hi]

/-- C65: when no process is killed, the files all have the same records; with kills, a file that is
written later has a part of the records of a file that is written earlier. -/
theorem C65_files_agree (h : List (Ev R)) (al : Bool) :
    (∀ i j, i ≤ j → (reached j al h).Sublist (reached i al h)) ∧
    ((∀ e ∈ h, Complete e) → ∀ i j, reached i al h = reached j al h) := by
  refine ⟨fun i j hij => ?_, fun hc i j => ?_⟩
  · induction h generalizing al with
    | nil => cases al <;> simp [reached]
    | cons e h ih =>
      rcases e with r | r | ⟨m, r⟩ | ⟨m, r⟩
      · cases al <;> exact (ih true).cons_cons r
      · cases al
        · exact ih false
        · exact (ih true).cons_cons r
      · have : (if j < m then r :: reached j false h else reached j false h).Sublist
            (if i < m then r :: reached i false h else reached i false h) := by
          split_ifs with h1 h2 h2
          · exact (ih false).cons_cons r
          · omega
          · exact (ih false).cons r
          · exact ih false
        cases al <;> exact this
      · cases al
        · exact ih false
        · show (if j < m then r :: reached j false h else reached j false h).Sublist
            (if i < m then r :: reached i false h else reached i false h)
          split_ifs with h1 h2 h2
          · exact (ih false).cons_cons r
          · omega
          · exact (ih false).cons r
          · exact ih false
  · induction h generalizing al with
    | nil => cases al <;> rfl
    | cons e h ih =>
      have ih := fun al => ih al fun e he => hc e (List.mem_cons_of_mem _ he)
      have hce := hc e (List.mem_cons_self ..)
      rcases e with r | r | ⟨m, r⟩ | ⟨m, r⟩
      · cases al <;> exact congrArg (r :: ·) (ih true)
      · cases al
        · exact ih false
        · exact congrArg (r :: ·) (ih true)
      · exact hce.elim
      · exact hce.elim

/-- Two sessions, the first one killed between the two files of its last record. -/
example : (run 2 [.start 0, .save 1, .killSave 1 2, .start 1, .save 2]).disk
    = [some [0, 1, 2, 1, 2], some [0, 1, 1, 2]] := by decide +kernel

/-- C65 is violated when the first process is killed between the creations of the two files: all the
later ones raise `ValueError` when they are built, after having added a record to the first file; the
second file is never created. -/
theorem C65_creation_violated (r : R) (h : List (Ev R)) (hc : ∀ e ∈ h, Complete e) :
    (run 2 (.killStart 1 r :: h)).disk = [some (r :: starts h), none] ∧
    (run 2 (.killStart 1 r :: h)).errs = List.replicate (starts h).length .value := by
  have gen : ∀ (h : List (Ev R)), (∀ e ∈ h, Complete e) → ∀ (l : List R) (er : List Err),
      (h.foldl step ⟨[some l, none], false, er⟩).disk = [some (l ++ starts h), none] ∧
      (h.foldl step ⟨[some l, none], false, er⟩).errs
        = er ++ List.replicate (starts h).length .value := by
    intro h
    induction h with
    | nil => intro _ l er; simp [starts]
    | cons e h ih =>
      intro hc l er
      have ih := ih fun e he => hc e (List.mem_cons_of_mem _ he)
      have hce := hc e (List.mem_cons_self ..)
      rcases e with s | s | ⟨m, s⟩ | ⟨m, s⟩
      · rw [List.foldl_cons]
        have : step ⟨[some l, none], false, er⟩ (.start s)
            = ⟨[some (l ++ [s]), none], false, er ++ [.value]⟩ := rfl
        rw [this]
        obtain ⟨h1, h2⟩ := ih (l ++ [s]) (er ++ [.value])
        refine ⟨by rw [h1]; simp [starts], by rw [h2]; simp [starts, List.replicate_succ]⟩
      · rw [List.foldl_cons]
        have : step (⟨[some l, none], false, er⟩ : St R) (.save s) = ⟨[some l, none], false, er⟩ := rfl
        rw [this]
        obtain ⟨h1, h2⟩ := ih l er
        refine ⟨by rw [h1]; simp [starts], by rw [h2]; simp [starts]⟩
      · exact hce.elim
      · exact hce.elim
  have := gen h hc [r] []
  simpa [run, step, initFiles, createAll] using this

example : (run 2 [.killStart 1 0, .start 0, .save 1, .start 0]).disk = [some [0, 0, 0], none] ∧
    (run 2 [.killStart 1 0, .start 0, .save 1, .start 0]).errs = [.value, .value] := by decide +kernel

end files

/-! ## Loading -/

section loading

variable {Q : Type*} [Field Q] [LinearOrder Q] [IsStrictOrderedRing Q]

theorem isMean_mean {l : List (ℕ → Q)} {F : ℕ → Q} (h : mean l = some F) : IsMean l F := by
  intro b
  cases l with
  | nil => simp [mean] at h
  | cons x xs =>
    simp only [mean, Option.some.injEq] at h
    rw [← h]
    have : ((x :: xs).length : Q) ≠ 0 := by
      rw [List.length_cons]; positivity
    field_simp

/-- C65: `load2d_mean`, `load1d_mean` and the `load_mean` of the (ky, kx) spectra give, for all the
datasets whose names start with `spectr` and for them only, the mean of the records from one that is
closest to `tmin` to one that is closest to `tmax`, for files with increasing times; all the records
between the bounds are used, and of the others at most the first and the last. -/
theorem C65_load_means [FloorRing Q] (f : File Q) (hne : f.times ≠ []) (hinc : f.times.Pairwise (· < ·))
    (tmin tmax : Q) :
    (∀ k w F, (k, w, F) ∈ loadMean f (some tmin) (some tmax) → k.startsWith "spectr" = true) ∧
    (∀ k w recs, (k, w, recs) ∈ f.data → k.startsWith "spectr" = true →
      ∃ F, (k, w, F) ∈ loadMean f (some tmin) (some tmax)) ∧
    ∃ a b, IsClosest f.times tmin a ∧ IsClosest f.times tmax b ∧
      (∀ k w F, (k, w, some F) ∈ loadMean f (some tmin) (some tmax) →
        ∃ recs, (k, w, recs) ∈ f.data ∧ IsMean ((recs.take (b + 1)).drop a) F) ∧
      (∀ (i : ℕ) (t : Q), f.times[i]? = some t → tmin ≤ t → t ≤ tmax → a ≤ i ∧ i ≤ b) ∧
      ∀ (i : ℕ) (t : Q), f.times[i]? = some t → a < i → i < b → tmin < t ∧ t < tmax := by
  refine ⟨?_, ?_, ?_⟩
  · rintro k w F hm
    simp only [loadMean, List.mem_map, List.mem_filter] at hm
    obtain ⟨d, ⟨-, hd⟩, he⟩ := hm
    cases he; exact hd
  · rintro k w recs hm hk
    refine ⟨_, List.mem_map.2 ⟨(k, w, recs), List.mem_filter.2 ⟨hm, hk⟩, rfl⟩⟩
  · obtain ⟨h1, h2, h3, h4⟩ := Verif.MeansFile.closest_between f.times tmin tmax hne hinc
    refine ⟨_, _, h1, h2, ?_, h3, h4⟩
    rintro k w F hm
    simp only [loadMean, List.mem_map, List.mem_filter] at hm
    obtain ⟨⟨k', w', recs⟩, ⟨hd, -⟩, he⟩ := hm
    simp only [Prod.mk.injEq] at he
    obtain ⟨rfl, rfl, he⟩ := he
    exact ⟨recs, hd, isMean_mean he⟩

/-- Three records, two datasets. -/
example : (loadMean (⟨[0, 1, 2], [("khE", [0, 1])], [("info", 0, []),
      ("spectrum2D_E", 2, [fun _ => 1, fun _ => 2, fun _ => 6])]⟩ : File ℚ) (some (3 / 4)) (some 5)).map
      (fun d => (d.1, d.2.1, d.2.2.map fun F => F 0)) = [("spectrum2D_E", 2, some (4 : ℚ))] := by
  decide +kernel

/-- The files that the program writes: the spectra along `kx` have one value per element of `kxE`, those
along `ky` one per element of `kyE`. -/
def Fits (f : File Q) : Prop :=
  ∃ kx ky, f.axes.lookup "kxE" = some kx ∧ f.axes.lookup "kyE" = some ky ∧
    (∀ d ∈ f.data, d.1.startsWith "spectrum1Dkx_" = true → d.2.1 = kx.length) ∧
    ∀ d ∈ f.data, d.1.startsWith "spectrum1Dky_" = true → d.2.1 = ky.length

/-- C65 (partial): the wavenumbers returned by `load1d_mean` are those of the spectra along `kx`. -/
theorem C65_load1d_axis_partial (f : File Q) (hf : Fits f) (tmin tmax : Option Q) :
    ∃ kh means, load1dMean f tmin tmax = some (kh, means) ∧
      ∀ d ∈ means, d.1.startsWith "spectrum1Dkx_" = true → d.2.1 = kh.length := by
  obtain ⟨kx, ky, h1, h2, h3, h4⟩ := hf
  refine ⟨kx, loadMean f tmin tmax, by rw [load1dMean, h1]; rfl, ?_⟩
  intro d hd hk
  simp only [loadMean, List.mem_map, List.mem_filter] at hd
  obtain ⟨e, ⟨he, -⟩, rfl⟩ := hd
  exact h3 e he hk

end loading

/-- The file of a grid with more points along `x` than along `y`. -/
def exFile : File ℚ :=
  ⟨[0], [("kxE", [0, 1, 2]), ("kyE", [0, 1])],
    [("spectrum1Dkx_E", 3, [fun _ => 1]), ("spectrum1Dky_E", 2, [fun _ => 1])]⟩

theorem exFile_fits : Fits exFile := by
  refine ⟨[0, 1, 2], [0, 1], by decide +kernel, by decide +kernel, ?_, ?_⟩
  · intro d hd hk
    simp only [exFile, List.mem_cons, List.not_mem_nil, or_false] at hd
    rcases hd with rfl | rfl
    · rfl
    · exact absurd hk (by decide +kernel)
  · intro d hd hk
    simp only [exFile, List.mem_cons, List.not_mem_nil, or_false] at hd
    rcases hd with rfl | rfl
    · exact absurd hk (by decide +kernel)
    · rfl

/-- C65 is violated for the spectra along `ky`: the only wavenumbers that `load1d_mean` returns are those
along `kx`, even if their number is not that of the values of the spectrum. -/
theorem C65_load1d_axis_violated :
    Fits exFile ∧ (load1dMean exFile none none).map (fun r => (r.1, r.2.map fun d => (d.1, d.2.1)))
      = some ([0, 1, 2], [("spectrum1Dkx_E", 3), ("spectrum1Dky_E", 2)]) :=
  ⟨exFile_fits, by decide +kernel⟩

section means

variable {Q : Type} [Field Q] [LinearOrder Q] [IsStrictOrderedRing Q] [FloorRing Q]

theorem sum_diff_pos : ∀ (l : List Q) (a : Q), (a :: l).Pairwise (· < ·) → l ≠ [] →
    0 < (((a :: l).zip l).map fun p => p.2 - p.1).sum := by
  intro l
  induction l with
  | nil => intro a _ h; exact absurd rfl h
  | cons b l ih =>
    intro a hp _
    have hab : a < b := (List.pairwise_cons.1 hp).1 b (List.mem_cons_self ..)
    simp only [List.zip_cons_cons, List.map_cons, List.sum_cons]
    rcases eq_or_ne l [] with rfl | hl
    · simp; linarith
    · have := ih b (List.pairwise_cons.1 hp).2 hl
      linarith

theorem deltaI_ok (round : Q → ℤ) (times : List Q) (dt : Q) (hinc : times.Pairwise (· < ·))
    (h2 : 2 ≤ times.length) : ∃ i, deltaI round times dt = .ok i := by
  obtain ⟨a, b, l, rfl⟩ : ∃ a b l, times = a :: b :: l := by
    rcases times with _ | ⟨a, _ | ⟨b, l⟩⟩
    · simp at h2
    · simp at h2
    · exact ⟨a, b, l, rfl⟩
  have hpos := sum_diff_pos (b :: l) a hinc (by simp)
  unfold deltaI
  rw [if_neg (by simp), List.tail_cons]
  simp only []
  rw [if_neg]
  · exact ⟨_, rfl⟩
  · apply ne_of_gt
    apply div_pos hpos
    simp only [List.zip_cons_cons, List.map_cons, List.length_cons]
    positivity

/-- The names of the results of `load1d_means` and of the datasets of the file. -/
def stratNames : List (String × String) :=
  [("E_kx", "spectrum1Dkx_E"), ("EK_kx", "spectrum1Dkx_EK"), ("EA_kx", "spectrum1Dkx_EA"),
   ("E_ky", "spectrum1Dky_E"), ("EK_ky", "spectrum1Dky_EK"), ("EA_ky", "spectrum1Dky_EA")]

/-- C65 (partial): with two records at least, `load1d_means` of ns2d.strat gives under `E_kx`, `EK_kx`,
`EA_kx`, `E_ky`, `EK_ky`, `EA_ky` the means of the records of the corresponding spectra, from one that is
closest to `tmin` to one that is closest to `tmax`; whatever `delta_t`. -/
theorem C65_load1d_means_partial (round : Q → ℤ) (f : File Q) (tmin tmax dt : Q)
    (hinc : f.times.Pairwise (· < ·)) (h2 : 2 ≤ f.times.length)
    (data : String → ℕ × List (ℕ → Q))
    (hdata : ∀ p ∈ stratNames, f.data.lookup p.2 = some (data p.2)) :
    ∃ res, load1dMeans round f (some tmin) (some tmax) dt true true = .ok res ∧
      res.map Prod.fst = stratNames.map Prod.fst ∧
      ∃ a b, IsClosest f.times tmin a ∧ IsClosest f.times tmax b ∧
        (∀ (i : ℕ) (t : Q), f.times[i]? = some t → tmin ≤ t → t ≤ tmax → a ≤ i ∧ i ≤ b) ∧
        ∀ p ∈ stratNames, ∀ F, (p.1, some F) ∈ res →
          IsMean (((data p.2).2.take (b + 1)).drop a) F := by
  obtain ⟨i, hi⟩ := deltaI_ok round f.times dt hinc h2
  have hne : f.times ≠ [] := by rintro h; rw [h] at h2; simp at h2
  obtain ⟨h1, h2', h3, -⟩ := Verif.MeansFile.closest_between f.times tmin tmax hne hinc
  have hm : ∀ p ∈ stratNames, means1 f tmin tmax p.2
      = .ok (mean (slice f.times (data p.2).2 (some tmin) (some tmax))) := by
    intro p hp
    rw [means1, hdata p hp]
  have e1 := hm ("E_kx", "spectrum1Dkx_E") (by simp [stratNames])
  have e2 := hm ("EK_kx", "spectrum1Dkx_EK") (by simp [stratNames])
  have e3 := hm ("EA_kx", "spectrum1Dkx_EA") (by simp [stratNames])
  have e4 := hm ("E_ky", "spectrum1Dky_E") (by simp [stratNames])
  have e5 := hm ("EK_ky", "spectrum1Dky_EK") (by simp [stratNames])
  have e6 := hm ("EA_ky", "spectrum1Dky_EA") (by simp [stratNames])
  simp only [] at e1 e2 e3 e4 e5 e6
  refine ⟨_, by
    simp only [load1dMeans, Option.getD_some, hi, e1, e2, e3, e4, e5, e6, bind, Except.bind, pure,
      Except.pure, if_true]; rfl, rfl, _, _, h1, h2', h3, ?_⟩
  intro p hp F hF
  simp only [stratNames, List.mem_cons, List.not_mem_nil, or_false] at hp
  rcases hp with rfl | rfl | rfl | rfl | rfl | rfl <;>
    exact isMean_mean (by simp at hF; exact hF.symm)

/-- Two records. -/
example : (load1dMeans (fun _ => 1) (⟨[0, 1], [], stratNames.map fun p =>
      (p.2, 1, [fun _ => 1, fun _ => 3])⟩ : File ℚ) none none 2 true true).map
      (fun res => res.map fun d => d.2.map fun F => F 0) = .ok (List.replicate 6 (some (2 : ℚ))) := by
  decide +kernel

/-- C65 is violated for a file with one record (simulation just started), for which the mean is the
record: `load1d_means` and `plot1d` of ns2d.strat, `plot1d` and `plot2d` of sw1l and `plot1d` of plate2d raise
`ValueError`; and for the file of a simulation started twice from the same time: `OverflowError`. -/
theorem C65_load1d_means_violated (round : Q → ℤ) (f : File Q) (tmin tmax : Option Q) (dt t : Q) (x y : Bool) :
    (f.times = [t] → load1dMeans round f tmin tmax dt x y = .error .value) ∧
    (f.times = [t, t] → dt ≠ 0 → load1dMeans round f tmin tmax dt x y = .error .overflow) := by
  constructor
  · intro h
    simp [load1dMeans, deltaI, h, bind, Except.bind]
  · intro h hdt
    simp [load1dMeans, deltaI, h, hdt, bind, Except.bind]

end means

/-! ## The figure of the (ky, kx) spectra -/

section figure

variable {Q : Type*} [Field Q] [LinearOrder Q] [IsStrictOrderedRing Q] [FloorRing Q] {A : Type*}

/-- C65 (partial): for increasing times and `tmin ≠ tmax`, `plot` of ns2d.strat averages the records from
one that is closest to `tmin` to the one before one that is closest to `tmax`; for `tmin = tmax`, it shows a
record that is closest. -/
theorem C65_plot_times_partial (times : List Q) (vals : List A) (hne : times ≠ [])
    (hl : vals.length = times.length) (tmin tmax : Q) :
    ∃ a b, IsClosest times tmin a ∧ IsClosest times tmax b ∧
      (tmin ≠ tmax → plotSlice times vals (some tmin) (some tmax) = (vals.take b).drop a) ∧
      (tmin = tmax → ∃ v, vals[a]? = some v ∧ plotSlice times vals (some tmin) (some tmax) = [v]) := by
  refine ⟨_, _, Verif.PhysFiles.C18_get_closest_time_file times tmin hne,
    Verif.PhysFiles.C18_get_closest_time_file times tmax hne, ?_, ?_⟩
  · intro h
    simp [plotSlice, h]
  · rintro rfl
    obtain ⟨x, hx, -⟩ := Verif.PhysFiles.C18_get_closest_time_file times tmin hne
    obtain ⟨hlt, -⟩ := List.getElem?_eq_some_iff.1 hx
    refine ⟨vals[Verif.PhysFiles.closest times tmin]'(by omega), by simp, ?_⟩
    simp [plotSlice, List.getElem?_eq_getElem (show Verif.PhysFiles.closest times tmin < vals.length by omega)]

/-- C65 is violated: the last record is left out of the average (`plot()` for a file of two records shows the
first one), and the average is over no record (`nan`) when the closest record to the two times is the same. -/
theorem C65_plot_times_violated :
    plotSlice ([0, 1] : List ℚ) ['a', 'b'] none none = ['a'] ∧
    plotSlice ([0, 1, 2] : List ℚ) ['a', 'b', 'c'] none none = ['a', 'b'] ∧
    plotSlice ([0, 10, 20] : List ℚ) ['a', 'b', 'c'] (some 9) (some 11) = [] := by
  decide +kernel

/-- The keys of the documentation of `plot`. -/
def documentedKeys : List String := ["E", "EK", "EA", "ap_fft", "am_fft"]

/-- C65 (partial): the figures of `ap_fft` (the default) and `am_fft` are those of these spectra. -/
theorem C65_plot_keys_partial : plotKey none = .ok "spectrumkykx_ap" ∧
    plotKey (some "ap_fft") = .ok "spectrumkykx_ap" ∧ plotKey (some "am_fft") = .ok "spectrumkykx_am" := by
  decide +kernel

/-- C65 is violated for the three other documented keys. -/
theorem C65_plot_keys_violated :
    documentedKeys.map (fun k => plotKey (some k)) = [.error .value, .error .unboundLocal,
      .error .unboundLocal, .ok "spectrumkykx_ap", .ok "spectrumkykx_am"] := by decide +kernel

theorem kz_getElem? {n i : ℕ} (he : Even n) (hi : i < n) :
    (kz n)[i]? = some (if i ≤ n / 2 then (i : ℤ) else (i : ℤ) - n) := by
  obtain ⟨h, rfl⟩ := he
  rw [show h + h = 2 * h by ring] at hi ⊢
  have h1 : (2 * h + 1) / 2 = h := by omega
  have h2 : 2 * h / 2 = h := by omega
  rw [kz, List.getElem?_modify, h1, h2]
  simp only [List.getElem?_map, List.getElem?_range hi, Option.map_some]
  rcases lt_trichotomy i h with h3 | rfl | h3
  · have e1 : ¬ h = i := by omega
    have e2 : i ≤ h := by omega
    simp [h3, e1, e2]
  · simp; ring
  · have e1 : ¬ h = i := by omega
    have e2 : ¬ i ≤ h := by omega
    have e3 : ¬ i < h := by omega
    simp [e1, e2, e3]

theorem reorder_getElem? {B : Type*} {n : ℕ} (hev : n % 2 = 0) (l : List B) (hl : l.length = n) (i : ℕ)
    (hi : i < n) : (l.drop (n / 2 + 1) ++ l.take (n / 2 + 1))[i]?
      = l[if i + 1 < n / 2 then i + n / 2 + 1 else i + 1 - n / 2]? := by
  rw [List.getElem?_append]
  simp only [List.length_drop, hl]
  by_cases h : i + 1 < n / 2
  · rw [if_pos (by omega), if_pos h, List.getElem?_drop]
    congr 1; omega
  · rw [if_neg (by omega), if_neg h, List.getElem?_take_of_lt (by omega)]
    congr 1; omega

/-- C65: for an even number of points, the vertical axis of the figure is increasing with a constant step,
from `-(ny / 2 - 1)` to `ny / 2`, and each row of the figure is that of its wavenumber: the row number `j` of
the data is at the height of the wavenumber number `j`. -/
theorem C65_plot_rows {n : ℕ} (hn : 0 < n) (he : Even n) (data : List A) (hl : data.length = n) :
    ∃ ks rows, reorder (kz n) = some ks ∧ reorder data = some rows ∧
      ks.length = n ∧ rows.length = n ∧
      (∀ i < n, ks[i]? = some ((i : ℤ) - (n / 2 : ℕ) + 1)) ∧
      ∀ j < n, ∃ i < n, rows[i]? = data[j]? ∧ ks[i]? = (kz n)[j]? := by
  have hkl : (kz n).length = n := by simp [kz]
  have hev : n % 2 = 0 := Nat.even_iff.1 he
  refine ⟨(kz n).drop (n / 2 + 1) ++ (kz n).take (n / 2 + 1),
    data.drop (n / 2 + 1) ++ data.take (n / 2 + 1), by rw [reorder, hkl, if_pos hev],
    by rw [reorder, hl, if_pos hev], ?_, ?_, ?_, ?_⟩
  · simp only [List.length_append, List.length_drop, List.length_take, hkl]; omega
  · simp only [List.length_append, List.length_drop, List.length_take, hl]; omega
  · intro i hi
    rw [reorder_getElem? hev (kz n) hkl i hi]
    split_ifs with h
    · rw [kz_getElem? he (by omega), if_neg (by omega)]
      congr 1; push_cast; omega
    · rw [kz_getElem? he (by omega), if_pos (by omega)]
      congr 1; omega
  · intro j hj
    refine ⟨if j ≤ n / 2 then j + n / 2 - 1 else j - n / 2 - 1, by split_ifs <;> omega, ?_, ?_⟩
    · rw [reorder_getElem? hev data hl _ (by split_ifs <;> omega)]
      congr 1; split_ifs <;> omega
    · rw [reorder_getElem? hev (kz n) hkl _ (by split_ifs <;> omega)]
      congr 1; split_ifs <;> omega

example : reorder (kz 6) = some [-2, -1, 0, 1, 2, 3] := by decide +kernel

/-- C65 is violated for an odd number of points: the figure raises `ValueError`. -/
theorem C65_plot_rows_violated {n : ℕ} (hn : ¬ Even n) : reorder (kz n) = none := by
  have : (kz n).length % 2 ≠ 0 := by
    simp only [kz, List.length_modify, List.length_map, List.length_range]
    rwa [Nat.even_iff] at hn
  rw [reorder, if_neg this]

example : ¬ Even 5 := by decide

end figure

/-! ## Curves -/

section curves

variable {Q : Type*} [Field Q] [LinearOrder Q] [IsStrictOrderedRing Q]

/-- C65 (partial): the curves of successive instants drawn by `plot1d` and `plot2d` have transparencies from
`0.1` for the first one, increasing, to at most `1`, when the first and the last record differ. -/
theorem C65_curves_partial (imin imax di : ℕ) (h : imin < imax) :
    (alpha imin imax imin : Option Q) = some 0.1 ∧
    (alpha imin imax imax : Option Q) = some 1 ∧
    (∀ i ∈ curves imin imax di, ∃ a : Q, alpha imin imax i = some a ∧ 0.1 ≤ a ∧ a ≤ 1) ∧
    ∀ i j, i < j → ∀ a b : Q, alpha imin imax i = some a → alpha imin imax j = some b → a < b := by
  have hne : imax ≠ imin := by omega
  have hd : (0 : Q) < (imax : Q) - (imin : Q) := by
    have : (imin : Q) < imax := by exact_mod_cast h
    linarith
  have hs : (0 : Q) < (1 - 0.1) / ((imax : Q) - (imin : Q)) := by
    apply div_pos _ hd
    norm_num
  have hm : (1 - 0.1) / ((imax : Q) - (imin : Q)) * ((imax : Q) - (imin : Q)) = 1 - 0.1 :=
    div_mul_cancel₀ _ hd.ne'
  refine ⟨?_, ?_, ?_, ?_⟩
  · simp only [alpha, if_neg hne, Option.some.injEq]; ring
  · simp only [alpha, if_neg hne, Option.some.injEq]; linarith
  · intro i hi
    simp only [curves, List.mem_filter, List.mem_range, decide_eq_true_eq] at hi
    refine ⟨_, by rw [alpha, if_neg hne], ?_, ?_⟩
    · have : (imin : Q) ≤ i := by exact_mod_cast hi.2.1
      have := mul_le_mul_of_nonneg_left this hs.le
      linarith
    · have : (i : Q) ≤ imax := by exact_mod_cast (by omega : i ≤ imax)
      have := mul_le_mul_of_nonneg_left this hs.le
      linarith
  · intro i j hij a b ha hb
    simp only [alpha, if_neg hne, Option.some.injEq] at ha hb
    rw [← ha, ← hb]
    have : (i : Q) < j := by exact_mod_cast hij
    have := mul_lt_mul_of_pos_left this hs
    linarith

/-- C65: the curves are those of the records `imin`, `imin + di`, `imin + 2 di`, ... up to `imax`. -/
theorem C65_curves_step (imin imax di i : ℕ) :
    i ∈ curves imin imax di ↔ ∃ m, i = imin + m * di ∧ i ≤ imax := by
  simp only [curves, List.mem_filter, List.mem_range, decide_eq_true_eq]
  constructor
  · rintro ⟨h1, h2, h3⟩
    refine ⟨(i - imin) / di, ?_, by omega⟩
    have := Nat.div_add_mod (i - imin) di
    rw [h3, Nat.mul_comm] at this
    omega
  · rintro ⟨m, rfl, h⟩
    exact ⟨by omega, by omega, by simp⟩

example : curves 1 6 2 = [1, 3, 5] := by decide +kernel

/-- C65 is violated for one record: the slope of the transparency is a division by zero. -/
theorem C65_curves_violated (i di : ℕ) :
    i ∈ curves i i di ∧ (alpha i i i : Option Q) = none := by
  refine ⟨?_, by simp [alpha]⟩
  simp [curves]

/-- C65 (partial): where the kinetic energy is not below the threshold, the averaged curves of plate2d are
the averaged spectra. -/
theorem C65_plate_curves_partial (eps : Q) (EK EL EE : ℕ → Q) (b : ℕ) (h : eps ≤ EK b) :
    (plateCurves eps EK EL EE).1 b = EK b ∧ (plateCurves eps EK EL EE).2.1 b = EL b ∧
      (plateCurves eps EK EL EE).2.2 b = EE b := by
  simp [plateCurves, not_lt.2 h]

/-- C65 is violated for a plate at rest: its energies of deformation are shown as zero. -/
theorem C65_plate_curves_violated (eps : Q) (he : 0 < eps) (EL EE : ℕ → Q) (b : ℕ) :
    (plateCurves eps (fun _ => 0) EL EE).2.1 b = 0 ∧ (plateCurves eps (fun _ => 0) EL EE).2.2 b = 0 := by
  simp [plateCurves, he]

example : (plateCurves (1 : ℚ) (fun _ => 2) (fun _ => 3) fun _ => 4).2.1 0 = 3 := by decide +kernel

/-- C65: the curve `Etot` of sw1l is `EK + EA`, the curve `EKd` is `EK - EKr`, the other ones are those of
the file, and an unknown name is an error. -/
theorem C65_sw1l_select (rec_ : List (String × (ℕ → Q))) (EK EA EKr : ℕ → Q)
    (h1 : rec_.lookup "spectrum2D_EK" = some EK) (h2 : rec_.lookup "spectrum2D_EA" = some EA)
    (h3 : rec_.lookup "spectrum2D_EKr" = some EKr) :
    select rec_ "Etot" = .ok (fun b => EK b + EA b) ∧ select rec_ "EKd" = .ok (fun b => EK b - EKr b) ∧
    (∀ key y, key ≠ "Etot" → key ≠ "EKd" → rec_.lookup ("spectrum2D_" ++ key) = some y →
      select rec_ key = .ok y) ∧
    ∀ key, key ≠ "Etot" → key ≠ "EKd" → rec_.lookup ("spectrum2D_" ++ key) = none →
      select rec_ key = .error .key := by
  have e1 : "spectrum2D_" ++ "EK" = "spectrum2D_EK" := by decide +kernel
  have e2 : "spectrum2D_" ++ "EA" = "spectrum2D_EA" := by decide +kernel
  have e3 : "spectrum2D_" ++ "EKr" = "spectrum2D_EKr" := by decide +kernel
  refine ⟨?_, ?_, ?_, ?_⟩
  · simp only [select, if_true, e1, e2, h1, h2, bind, Except.bind, pure, Except.pure]
  · simp only [select, if_neg (show "EKd" ≠ "Etot" by decide +kernel), if_true, e1, e3, h1, h3, bind,
      Except.bind, pure, Except.pure]
  · intro key y k1 k2 hy
    simp only [select, if_neg k1, if_neg k2, hy]
  · intro key k1 k2 hy
    simp only [select, if_neg k1, if_neg k2, hy]

example : ∃ r : List (String × (ℕ → ℚ)), r.lookup "spectrum2D_EK" = some (fun _ => 3) ∧
    r.lookup "spectrum2D_EA" = some (fun _ => 2) ∧ r.lookup "spectrum2D_EKr" = some fun _ => 1 :=
  ⟨[("spectrum2D_EK", fun _ => 3), ("spectrum2D_EA", fun _ => 2), ("spectrum2D_EKr", fun _ => 1)],
    rfl, rfl, rfl⟩

/-- C65 (partial): with one positive viscosity, the factor of `plot_diss` is twice the damping rate
`nu_2 k² + nu_4 k⁴ + nu_8 k⁸`; without viscosity `ValueError` is raised. -/
theorem C65_plot_diss_partial (nu2 nu4 nu8 k : Q) (h2 : 0 ≤ nu2) (h4 : 0 ≤ nu4) (h8 : 0 ≤ nu8) :
    (nu2 = 0 ∧ nu4 = 0 ∨ nu2 = 0 ∧ nu8 = 0 ∨ nu4 = 0 ∧ nu8 = 0 →
      (0 < nu2 ∨ 0 < nu4 ∨ 0 < nu8) →
      dissFactor nu2 nu4 nu8 k = .ok (2 * (nu2 * k ^ 2 + nu4 * k ^ 4 + nu8 * k ^ 8))) ∧
    (nu2 = 0 → nu4 = 0 → nu8 = 0 → dissFactor nu2 nu4 nu8 k = .error .value) := by
  constructor
  · rintro (⟨rfl, rfl⟩ | ⟨rfl, rfl⟩ | ⟨rfl, rfl⟩) h <;> simp only [lt_irrefl, false_or, or_false] at h <;>
      simp only [dissFactor, lt_irrefl, h, if_true, if_false] <;> congr 1 <;> ring
  · rintro rfl rfl rfl; simp [dissFactor]

/-- C65 is violated with two viscosities: the second one is left out. -/
theorem C65_plot_diss_violated (nu2 nu4 nu8 k : Q) (h2 : 0 < nu2) (h4 : 0 < nu4) (h8 : 0 ≤ nu8) (hk : 0 < k) :
    ∃ c, dissFactor nu2 nu4 nu8 k = .ok c ∧ c < 2 * (nu2 * k ^ 2 + nu4 * k ^ 4 + nu8 * k ^ 8) := by
  refine ⟨2 * nu2 * k ^ 2, by simp [dissFactor, h2], ?_⟩
  have : 0 < nu4 * k ^ 4 := by positivity
  have : 0 ≤ nu8 * k ^ 8 := by positivity
  linarith

example : dissFactor (1 : ℚ) 1 0 2 = .ok 8 := by decide +kernel

end curves

end Verif.Spectra2d
