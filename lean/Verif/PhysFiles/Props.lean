import Verif.PhysFiles.Lemmas
import Mathlib.Tactic.Module
import Mathlib.Algebra.Module.Rat

/-! # C17 (names of saved fields), C18 (selection by time), C19 (interpolation in time) -/

set_option linter.unusedSectionVars false

namespace Verif.PhysFiles

variable {K : Type*} [Field K] [LinearOrder K] [FloorRing K]

/-! ### C17 -/

/-- Saving never removes nor modifies a file that holds another iteration, whatever was saved
before, whichever file `glob` returns first. -/
theorem C17_never_overwrites (p : Params) (fs : List (File K)) (hr : Reach p fs)
    (probe : Option (File K)) (t : K) (it : ℕ) (g : File K) (hg : g ∈ fs) (hit : g.it ≠ it) :
    g ∈ save p probe fs t it := by
  rcases save_cases p probe fs t it with ⟨hs, _⟩ | ⟨hs, _⟩ | ⟨hs, _⟩
  · rw [hs]; exact List.mem_append_left _ hg
  · rw [hs]; exact hg
  · rw [hs]
    refine List.mem_append_left _ (List.mem_filter.2 ⟨hg, ?_⟩)
    simp only [decide_eq_true_eq, ne_eq]
    intro hname
    obtain ⟨w, b, hw⟩ := reach_named hr g hg
    rw [hw, name2_eq] at hname
    obtain ⟨_, hb, hi⟩ := name_inj hname
    exact hit (hi hb)

/-- After saving, the directory has a file with this iteration and this time (up to the
rounding of the name). -/
theorem C17_state_is_saved (p : Params) (fs : List (File K)) (hr : Reach p fs)
    (probe : Option (File K)) (t : K) (it : ℕ) :
    ∃ g ∈ save p probe fs t it, g.it = it ∧ thousandths g.time = thousandths t := by
  rcases save_cases p probe fs t it with ⟨hs, _⟩ | ⟨hs, f, hf, hfn, hfi⟩ | ⟨hs, _⟩
  · exact ⟨⟨name1 p (strWidth p probe) (thousandths t) it, it, t⟩, by rw [hs]; simp, rfl, rfl⟩
  · refine ⟨f, by rw [hs]; exact hf, hfi, ?_⟩
    obtain ⟨w, b, hw⟩ := reach_named hr f hf
    rw [hw, name1_eq] at hfn
    exact fmt_val _ _ (name_inj hfn).1
  · exact ⟨⟨name2 (thousandths t) it, it, t⟩, by rw [hs]; simp [write], rfl, rfl⟩

/-- The names of a directory are distinct. -/
theorem C17_names_distinct (p : Params) (fs : List (File K)) (hr : Reach p fs) :
    (fs.map File.name).Nodup := by
  induction hr with
  | empty => simp
  | @save fs probe t it hr _ _ ih =>
    rcases save_cases p probe fs t it with ⟨hs, hno⟩ | ⟨hs, _⟩ | ⟨hs, _⟩
    · rw [hs, List.map_append, List.nodup_append]
      refine ⟨ih, by simp, ?_⟩
      intro a ha b hb
      obtain ⟨g, hg, rfl⟩ := List.mem_map.1 ha
      simp only [List.map_cons, List.map_nil, List.mem_singleton] at hb
      subst hb
      exact hno g hg
    · rw [hs]; exact ih
    · rw [hs, write, List.map_append, List.nodup_append]
      refine ⟨ih.sublist ((List.filter_sublist).map _), by simp, ?_⟩
      intro a ha b hb
      obtain ⟨g, hg, rfl⟩ := List.mem_map.1 ha
      simp only [List.map_cons, List.map_nil, List.mem_singleton] at hb
      subst hb
      simpa using (List.mem_filter.1 hg).2

/-- Both parsers recover from the name of any saved file its time, rounded to a thousandth. -/
theorem C17_time_from_name [IsStrictOrderedRing K] (p : Params) (fs : List (File K))
    (hr : Reach p fs) (f : File K) (hf : f ∈ fs) :
    timeFromPath f.name = some ((thousandths f.time : K) / 1000) ∧
      parseApprox f.name = (thousandths f.time : K) / 1000 ∧
      (0 ≤ f.time → |(thousandths f.time : K) / 1000 - f.time| ≤ 1 / 2000) := by
  obtain ⟨w, b, hw⟩ := reach_named hr f hf
  refine ⟨?_, ?_, thousandths_near⟩
  · rw [timeFromPath, hw, search_name, Option.map_some, decVal_fmt]
  · rw [hw, parseApprox_name]

/-- With USE_T_END and names without iteration, for saves at increasing times separated by at
least a thousandth and not larger than ten times `t_end`: every save gives its own file and
the alphabetic order of the names is the order of the times. (Partial: see the three
violations below for what happens otherwise.) -/
theorem C17_names_sorted_partial [IsStrictOrderedRing K] (p : Params) (hT : p.useTEnd = true)
    (hI : p.withIt = false) (hE : 1 ≤ p.tEnd) (pick : List (File K) → Option (File K))
    (hp : PickOk pick) (saves : List (K × ℕ)) (h0 : ∀ s ∈ saves, 0 ≤ s.1)
    (hsep : saves.Pairwise fun a b => a.1 + 1 / 1000 ≤ b.1)
    (hmax : ∀ s ∈ saves, s.1 ≤ ((10 * p.tEnd : ℕ) : K)) :
    (runSaves p pick saves).Pairwise (fun f g => NameLt f.name g.name) ∧
      (runSaves p pick saves).map (fun f => (f.time, f.it)) = saves := by
  have hinc : saves.Pairwise fun a b => thousandths a.1 < thousandths b.1 :=
    hsep.imp_of_mem fun ha _ hab => thousandths_step (h0 _ ha) hab
  have hlt : ∀ s ∈ saves, thousandths s.1 / 1000 < 10 ^ (width p - 4) := by
    intro s hs
    have h1 := thousandths_bound (hmax s hs)
    have h2 : p.tEnd < 10 ^ (Nat.log 10 p.tEnd + 1) := Nat.lt_pow_succ_log_self (by norm_num) _
    have h3 : width p - 4 = Nat.log 10 p.tEnd + 1 + 2 := by simp [width, hT]
    rw [h3, pow_add]
    norm_num
    omega
  rw [run_spec p hI pick hp saves hinc hlt]
  constructor
  · rw [List.pairwise_map]
    refine hinc.imp_of_mem fun {a b} ha hb hab => ?_
    simp only [List.append_assoc]
    exact nameLt_prefix _ _ _ (fmt_lt _ _ _ (width_ge p) (hlt a ha) (hlt b hb) hab _ _)
  · simp [Function.comp_def]

/-- Without USE_T_END (width 7), the same holds up to time 999. -/
theorem C17_names_sorted_width7_partial [IsStrictOrderedRing K] (p : Params)
    (hT : p.useTEnd = false) (hI : p.withIt = false) (pick : List (File K) → Option (File K))
    (hp : PickOk pick) (saves : List (K × ℕ)) (h0 : ∀ s ∈ saves, 0 ≤ s.1)
    (hsep : saves.Pairwise fun a b => a.1 + 1 / 1000 ≤ b.1)
    (hmax : ∀ s ∈ saves, s.1 ≤ ((999 : ℕ) : K)) :
    (runSaves p pick saves).Pairwise (fun f g => NameLt f.name g.name) ∧
      (runSaves p pick saves).map (fun f => (f.time, f.it)) = saves := by
  have hinc : saves.Pairwise fun a b => thousandths a.1 < thousandths b.1 :=
    hsep.imp_of_mem fun ha _ hab => thousandths_step (h0 _ ha) hab
  have hlt : ∀ s ∈ saves, thousandths s.1 / 1000 < 10 ^ (width p - 4) := by
    intro s hs
    have h1 := thousandths_bound (hmax s hs)
    have h3 : width p - 4 = 3 := by simp [width, hT]
    rw [h3]
    norm_num
    omega
  rw [run_spec p hI pick hp saves hinc hlt]
  constructor
  · rw [List.pairwise_map]
    refine hinc.imp_of_mem fun {a b} ha hb hab => ?_
    simp only [List.append_assoc]
    exact nameLt_prefix _ _ _ (fmt_lt _ _ _ (width_ge p) (hlt a ha) (hlt b hb) hab _ _)
  · simp [Function.comp_def]

instance (a b : Str) : Decidable (NameLt a b) := by
  unfold NameLt; infer_instance

/-- The file seen by `glob` in the examples: the first of the list. -/
def first (fs : List (File ℚ)) : Option (File ℚ) := fs.head?

theorem first_ok : PickOk first := fun fs =>
  ⟨fun _ h => List.mem_of_mem_head? h, fun h => by simpa [first] using h⟩

/-- Violation 1: without USE_T_END the names of times 999 and 1000 are in the wrong order. -/
theorem C17_order_without_t_end_violated :
    ∃ (p : Params) (saves : List (ℚ × ℕ)), p.useTEnd = false ∧
      saves.Pairwise (fun a b => a.1 < b.1) ∧
      (runSaves p first saves).Pairwise fun f g => NameLt g.name f.name :=
  ⟨⟨false, 2000, false⟩, [(999, 10), (1000, 11)], rfl, by decide +kernel, by decide +kernel⟩

/-- Violation 2: with USE_T_END, two saves in the same thousandth give the second one a name
of another width, and the next save (a later time) sorts before it. -/
theorem C17_order_same_thousandth_violated :
    ∃ (p : Params) (saves : List (ℚ × ℕ)), p.useTEnd = true ∧ p.withIt = false ∧
      saves.Pairwise (fun a b => a.1 < b.1) ∧
      ∃ f g, (runSaves p first saves)[1]? = some f ∧ (runSaves p first saves)[2]? = some g ∧
        f.time < g.time ∧ NameLt g.name f.name :=
  ⟨⟨true, 1000, false⟩, [(1, 10), (10001 / 10000, 11), (2, 12)], rfl, rfl, by decide +kernel,
    ⟨"state_phys_t001.000_it=11.nc".toList, 11, 10001 / 10000⟩,
    ⟨"state_phys_t000002.000.nc".toList, 12, 2⟩, by decide +kernel, by decide +kernel,
    by decide +kernel, by decide +kernel⟩

/-- Violation 3: with iterations in the names, the iterations of a thousandth sort as text:
`_it=10` before `_it=9`. -/
theorem C17_order_iterations_violated :
    ∃ (p : Params) (saves : List (ℚ × ℕ)), p.useTEnd = false ∧ p.withIt = true ∧
      saves.Pairwise (fun a b => a.1 < b.1 ∧ a.2 < b.2) ∧
      (runSaves p first saves).Pairwise fun f g => NameLt g.name f.name :=
  ⟨⟨false, 2, true⟩, [(1, 9), (10001 / 10000, 10)], rfl, rfl, by decide +kernel,
    by decide +kernel⟩

/-- Non-vacuity: a run with three saves of a simulation with `t_end = 100`. -/
example : (runSaves ⟨true, 100, false⟩ first [((0 : ℚ), 0), (1 / 2, 7), (100, 1400)]).map File.name =
    ["state_phys_t00000.000.nc".toList, "state_phys_t00000.500.nc".toList,
      "state_phys_t00100.000.nc".toList] := by decide +kernel

example : (runSaves ⟨true, 100, false⟩ first
    [((0 : ℚ), 0), (1 / 2, 7), (100, 1400)]).Pairwise (fun f g => NameLt f.name g.name) :=
  (C17_names_sorted_partial ⟨true, 100, false⟩ rfl rfl (by decide) first first_ok _
    (by decide +kernel) (by decide +kernel) (by decide +kernel)).1

/-- Non-vacuity: a reachable directory with two iterations in the same thousandth; the second
save keeps the first file. -/
example : ∃ fs : List (File ℚ), Reach ⟨true, 100, false⟩ fs ∧ fs.map File.it = [1, 2] ∧
    fs.map File.name = ["state_phys_t00001.000.nc".toList, "state_phys_t001.000_it=2.nc".toList] :=
  ⟨_, .save (first _) (10001 / 10000) 2 (.save none 1 1 .empty (by simp) (by simp))
    (first_ok _).1 (first_ok _).2, by decide +kernel, by decide +kernel⟩

/-! ### C18 -/

/-- With a number, the selected file is at minimal distance from it, the first one among
equals. -/
theorem C18_closest_file (times : List K) (t : K) (i : ℕ)
    (h : nameFileFromTimeApprox times (.num t) = .ok i) :
    IsClosest times t i ∧
      ∀ (j : ℕ) (x y : K), times[i]? = some x → j < i → times[j]? = some y → |x - t| < |y - t| := by
  unfold nameFileFromTimeApprox at h
  split_ifs at h with h0
  simp only [Except.ok.injEq] at h
  obtain ⟨x, h1, h2, h3⟩ := closest_spec times t (by rintro rfl; simp at h0)
  rw [closest, h] at h1
  rw [closest, h] at h3
  refine ⟨⟨x, h1, h2⟩, fun j x' y hx' hj hy => ?_⟩
  rw [h1] at hx'
  cases hx'
  exact h3 j y hj hy

/-- With "last", the selected file has the largest time. -/
theorem C18_last_file [IsStrictOrderedRing K] (times : List K) (i : ℕ)
    (h : nameFileFromTimeApprox times .last = .ok i) :
    ∃ x, times[i]? = some x ∧ ∀ y ∈ times, y ≤ x := by
  unfold nameFileFromTimeApprox at h
  split_ifs at h with h0
  have hne : times ≠ [] := by rintro rfl; simp at h0
  rcases Option.eq_none_or_eq_some times.max? with hc | ⟨m, hc⟩
  · exact absurd (List.max?_eq_none_iff.1 hc) hne
  · simp only [hc, Except.ok.injEq] at h
    obtain ⟨hm, hmax⟩ := List.max?_eq_some_iff.1 hc
    obtain ⟨x, h1, h2, _⟩ := closest_spec times m hne
    rw [closest, h] at h1
    refine ⟨x, h1, fun y hy => ?_⟩
    have := h2 m hm
    simp only [sub_self, abs_zero] at this
    have hx : x = m := by
      have := abs_nonpos_iff.1 this
      exact sub_eq_zero.1 this
    rw [hx]; exact hmax y hy

/-- With `None`, the selected file is the last one in the order of the names. -/
theorem C18_default_file (times : List K) (h : times ≠ []) :
    nameFileFromTimeApprox times .none = .ok (times.length - 1) := by
  have : times.length ≠ 0 := by simpa using h
  simp [nameFileFromTimeApprox, this]

/-- Without any file there is an error for the three kinds of arguments; otherwise a file is
always selected. -/
theorem C18_error_iff_no_file (times : List K) (a : TApprox K) :
    (∃ e, nameFileFromTimeApprox times a = .error e) ↔ times = [] := by
  constructor
  · rintro ⟨e, he⟩
    by_contra hne
    have h0 : times.length ≠ 0 := by simpa using hne
    unfold nameFileFromTimeApprox at he
    rw [if_neg h0] at he
    cases a with
    | none => simp at he
    | last =>
      rcases Option.eq_none_or_eq_some times.max? with hc | ⟨m, hc⟩
      · exact absurd (List.max?_eq_none_iff.1 hc) hne
      · simp [hc] at he
    | num t => simp at he
  · rintro rfl
    exact ⟨_, rfl⟩

/-- `get_closest_time_file`: a file at minimal distance. -/
theorem C18_get_closest_time_file (times : List K) (t : K) (h : times ≠ []) :
    IsClosest times t (closest times t) := by
  obtain ⟨x, h1, h2, _⟩ := closest_spec times t h
  exact ⟨x, h1, h2⟩

/-- When the names are in the order of the times (C17), the default choice is the latest
file. -/
theorem C18_default_is_latest_partial (times : List K) (hs : times.Pairwise (· < ·)) (i : ℕ)
    (h : nameFileFromTimeApprox times .none = .ok i) :
    ∃ x, times[i]? = some x ∧ ∀ y ∈ times, y ≤ x := by
  unfold nameFileFromTimeApprox at h
  split_ifs at h with h0
  simp only [Except.ok.injEq] at h
  subst h
  have hlt : times.length - 1 < times.length := by omega
  refine ⟨times[times.length - 1], List.getElem?_eq_getElem hlt, fun y hy => ?_⟩
  obtain ⟨j, hj, rfl⟩ := List.getElem_of_mem hy
  rcases Nat.lt_or_ge j (times.length - 1) with hlt' | hge
  · exact (List.pairwise_iff_getElem.1 hs j _ hj hlt hlt').le
  · have : j = times.length - 1 := by omega
    subst this; exact le_rfl

/-- Insertion of a file in a list sorted by name. -/
def insertName (f : File ℚ) : List (File ℚ) → List (File ℚ)
  | [] => [f]
  | g :: l => if NameLt g.name f.name then g :: insertName f l else f :: g :: l

/-- The listing of a directory, sorted by name. -/
def listing (fs : List (File ℚ)) : List (File ℚ) := fs.foldr insertName []

/-- Violation: a run without USE_T_END saved at 999 and 1000; the default choice is the file
of time 999. -/
theorem C18_default_is_latest_violated :
    ∃ (p : Params) (fs : List (File ℚ)), Reach p fs ∧
      ∃ i x, nameFileFromTimeApprox ((listing fs).map fun f => (parseApprox f.name : ℚ)) .none
          = .ok i ∧
        ((listing fs).map File.time)[i]? = some x ∧ ∃ f ∈ fs, x < f.time := by
  refine ⟨⟨false, 2000, false⟩, runSaves ⟨false, 2000, false⟩ first [(999, 10), (1000, 11)],
    .save (first _) 1000 11 (.save none 999 10 .empty (by simp) (by simp))
      (first_ok _).1 (first_ok _).2, 1, 999, ?_, ?_, ?_⟩
  · rw [C18_default_file _ (by decide +kernel)]
    decide +kernel
  · decide +kernel
  · exact ⟨⟨"state_phys_t1000.000.nc".toList, 11, 1000⟩, by decide +kernel, by decide +kernel⟩

/-- The remembered list of times is the current one as long as files are only added. -/
theorem C18_update_times_partial {A : Type*} (known : Option (List A)) (dir : List A)
    (h : ∀ l, known = some l → l.Sublist dir) : updateTimes known dir = dir := by
  unfold updateTimes
  cases known with
  | none => rfl
  | some l =>
    simp only
    split_ifs with hl
    · exact (h l rfl).eq_of_length hl
    · rfl

/-- Violation: when a file is removed and another one is added, the list is not refreshed. -/
theorem C18_update_times_violated :
    ∃ known dir : List ℕ, known.Pairwise (· < ·) ∧ dir.Pairwise (· < ·) ∧
      updateTimes (some known) dir ≠ dir :=
  ⟨[1, 2], [2, 3], by decide, by decide, by decide⟩

example : nameFileFromTimeApprox [(0 : ℚ), 1, 2, 3] (.num (5 / 2)) = .ok 2 := by decide +kernel
example : nameFileFromTimeApprox [(0 : ℚ), 7, 2, 3] .last = .ok 1 := by decide +kernel
example : nameFileFromTimeApprox [(0 : ℚ), 7, 2, 3] .none = .ok 3 := by decide +kernel

/-! ### C19 -/

section Interp
variable [IsStrictOrderedRing K] {V : Type*} [AddCommGroup V] [Module K V]

theorem isclose_refl (a : K) : isclose a a := by
  unfold isclose
  rw [sub_self, abs_zero, max_self]
  positivity

/-- Between the first and the last saved times, and not (nearly) at a saved time: the result
is on the straight line between the two consecutive files around the requested time. -/
theorem C19_interpolation_partial (times : List K) (field : ℕ → V) (t : K)
    (hs : times.Pairwise (· < ·)) (h2 : 2 ≤ times.length)
    (hlo : ∀ x, times[0]? = some x → x ≤ t) (hhi : ∀ x, times[times.length - 1]? = some x → t ≤ x)
    (hnc : ∀ x ∈ times, ¬ isclose t x) :
    ∃ (i : ℕ) (t0 t1 : K), times[i]? = some t0 ∧ times[i + 1]? = some t1 ∧ t0 < t ∧ t < t1 ∧
      fieldInterp times field t = .ok (line t0 t1 (field i) (field (i + 1)) t) := by
  have hne : times ≠ [] := by rintro rfl; simp at h2
  obtain ⟨tc, h1, hmin, -⟩ := closest_spec times t hne
  set ic := closest times t with hic
  have hicl : ic < times.length := by
    by_contra hcon
    rw [List.getElem?_eq_none (not_lt.1 hcon)] at h1
    simp at h1
  have hget : ∀ i x, times[i]? = some x → times.getD i 0 = x := fun i x hx => by simp [hx]
  have htc := hnc tc (List.mem_of_getElem? h1)
  have hlt : ∀ (i j : ℕ) (x y : K), i < j → times[i]? = some x → times[j]? = some y → x < y := by
    intro i j x y hij hx hy
    obtain ⟨hi, rfl⟩ := List.getElem?_eq_some_iff.1 hx
    obtain ⟨hj, rfl⟩ := List.getElem?_eq_some_iff.1 hy
    exact List.pairwise_iff_getElem.1 hs i j hi hj hij
  have hexists : ∀ i, i < times.length → ∃ x, times[i]? = some x := fun i hi =>
    ⟨_, List.getElem?_eq_getElem hi⟩
  -- the two consecutive files
  have key : ∀ (i : ℕ) (t0 t1 : K), times[i]? = some t0 → times[i + 1]? = some t1 →
      t0 ≤ t → t ≤ t1 → t0 < t ∧ t < t1 ∧
      (1 - |t - times.getD i 0| / (times.getD (i + 1) 0 - times.getD i 0)) • field i +
        (1 - |t - times.getD (i + 1) 0| / (times.getD (i + 1) 0 - times.getD i 0)) • field (i + 1)
        = line t0 t1 (field i) (field (i + 1)) t := by
    intro i t0 t1 e0 e1 l0 l1
    have hne0 : t0 ≠ t := fun h => hnc t0 (List.mem_of_getElem? e0) (h ▸ isclose_refl t0)
    have hne1 : t ≠ t1 := fun h => hnc t1 (List.mem_of_getElem? e1) (h ▸ isclose_refl t)
    refine ⟨lt_of_le_of_ne l0 hne0, lt_of_le_of_ne l1 hne1, ?_⟩
    have hd : 0 < t1 - t0 := sub_pos.2 (hlt i (i + 1) t0 t1 (by omega) e0 e1)
    rw [hget i t0 e0, hget (i + 1) t1 e1, abs_of_nonneg (by linarith), abs_of_nonpos (by linarith)]
    have hw : 1 - -(t - t1) / (t1 - t0) = (t - t0) / (t1 - t0) := by
      field_simp; ring
    rw [hw, line, sub_smul, one_smul, smul_sub]
    abel
  unfold fieldInterp
  have hl0 : times.length ≠ 0 := by omega
  have hl1 : times.length ≠ 1 := by omega
  simp only [if_neg hl0, ← hic, hget ic tc h1, htc, hl1, or_self, if_false]
  by_cases hA : ic = times.length - 1
  · obtain ⟨x, hx⟩ := hexists (ic - 1) (by omega)
    have hxt : x ≤ t := by
      by_contra hcon
      have hxl := hlt (ic - 1) ic x tc (by omega) hx h1
      have hm := hmin x (List.mem_of_getElem? hx)
      rw [abs_of_pos (by linarith), abs_of_pos (by linarith)] at hm
      linarith
    have e1 : times[ic - 1 + 1]? = some tc := by rw [Nat.sub_add_cancel (by omega)]; exact h1
    obtain ⟨k1, k2, k3⟩ := key (ic - 1) x tc hx e1 hxt (hhi tc (hA ▸ h1))
    refine ⟨ic - 1, x, tc, hx, e1, k1, k2, ?_⟩
    rw [Nat.sub_add_cancel (by omega : 1 ≤ ic)] at k3 ⊢
    rw [if_pos hA]
    simp only
    rw [k3]
  · rw [if_neg hA]
    obtain ⟨y, hy⟩ := hexists (ic + 1) (by omega)
    by_cases hB : tc < t ∨ ic = 0
    · have htct : tc ≤ t := by
        rcases hB with hB | hB
        · exact hB.le
        · exact hlo tc (hB ▸ h1)
      have hty : t ≤ y := by
        by_contra hcon
        have hyl := hlt ic (ic + 1) tc y (by omega) h1 hy
        have hm := hmin y (List.mem_of_getElem? hy)
        rw [abs_of_neg (by linarith), abs_of_neg (by linarith)] at hm
        linarith
      obtain ⟨k1, k2, k3⟩ := key ic tc y h1 hy htct hty
      refine ⟨ic, tc, y, h1, hy, k1, k2, ?_⟩
      rw [if_pos hB]
      simp only
      rw [← k3, hget ic tc h1]
    · rw [if_neg hB]
      push Not at hB
      have htne : t ≠ tc := fun h => htc (h ▸ isclose_refl t)
      have htlt : t < tc := lt_of_le_of_ne hB.1 htne
      rw [if_pos htlt]
      obtain ⟨x, hx⟩ := hexists (ic - 1) (by omega)
      have hpos : 1 ≤ ic := by omega
      have hxt : x ≤ t := by
        by_contra hcon
        have hxl := hlt (ic - 1) ic x tc (by omega) hx h1
        have hm := hmin x (List.mem_of_getElem? hx)
        rw [abs_of_pos (by linarith), abs_of_pos (by linarith)] at hm
        linarith
      have e1 : times[ic - 1 + 1]? = some tc := by rw [Nat.sub_add_cancel hpos]; exact h1
      obtain ⟨k1, k2, k3⟩ := key (ic - 1) x tc hx e1 hxt htlt.le
      refine ⟨ic - 1, x, tc, hx, e1, k1, k2, ?_⟩
      rw [Nat.sub_add_cancel hpos] at k3 ⊢
      simp only
      rw [k3]

/-- At a saved time, the saved field itself is returned. -/
theorem C19_at_saved_time (times : List K) (field : ℕ → V) (t : K) (i : ℕ)
    (hs : times.Pairwise (· < ·)) (hi : times[i]? = some t) :
    fieldInterp times field t = .ok (field i) := by
  have hmem := List.mem_of_getElem? hi
  have hne : times ≠ [] := by rintro rfl; simp at hi
  obtain ⟨tc, h1, hmin, -⟩ := closest_spec times t hne
  have h0 := hmin t hmem
  rw [sub_self, abs_zero] at h0
  have htc : tc = t := sub_eq_zero.1 (abs_nonpos_iff.1 h0)
  have hic : closest times t = i := by
    rw [htc] at h1
    obtain ⟨a, ha⟩ := List.getElem?_eq_some_iff.1 h1
    obtain ⟨b, hb⟩ := List.getElem?_eq_some_iff.1 hi
    rcases Nat.lt_trichotomy (closest times t) i with hlt | he | hlt
    · have := List.pairwise_iff_getElem.1 hs _ _ a b hlt
      rw [ha, hb] at this; exact absurd this (lt_irrefl _)
    · exact he
    · have := List.pairwise_iff_getElem.1 hs _ _ b a hlt
      rw [ha, hb] at this; exact absurd this (lt_irrefl _)
  have hl0 : times.length ≠ 0 := by simpa using hne
  unfold fieldInterp
  have hD : times.getD i 0 = t := by simp [hi]
  simp only [if_neg hl0, hic, hD]
  rw [if_pos (Or.inl (isclose_refl t))]

/-- Without file: FileNotFoundError, and no other error ever occurs. -/
theorem C19_error_iff_no_file (times : List K) (field : ℕ → V) (t : K) :
    (∃ e, fieldInterp times field t = .error e) ↔ times = [] := by
  constructor
  · rintro ⟨e, he⟩
    by_contra hne
    have hl0 : times.length ≠ 0 := by simpa using hne
    unfold fieldInterp at he
    simp only [if_neg hl0] at he
    generalize times.getD (closest times t) 0 = tc at he
    by_cases hcl : isclose t tc ∨ times.length = 1
    · simp [hcl] at he
    · simp only [hcl, if_false] at he
      have htne : t ≠ tc := fun h => hcl (Or.inl (h ▸ isclose_refl t))
      split_ifs at he; simp_all
      rename_i h1 h2 h3
      exact absurd (le_antisymm h2.1 h3) htne
  · rintro rfl
    exact ⟨"FileNotFoundError", rfl⟩

/-- Violation: after the last saved time, the weights do not sum to one. A field constant in
time `a` is returned multiplied by `1 - 2 (t - t1) / (t1 - t0)`, where `t0 < t1` are the two
last times. -/
theorem C19_extrapolation_violated (t0 t1 t : K) (a : V) (h01 : t0 < t1) (ht : t1 < t)
    (hnc : ¬ isclose t t1) :
    fieldInterp [t0, t1] (fun _ => a) t = .ok ((1 - 2 * ((t - t1) / (t1 - t0))) • a) := by
  have hic : closest [t0, t1] t = 1 := by
    have : ¬ |t0 - t| ≤ |t1 - t| := by
      rw [abs_of_neg (by linarith), abs_of_neg (by linarith)]; intro; linarith
    simp [closest, argmin, this]
  have hd : t1 - t0 ≠ 0 := (sub_pos.2 h01).ne'
  unfold fieldInterp
  simp only [List.length_cons, List.length_nil, hic]
  norm_num
  simp only [hnc, if_false]
  rw [abs_of_pos (by linarith), abs_of_pos (by linarith), ← add_smul]
  congr 2
  field_simp
  ring

end Interp

/-- Non-vacuity: three files, a time between the second and the third. -/
example : fieldInterp [(0 : ℚ), 1, 3] (fun i => ([10, 20, 60].getD i 0 : ℚ)) 2 = .ok 40 := by
  decide +kernel

example : ∃ (i : ℕ) (t0 t1 : ℚ), [(0 : ℚ), 1, 3][i]? = some t0 ∧ [(0 : ℚ), 1, 3][i + 1]? = some t1 ∧
    t0 < 2 ∧ 2 < t1 ∧ fieldInterp [(0 : ℚ), 1, 3] (fun i => ([10, 20, 60].getD i 0 : ℚ)) 2
      = .ok (line t0 t1 ([10, 20, 60].getD i 0 : ℚ) ([10, 20, 60].getD (i + 1) 0 : ℚ) 2) :=
  C19_interpolation_partial _ (fun i => ([10, 20, 60].getD i 0 : ℚ)) 2 (by decide +kernel)
    (by decide +kernel) (by simp) (by simp; norm_num) (by decide +kernel)

/-- The extrapolated value of a constant field 1 at one interval after the end is -1. -/
example : fieldInterp [(0 : ℚ), 1] (fun _ => (1 : ℚ)) 2 = .ok (-1) := by decide +kernel

end Verif.PhysFiles
