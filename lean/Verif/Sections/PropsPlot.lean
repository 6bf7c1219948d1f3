import Verif.Sections.Lemmas
import Mathlib.Algebra.Order.Ring.Rat
import Mathlib.Algebra.Order.Field.Rat

/-! # C70: which field is plotted, and the time averages -/

namespace Verif.Sections

open Verif.PhysFiles (Str argmin isclose fieldInterp closest)

set_option linter.unusedSectionVars false

variable {Q : Type*} [Field Q] [LinearOrder Q] [IsStrictOrderedRing Q]

/-! ### The key -/

/-- The key chosen: the preferred one if it can be plotted; otherwise another key which can be plotted. A computable
key is chosen only if it can be computed (full operators and no time given). The only error is for a solver without
variable. -/
theorem C70_key (coarse forbid : Bool) (p : Str) (phys comp : List Str) :
    (phys = [] ∧ (coarse = true ∨ forbid = true ∨ p ∉ comp) →
      getKey coarse forbid p phys comp = .error .index) ∧
    (phys ≠ [] → ∃ k, getKey coarse forbid p phys comp = .ok k ∧
      (k ∈ phys ∨ (coarse = false ∧ forbid = false ∧ k ∈ comp)) ∧
      ((p ∈ phys ∨ (coarse = false ∧ forbid = false ∧ p ∈ comp)) → k = p)) := by
  have hmem : ∀ k, (k ∈ (if !coarse && !forbid then phys ++ comp else phys)) ↔
      (k ∈ phys ∨ (coarse = false ∧ forbid = false ∧ k ∈ comp)) := by
    intro k; cases coarse <;> cases forbid <;> simp
  refine ⟨fun ⟨h1, h2⟩ => ?_, fun hne => ?_⟩
  · subst h1
    unfold getKey
    simp only
    rw [if_neg]
    rw [hmem]
    rintro (h | ⟨ha, hb, hc⟩)
    · simp at h
    · rcases h2 with h | h | h
      · simp [ha] at h
      · simp [hb] at h
      · exact h hc
  · unfold getKey
    simp only
    by_cases hp : p ∈ (if !coarse && !forbid then phys ++ comp else phys)
    · rw [if_pos hp]
      exact ⟨p, rfl, (hmem p).1 hp, fun _ => rfl⟩
    · rw [if_neg hp]
      obtain ⟨k0, l, rfl⟩ := List.exists_cons_of_ne_nil hne
      simp only
      refine ⟨_, rfl, ?_, fun h => absurd ((hmem p).2 h) hp⟩
      rw [← hmem]
      set ok := (if !coarse && !forbid then k0 :: l ++ comp else k0 :: l) with hok
      have h0 : k0 ∈ ok := by rw [hok]; cases coarse <;> cases forbid <;> simp
      have : ∀ (ks : List Str) (c : Str), c ∈ ok →
          ks.foldl (fun cur key => if key ∈ ok then key else cur) c ∈ ok := by
        intro ks
        induction ks with
        | nil => intro c hc; exact hc
        | cons a ks ih =>
          intro c hc
          simp only [List.foldl_cons]
          apply ih
          split_ifs with h
          · exact h
          · exact hc
      exact this _ _ h0

/-! ### What is plotted -/

/-- Without time and with full operators, the state is plotted; with a time, a variable of the state is read from the
files at that time, and any other key is refused. -/
theorem C70_plot (p : Str) (phys comp : List Str) (k : Str) (t : Q) :
    plot3d (Q := Q) false p phys comp (.key k) none = .ok (.state k) ∧
    plot1d (Q := Q) false p phys comp (.key k) none = .ok (.state k) ∧
    (k ∈ phys → ∀ coarse, plot3d coarse p phys comp (.key k) (some t) = .ok (.files k (some t)) ∧
      plot1d coarse p phys comp (.key k) (some t) = .ok (.files k (some t)) ∧
      plot3d (Q := Q) true p phys comp (.key k) none = .ok (.files k none)) ∧
    (k ∉ phys → ∀ coarse, plot3d coarse p phys comp (.key k) (some t) = .error .value ∧
      plot1d coarse p phys comp (.key k) (some t) = .error .value) := by
  refine ⟨by simp [plot3d, keyOf, FieldArg.ready], by simp [plot1d, keyOf, FieldArg.ready], fun h coarse => ?_,
    fun h coarse => ?_⟩
  · simp [plot3d, plot1d, keyOf, FieldArg.ready, h]
  · simp [plot3d, plot1d, keyOf, FieldArg.ready, h]

/-- In two dimensions the time is never after the last file, and it is the requested one otherwise; without time and
with the operators of `load_sim_for_plot`, it is the latest time. -/
theorem C70_plot2d_time (coarse : Bool) (times : List Q) (p : Str) (phys comp : List Str) (k : Str) (hk : k ∈ phys)
    (tmax : Q) (hm : tmax ∈ times) (hmax : ∀ t ∈ times, t ≤ tmax) (t : Q) :
    plot2d coarse times p phys comp (.key k) (some t) = .ok (.files k (some (min t tmax))) ∧
      plot2d true times p phys comp (.key k) none = .ok (.files k (some tmax)) ∧
      plot2d false times p phys comp (.key k) none = .ok (.state k) := by
  have hmx : times.max? = some tmax := by
    rw [List.max?_eq_some_iff]
    exact ⟨hm, hmax⟩
  refine ⟨?_, ?_, ?_⟩
  · simp only [plot2d, keyOf, FieldArg.ready, hmx, hk]
    by_cases h : tmax < t
    · simp [h, min_eq_right h.le]
    · simp [h, min_eq_left (not_lt.1 h)]
  · simp [plot2d, keyOf, FieldArg.ready, hmx, hk]
  · simp [plot2d, keyOf, FieldArg.ready]

/-- Without preferred key or with one which cannot be plotted, `plot(time=t)` always finds a variable to plot. -/
theorem C70_plot_default (coarse : Bool) (p : Str) (phys comp : List Str) (t : Q) (h : phys ≠ []) :
    ∃ k ∈ phys, plot3d coarse p phys comp .none (some t) = .ok (.files k (some t)) := by
  obtain ⟨k, h1, h2, -⟩ := (C70_key coarse true p phys comp).2 h
  have h3 : k ∈ phys := by simpa using h2
  exact ⟨k, h3, by simp [plot3d, keyOf, h1, FieldArg.ready, h3]⟩

/-- Not true of the code: an array can be plotted, as documented. `plot(array)` raises ValueError for every solver,
time and file. -/
theorem C70_array_violated (coarse : Bool) (p : Str) (phys comp : List Str) (times : List Q) (time : Option Q)
    (h : "given array".toList ∉ phys) (ht : times ≠ []) :
    plot1d coarse p phys comp .array time = .error .value ∧
      plot2d coarse times p phys comp .array time = .error .value ∧
      plot3d coarse p phys comp .array time = .error .value := by
  obtain ⟨tm, htm⟩ : ∃ tm, times.max? = some tm := by
    cases hh : times.max? with
    | none => exact absurd (List.max?_eq_none_iff.1 hh) ht
    | some a => exact ⟨a, rfl⟩
  refine ⟨?_, ?_, ?_⟩
  · unfold plot1d keyOf; simp only [FieldArg.ready]; simp only [if_neg h]; simp
  · unfold plot2d keyOf; simp only [FieldArg.ready, htm]; simp only [if_neg h]; simp
  · unfold plot3d keyOf; simp only [FieldArg.ready]; simp only [if_neg h]; simp

/-! ### Time averages -/

variable [FloorRing Q] {V : Type*} [AddCommGroup V] [Module Q V]

/-- `plot_mean` averages the files whose time is in the interval, each with the same weight, if the times of the files
are distinct and sorted and, for a running simulation, if none of them is the present time. -/
theorem C70_plot_mean_partial (coarse : Bool) (tnow : Q) (st : V) (times : List Q) (sec : ℕ → V) (a b : Q)
    (hs : times.Pairwise (· < ·)) (hc : coarse = false → ∀ t ∈ times, ¬ isclose t tnow)
    (hne : ∃ t ∈ times, a ≤ t ∧ t ≤ b) :
    ∃ S : Finset ℕ, (∀ i, i ∈ S ↔ ∃ t, times[i]? = some t ∧ a ≤ t ∧ t ≤ b) ∧ S.Nonempty ∧
      plotMean coarse tnow st times sec (some a) (some b) = .ok ((1 / (S.card : Q)) • ∑ i ∈ S, sec i) := by
  classical
  -- the selected times and their indices
  have hget : ∀ t ∈ times, fieldAtTime coarse tnow st times sec t = .ok (sec (times.idxOf t)) := by
    intro t ht
    have hi : times[times.idxOf t]? = some t := by
      rw [List.getElem?_eq_getElem (List.idxOf_lt_length_iff.2 ht), List.getElem_idxOf]
    have h1 := Verif.PhysFiles.C19_at_saved_time times sec t _ hs hi
    unfold fieldAtTime
    rw [if_neg, h1]
    rintro ⟨hcf, hcl⟩
    exact hc hcf t ht hcl
  set sel := times.filter fun t => decide (a ≤ t ∧ t ≤ b) with hsel
  have hsub : ∀ t ∈ sel, t ∈ times := fun t ht => (List.mem_filter.1 ht).1
  have hnd : sel.Nodup := (hs.imp ne_of_lt).filter _
  have hinj : ∀ t ∈ sel, ∀ t' ∈ sel, times.idxOf t = times.idxOf t' → t = t' := by
    intro t ht t' ht' h
    exact (List.idxOf_inj (hsub t ht)).1 h
  have hnd2 : (sel.map times.idxOf).Nodup := hnd.map_on fun t ht t' ht' h => hinj t ht t' ht' h
  refine ⟨(sel.map times.idxOf).toFinset, fun i => ?_, ?_, ?_⟩
  · rw [List.mem_toFinset, List.mem_map]
    constructor
    · rintro ⟨t, ht, rfl⟩
      have htt := hsub t ht
      refine ⟨t, ?_, by simpa using (List.mem_filter.1 ht).2⟩
      rw [List.getElem?_eq_getElem (List.idxOf_lt_length_iff.2 htt), List.getElem_idxOf]
    · rintro ⟨t, hi, hab⟩
      have hmem := List.mem_of_getElem? hi
      refine ⟨t, List.mem_filter.2 ⟨hmem, by simpa using hab⟩, ?_⟩
      obtain ⟨hlt, rfl⟩ := List.getElem?_eq_some_iff.1 hi
      exact List.Nodup.idxOf_getElem (hs.imp ne_of_lt) i hlt
  · obtain ⟨t, ht, hab⟩ := hne
    exact ⟨times.idxOf t, by
      rw [List.mem_toFinset]
      exact List.mem_map_of_mem (List.mem_filter.2 ⟨ht, by simpa using hab⟩)⟩
  · have hsum := sumFields_ok (fieldAtTime coarse tnow st times sec) (fun t => sec (times.idxOf t)) sel
      fun t ht => hget t (hsub t ht)
    have hcard : (sel.map times.idxOf).toFinset.card = sel.length := by
      rw [List.toFinset_card_of_nodup hnd2, List.length_map]
    have hsum2 : ∑ i ∈ (sel.map times.idxOf).toFinset, sec i = (sel.map fun t => sec (times.idxOf t)).sum := by
      rw [List.sum_toFinset _ hnd2, List.map_map]
      rfl
    have hselne : sel ≠ [] := by
      obtain ⟨t, ht, hab⟩ := hne
      exact List.ne_nil_of_mem (List.mem_filter.2 ⟨ht, by simpa using hab⟩)
    simp only [plotMean, ← hsel]
    obtain ⟨t0, l0, hl0⟩ := List.exists_cons_of_ne_nil hselne
    rw [hcard, hsum2]
    rw [hl0] at hsum ⊢
    simp only [hsum]

/-- The bounds of the average by default are the first and the last times: all the files are averaged. -/
theorem C70_plot_mean_default (coarse : Bool) (tnow : Q) (st : V) (times : List Q) (sec : ℕ → V) (t0 t1 : Q)
    (h0 : t0 ∈ times) (h1 : t1 ∈ times) (hmin : ∀ t ∈ times, t0 ≤ t) (hmax : ∀ t ∈ times, t ≤ t1) :
    plotMean coarse tnow st times sec none none = plotMean coarse tnow st times sec (some t0) (some t1) := by
  have e0 : times.min? = some t0 := by rw [List.min?_eq_some_iff]; exact ⟨h0, hmin⟩
  have e1 : times.max? = some t1 := by rw [List.max?_eq_some_iff]; exact ⟨h1, hmax⟩
  simp only [plotMean, e0, e1]

/-- An interval without file raises IndexError. -/
theorem C70_plot_mean_empty (coarse : Bool) (tnow : Q) (st : V) (times : List Q) (sec : ℕ → V) (a b : Q)
    (h : ∀ t ∈ times, ¬ (a ≤ t ∧ t ≤ b)) :
    plotMean coarse tnow st times sec (some a) (some b) = .error .index := by
  have : times.filter (fun t => decide (a ≤ t ∧ t ≤ b)) = [] := by
    rw [List.filter_eq_nil_iff]
    intro t ht
    simpa using h t ht
  simp only [plotMean, this]

/-- Not true of the code: all the files of the interval contribute to the average. With two files of the same
thousandth of time (files `..._it=...`), the first one is read twice and the other one never. -/
theorem C70_plot_mean_violated :
    plotMean (Q := ℚ) (V := ℚ) true 0 0 [1, 1] (fun i => i) (some 0) (some 2) = .ok 0 ∧
      (1 / 2 : ℚ) * ((0 : ℕ) + (1 : ℕ)) ≠ 0 := by
  constructor
  · have h : (fieldInterp [1, 1] (fun i : ℕ => (i : ℚ)) (1 : ℚ)) = .ok 0 := by
      have hc : closest [1, 1] (1 : ℚ) = 0 := by decide +kernel
      have hi : isclose (1 : ℚ) 1 := by norm_num [isclose]
      simp [fieldInterp, hc, hi]
    have hf : fieldAtTime true (0 : ℚ) (0 : ℚ) [1, 1] (fun i : ℕ => (i : ℚ)) 1 = .ok 0 := by
      simp [fieldAtTime, h]
    have hsel : ([1, 1] : List ℚ).filter (fun t => decide ((0 : ℚ) ≤ t ∧ t ≤ 2)) = [1, 1] := by decide +kernel
    simp only [plotMean, hsel, sumFields, hf]
    simp
  · norm_num

/-- Not true of the code: before the first file, the field shown for a field constant in time is this field. The
weights sum to `1 - 2 (t0 - t) / (t1 - t0)`. In one, two and three dimensions, `plot(time=t)` reads the files in
this way for every `t` before the first file. -/
theorem C70_before_first_violated (t0 t1 t : Q) (a : V) (h01 : t0 < t1) (ht : t < t0) (hnc : ¬ isclose t t0) :
    fieldInterp [t0, t1] (fun _ => a) t = .ok ((1 - 2 * ((t0 - t) / (t1 - t0))) • a) := by
  have hc : closest [t0, t1] t = 0 := by
    have : |t0 - t| ≤ |t1 - t| := by
      rw [abs_of_pos (by linarith), abs_of_pos (by linarith)]; linarith
    simp [closest, argmin, this]
  have hd : t1 - t0 ≠ 0 := by linarith
  simp only [fieldInterp, hc]
  simp only [List.length_cons, List.length_nil, List.getD_cons_zero, hnc]
  simp only [show ¬ (0 + 1 + 1 = 0) by omega, show ¬ (0 + 1 + 1 = 1) by omega, show ¬ (0 = 0 + 1 + 1 - 1) by omega,
    if_false, or_false, or_true, if_true, List.getD_cons_zero, List.getD_cons_succ, zero_add]
  rw [← add_smul]
  rw [abs_of_neg (by linarith), abs_of_neg (by linarith)]
  congr 2
  field_simp
  ring

/-- Non-vacuity: the average of two of three files. -/
example : plotMean (Q := ℚ) (V := ℚ) true 0 0 [1, 2, 3] (fun i => 10 * i) (some 2) (some 5) = .ok 15 := by
  have hs : ([1, 2, 3] : List ℚ).Pairwise (· < ·) := by decide +kernel
  have g1 := Verif.PhysFiles.C19_at_saved_time (V := ℚ) [1, 2, 3] (fun i => 10 * (i : ℚ)) 2 1 hs rfl
  have g2 := Verif.PhysFiles.C19_at_saved_time (V := ℚ) [1, 2, 3] (fun i => 10 * (i : ℚ)) 3 2 hs rfl
  have hsel : ([1, 2, 3] : List ℚ).filter (fun t => decide ((2 : ℚ) ≤ t ∧ t ≤ 5)) = [2, 3] := by decide +kernel
  simp only [plotMean, hsel, sumFields, fieldAtTime, g1, g2]
  norm_num

/-- When the preferred key cannot be plotted: the vertical vorticity, else the vorticity, else `q`, else the first
variable of the solver. -/
theorem C70_key_default (coarse forbid : Bool) (p k0 : Str) (phys comp : List Str)
    (can : Str → Prop) (hcan : ∀ k, can k ↔ k ∈ k0 :: phys ∨ (coarse = false ∧ forbid = false ∧ k ∈ comp))
    (hp : ¬can p) :
    (can "rotz".toList → getKey coarse forbid p (k0 :: phys) comp = .ok "rotz".toList) ∧
    (¬can "rotz".toList → can "rot".toList → getKey coarse forbid p (k0 :: phys) comp = .ok "rot".toList) ∧
    (¬can "rotz".toList → ¬can "rot".toList → can "q".toList →
      getKey coarse forbid p (k0 :: phys) comp = .ok "q".toList) ∧
    (¬can "rotz".toList → ¬can "rot".toList → ¬can "q".toList → getKey coarse forbid p (k0 :: phys) comp = .ok k0) := by
  have hmem : ∀ k, (k ∈ (if !coarse && !forbid then k0 :: phys ++ comp else k0 :: phys)) ↔ can k := by
    intro k; rw [hcan]; cases coarse <;> cases forbid <;> simp [or_assoc]
  have key : getKey coarse forbid p (k0 :: phys) comp =
      .ok ((["q", "rot", "rotz"].map String.toList).foldl
        (fun cur key => if key ∈ (if !coarse && !forbid then k0 :: phys ++ comp else k0 :: phys) then key else cur) k0) := by
    unfold getKey
    simp only
    rw [if_neg (by rw [hmem]; exact hp)]
  rw [key]
  simp only [List.map_cons, List.map_nil, List.foldl_cons, List.foldl_nil]
  simp only [← hmem]
  refine ⟨fun h => by rw [if_pos h], fun h1 h2 => by rw [if_neg h1, if_pos h2],
    fun h1 h2 h3 => by rw [if_neg h1, if_neg h2, if_pos h3], fun h1 h2 h3 => by rw [if_neg h1, if_neg h2, if_neg h3]⟩

example : getKey false false "b".toList ["ux".toList, "uy".toList] ["rot".toList, "rotz".toList, "q".toList]
    = .ok "rotz".toList := by decide

end Verif.Sections
