import Verif.MeansFile.Lemmas
import Mathlib.Tactic.IntervalCases

/-! # C60: what is loaded from the file of the spatial means is what has been saved

`saves nm s.format o [] vs` is the file after `vs.length` calls of `_save_one_time`, with the
options `o`; `load` returns the arrays, given here index by index. -/

namespace Verif.MeansFile

open Verif.PhysFiles (Str)

set_option linter.unusedSectionVars false

section
variable {K : Type*} [Zero K] {nm : Num K} {rd : Str → K → K}

/-- Numbers written in decimal digits, for the examples. -/
def exNum : Num ℕ where
  fmt := fun _ x => Verif.PhysFiles.digs x
  pyFloat := fun w => some (Verif.PhysFiles.digitsVal w)

theorem exNum_ok : NumOk exNum fun _ x => x := by
  intro n x
  refine ⟨0, Verif.PhysFiles.digs x, rfl, Verif.PhysFiles.digs_ne_nil x, ?_, ?_⟩
  · intro c hc
    have := Verif.PhysFiles.isDig_bounds (Verif.PhysFiles.digs_isDig x c hc)
    by_contra hw
    rw [Bool.not_eq_false] at hw
    simp only [isWs, Bool.or_eq_true, beq_iff_eq] at hw
    rcases hw with ((((rfl | rfl) | rfl) | rfl) | rfl) | rfl <;> revert this <;> decide
  · simp [exNum, Verif.PhysFiles.digitsVal_digs]

/-- A state for the examples: the quantity of which the name has `l` characters is `a + l`. -/
def exV (a : ℕ) : Str → ℕ := fun n => a + n.length

/-- Loading gives back, for each saved time and each quantity, the number as it was written; the
injection rates of the three-dimensional solvers are zero without forcing. -/
theorem C60_round_trip (h : NumOk nm rd) (s : Solver) (o : Opts) (vs : List (Str → K))
    (hne : vs ≠ []) :
    load nm s.format o.forcing (saves nm s.format o [] vs) =
      .ok (vs.map fun v => s.arrays o (rounded rd v)) := by
  have hF := format_ok s
  have hlen : vs.length ≠ 0 := by simpa using hne
  rw [saves_eq, List.nil_append, load_chunks h hF _ (by
    intro c hc
    obtain ⟨v, _, rfl⟩ := List.mem_map.1 hc
    exact full_sub o v) o.forcing (by
    intro k hk ho
    rw [cols_full o vs hk, written, opt_written s k hk ho, if_pos rfl]
    exact hne)]
  have hp : colPoints s.format (vs.map (full s.format o)) = .ok vs.length := by
    unfold colPoints
    simp only
    rw [cols_full o vs hF.time, if_pos (time_written o)]
    have : (s.format.kinds.all fun k =>
        (cols (vs.map (full s.format o)) k).length = 0 ||
          (cols (vs.map (full s.format o)) k).length = vs.length) = true := by
      rw [List.all_eq_true]
      intro k hk
      rw [cols_full o vs hk]
      by_cases hw : written o k = true <;> simp [hw]
    rw [if_pos this]
    split_ifs <;> rfl
  rw [hp]
  simp only
  refine allOk_range _ _ _ (by simp) ?_
  intro il hil
  have hil' : il < vs.length := by simpa using hil
  rw [colRow_eq s o _ il vs[il]]
  · simp
  · intro k hk
    apply used_of_cols
    rw [cols_full o vs hk]
    by_cases hw : written o k = true
    · simp [hw, hlen]
    · simp [hw]
  · intro k hk hu
    refine ⟨vs[il], ?_, fun _ _ => rfl⟩
    rw [cols_full o vs hk]
    rw [if_pos (used_written s o k hk hu), List.getElem?_eq_getElem hil']

example : load exNum Solver.ns3d.format true
    (saves exNum Solver.ns3d.format ⟨true, true, false⟩ [] [exV 3, exV 14]) =
      .ok [Solver.ns3d.arrays ⟨true, true, false⟩ (exV 3),
        Solver.ns3d.arrays ⟨true, true, false⟩ (exV 14)] :=
  C60_round_trip exNum_ok .ns3d ⟨true, true, false⟩ [exV 3, exV 14] (by simp)

example : (Solver.ns3d.arrays ⟨true, true, false⟩ (exV 3)).lookup "epsK4".toList = some 8 := by
  decide +kernel

/-- For the solvers ns3d and ns3d.strat, when the writing of the last record has been interrupted
between two lines (or is still in progress), and there is a complete record before, loading gives
the complete records.  What is missing: an interruption in the middle of a line
(`C60_cut_number_violated`), in the first record (`C60_first_record_violated`), the other solvers
(`C60_incomplete_violated`), and a restart after the interruption
(`C60_crash_restart_violated`). -/
theorem C60_incomplete_partial (h : NumOk nm rd) (s : Solver) (hs : s.careful) (o : Opts)
    (vs : List (Str → K)) (hne : vs ≠ []) (v : Str → K) (m : ℕ) (hm : m < nbLines nm s o v) :
    load nm s.format o.forcing (saves nm s.format o [] vs ++ firstLines nm s o v m) =
      .ok (vs.map fun v => s.arrays o (rounded rd v)) := by
  cases m with
  | zero =>
    have : firstLines nm s o v 0 = [] := rfl
    rw [this, List.append_nil]
    exact C60_round_trip h s o vs hne
  | succ m =>
  have hF := format_ok s
  have hlen : vs.length ≠ 0 := by simpa using hne
  set cs := vs.map (full s.format o) ++ [first s.format o v m] with hcs
  have hsub : ∀ c ∈ cs, c.ks.Sublist s.format.kinds := by
    intro c hc
    rcases List.mem_append.1 hc with hc | hc
    · obtain ⟨v, _, rfl⟩ := List.mem_map.1 hc
      exact full_sub o v
    · rw [List.mem_singleton.1 hc]
      exact first_sub o v m
  have hcol : ∀ k ∈ s.format.kinds, cols cs k = (if written o k then vs else []) ++
      if k ∈ (first s.format o v m).ks then [v] else [] := by
    intro k hk
    rw [hcs, cols_append, cols_full o vs hk, cols_one]
    rfl
  have hfw : ∀ k, k ∈ (first s.format o v m).ks → written o k = true := fun k hk =>
    (List.mem_filter.1 (List.mem_of_mem_take hk)).2
  have htext : saves nm s.format o [] vs ++ firstLines nm s o v (m + 1) =
      withEol (chunkLines nm cs) := by
    rw [saves_eq, List.nil_append, first_eq, ← withEol_append, ← chunkLines_append]
  have hwlen : ∀ k ∈ s.format.kinds, written o k = true →
      (cols cs k).length = vs.length + if k ∈ (first s.format o v m).ks then 1 else 0 := by
    intro k hk hw
    rw [hcol k hk, if_pos hw]
    split_ifs <;> simp
  rw [htext, load_chunks h hF cs hsub o.forcing (by
    intro k hk ho
    rw [hcol k hk, written, opt_written s k hk ho, if_pos rfl]
    simp [hne])]
  have hp : colPoints s.format cs = .ok vs.length := by
    rw [colPoints_safe s hs]
    obtain ⟨l, hl⟩ := time_first s o
    have htw := hwlen timeKind hF.time rfl
    cases m with
    | zero =>
      have h0 : ∀ k, k ∉ (first s.format o v 0).ks := by
        intro k
        simp [first]
      rw [if_neg (h0 _), Nat.add_zero] at htw
      rw [if_pos, htw]
      intro k hk
      by_cases hw : written o k = true
      · right
        rw [hwlen k hk hw, if_neg (h0 _), htw]
        rfl
      · left
        rw [hcol k hk, if_neg hw, if_neg (h0 _)]
        rfl
    | succ m =>
      have ht : timeKind ∈ (first s.format o v (m + 1)).ks := by
        simp [first, hl]
      rw [if_pos ht] at htw
      have hlast : ∃ k ∈ s.format.kinds, written o k = true ∧
          k ∉ (first s.format o v (m + 1)).ks := by
        have hmlen : m + 1 < (s.format.kinds.filter (written o)).length := by
          have := hm
          simp only [nbLines, recLines, List.length_cons, List.length_map] at this
          omega
        refine ⟨(s.format.kinds.filter (written o))[m + 1], ?_, ?_, ?_⟩
        · exact (List.mem_filter.1 (List.getElem_mem hmlen)).1
        · exact (List.mem_filter.1 (List.getElem_mem hmlen)).2
        · have hnd : (s.format.kinds.filter (written o)).Nodup := hF.nodup.sublist List.filter_sublist
          intro hmem
          obtain ⟨i, hi, he⟩ := List.getElem_of_mem hmem
          simp only [first, List.length_take] at hi
          simp only [first, List.getElem_take] at he
          have := (List.Nodup.getElem_inj_iff hnd).1 he
          omega
      obtain ⟨k, hk, hw, hnot⟩ := hlast
      rw [if_neg, htw, if_neg (by omega)]
      · simp
      · intro hall
        have := hall k hk
        have hkl := hwlen k hk hw
        rw [if_neg hnot] at hkl
        rcases this with h0 | h0
        · rw [h0] at hkl
          simp at hkl
          omega
        · omega
  rw [hp]
  simp only
  refine allOk_range _ _ _ (by simp) ?_
  intro il hil
  have hil' : il < vs.length := by simpa using hil
  rw [colRow_eq s o _ il vs[il]]
  · simp
  · intro k hk
    apply used_of_cols
    by_cases hw : written o k = true
    · rw [hwlen k hk hw]
      simp only [hw, iff_true]
      omega
    · rw [hcol k hk, if_neg hw, if_neg fun hc => hw (hfw k hc)]
      simp [hw]
  · intro k hk hu
    refine ⟨vs[il], ?_, fun _ _ => rfl⟩
    rw [hcol k hk, if_pos (used_written s o k hk hu), List.getElem?_append_left hil',
      List.getElem?_eq_getElem hil']

example : load exNum Solver.ns3dStrat.format true
    (saves exNum Solver.ns3dStrat.format ⟨true, false, true⟩ [] [exV 3, exV 14] ++
      firstLines exNum .ns3dStrat ⟨true, false, true⟩ (exV 20) 6) =
      .ok [Solver.ns3dStrat.arrays ⟨true, false, true⟩ (exV 3),
        Solver.ns3dStrat.arrays ⟨true, false, true⟩ (exV 14)] :=
  C60_incomplete_partial exNum_ok .ns3dStrat (Or.inr rfl) ⟨true, false, true⟩ [exV 3, exV 14]
    (by simp) (exV 20) 6 (by decide)

/-- For the other solvers, `load` raises an `IndexError` as soon as the line of the time of an
incomplete record is in the file: the complete records cannot be loaded. -/
theorem C60_incomplete_violated (h : NumOk nm rd) (s : Solver) (hs : ¬ s.careful) (o : Opts)
    (vs : List (Str → K)) (v : Str → K) (m : ℕ) (hm2 : 2 ≤ m) (hm : m < nbLines nm s o v)
    (hconv : ¬ (s = .plate2d ∧ o.forcing = false ∧ m = 4)) :
    load nm s.format o.forcing (saves nm s.format o [] vs ++ firstLines nm s o v m) =
      .error .IndexError := by
  obtain ⟨m, rfl⟩ : ∃ m', m = m' + 1 := ⟨m - 1, by omega⟩
  have hF := format_ok s
  set cs := vs.map (full s.format o) ++ [first s.format o v m] with hcs
  have hsub : ∀ c ∈ cs, c.ks.Sublist s.format.kinds := by
    intro c hc
    rcases List.mem_append.1 hc with hc | hc
    · obtain ⟨v, _, rfl⟩ := List.mem_map.1 hc
      exact full_sub o v
    · rw [List.mem_singleton.1 hc]
      exact first_sub o v m
  have hcol : ∀ k ∈ s.format.kinds, cols cs k = (if written o k then vs else []) ++
      if k ∈ (first s.format o v m).ks then [v] else [] := by
    intro k hk
    rw [hcs, cols_append, cols_full o vs hk, cols_one]
    rfl
  have htext : saves nm s.format o [] vs ++ firstLines nm s o v (m + 1) =
      withEol (chunkLines nm cs) := by
    rw [saves_eq, List.nil_append, first_eq, ← withEol_append, ← chunkLines_append]
  have hopt : ∀ k ∈ s.format.kinds, k.opt = true → cols cs k ≠ [] := by
    intro k hk ho
    exfalso
    revert ho
    revert k
    cases s <;> first
      | exact absurd (Or.inl rfl) hs
      | exact absurd (Or.inr rfl) hs
      | decide +kernel
  rw [htext, load_chunks h hF cs hsub o.forcing hopt, colPoints_other s hs]
  simp only
  have htime : (cols cs timeKind).length = vs.length + 1 := by
    obtain ⟨l, hl⟩ := time_first s o
    have ht : timeKind ∈ (first s.format o v m).ks := by
      obtain ⟨m, rfl⟩ : ∃ m', m = m' + 1 := ⟨m - 1, by omega⟩
      simp [first, hl]
    rw [hcol _ hF.time, if_pos (time_written o), if_pos ht]
    simp
  rw [htime]
  have hmiss : ∃ k ∈ s.format.kinds, usedFull o k = true ∧ k.use ≠ .saved ∧
      k ∉ (s.format.kinds.filter (written o)).take m := by
    have hm' : m < (s.format.kinds.filter (written o)).length := by
      have := hm
      simp only [nbLines, recLines, List.length_cons, List.length_map] at this
      omega
    clear hm htext hopt hcol hcs hsub htime hF
    obtain ⟨a, b, c⟩ := o
    cases s
    · cases a <;> cases b <;> cases c <;> simp only [Solver.format] at hm' ⊢ <;>
      (have hm6 : m < 6 := lt_of_lt_of_le hm' (by decide +kernel)
       interval_cases m <;> revert hm' <;> decide +kernel)
    · cases a <;> cases b <;> cases c <;> simp only [Solver.format] at hm' ⊢ <;>
      (have hm6 : m < 10 := lt_of_lt_of_le hm' (by decide +kernel)
       interval_cases m <;> revert hm' <;> decide +kernel)
    · exact absurd (Or.inl rfl) hs
    · exact absurd (Or.inr rfl) hs
    · cases a <;> cases b <;> cases c <;> simp only [Solver.format] at hm' ⊢ <;>
      (have hm6 : m < 5 := lt_of_lt_of_le hm' (by decide +kernel)
       interval_cases m <;> first | (exfalso; omega) | (exact absurd ⟨rfl, rfl, rfl⟩ hconv) |
         (revert hm'; decide +kernel))
  obtain ⟨k, hk, hu, hns, hnot⟩ := hmiss
  refine rows_error o.forcing cs _ vs.length (by omega) ?_
  have hkcol := hcol k hk
  have hnot' : k ∉ (first s.format o v m).ks := hnot
  rw [if_pos (used_written s o k hk hu), if_neg hnot', List.append_nil] at hkcol
  refine colRow_error o.forcing cs vs.length k hk ?_ (by rw [hkcol])
  unfold usedFull at hu
  unfold colsUsed
  cases hku : k.use <;> simp_all

example : load exNum Solver.ns2d.format false
    (saves exNum Solver.ns2d.format ⟨false, false, false⟩ [] [exV 3, exV 14] ++
      firstLines exNum .ns2d ⟨false, false, false⟩ (exV 20) 4) = .error .IndexError :=
  C60_incomplete_violated exNum_ok .ns2d (by simp [Solver.careful]) ⟨false, false, false⟩
    [exV 3, exV 14] (exV 20) 4 (by decide) (by decide) (by simp)

end

end Verif.MeansFile
