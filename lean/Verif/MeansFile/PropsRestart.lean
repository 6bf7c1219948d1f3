import Verif.MeansFile.Props

/-! # C60, continued: interrupted first record, cut numbers, restarts -/

namespace Verif.MeansFile

open Verif.PhysFiles (Str)

set_option linter.unusedSectionVars false

section
variable {K : Type*} [Zero K] {nm : Num K} {rd : Str → K → K}

/-- When the first record is incomplete, `load` raises an `IndexError` instead of returning empty
arrays, also for the solvers ns3d and ns3d.strat. -/
theorem C60_first_record_violated (h : NumOk nm rd) (s : Solver) (hs : s.careful) (o : Opts)
    (v : Str → K) (m : ℕ) (hm2 : 2 ≤ m) (hm : m ≤ 4) :
    load nm s.format o.forcing (firstLines nm s o v m) = .error .IndexError := by
  obtain ⟨m, rfl⟩ : ∃ m', m = m' + 1 := ⟨m - 1, by omega⟩
  have hF := format_ok s
  have hsub : ∀ c ∈ [first s.format o v m], c.ks.Sublist s.format.kinds := by
    intro c hc
    rw [List.mem_singleton.1 hc]
    exact first_sub o v m
  have hfirst : ∃ ks : List Kind, (first s.format o v m).ks = ks ∧ timeKind ∈ ks ∧
      ∃ k ∈ s.format.kinds, k ∉ ks ∧ k.use = .always ∧
        (∀ k' ∈ s.format.kinds, k'.opt = true → k' ∉ ks → k'.use = .always) := by
    refine ⟨_, rfl, ?_⟩
    unfold first
    dsimp only
    obtain ⟨a, b, c⟩ := o
    clear hsub hF
    have h1 : 1 ≤ m := by omega
    have h3 : m ≤ 3 := by omega
    rcases hs with rfl | rfl <;> interval_cases m
    all_goals cases a <;> cases b <;> cases c <;> decide +kernel
  obtain ⟨ks, hks, htime, k, hk, hknot, hku, hoptk⟩ := hfirst
  have hcol : ∀ k, cols [first s.format o v m] k = if k ∈ ks then [v] else [] := by
    intro k
    rw [cols_one, hks]
    rfl
  have hlines : pyLines (firstLines nm s o v (m + 1)) =
      (chunkLines nm [first s.format o v m]).map (· ++ ['\n']) := by
    rw [first_eq]
    have := pyLines_withEol (chunkLines nm [first s.format o v m]) (chunk_noEol h hF _ hsub) []
    simpa [pyLines] using this
  have hp : colPoints s.format [first s.format o v m] = .ok 1 := by
    rw [colPoints_safe s hs, hcol timeKind, if_pos htime, if_pos]
    · rfl
    · intro k hk
      rw [hcol k]
      split_ifs <;> simp
  by_cases hopt : ∀ k ∈ s.format.kinds, k.opt = true → cols [first s.format o v m] k ≠ []
  · rw [first_eq, load_chunks h hF _ hsub o.forcing hopt, hp]
    simp only
    refine rows_error o.forcing _ 1 0 (by omega) ?_
    refine colRow_error o.forcing _ 0 k hk ?_ ?_
    · simp [colsUsed, hku]
    · rw [hcol k, if_neg hknot]
      rfl
  · push Not at hopt
    obtain ⟨k0, hk0, ho, hnil⟩ := hopt
    unfold load
    rw [hlines]
    dsimp only
    rw [nbPoints_chunks hF _ hsub, hp]
    dsimp only
    rw [allOk_error _ _ .IndexError]
    · intro k hk
      unfold namesRead
      split_ifs
      · cases kLines k _ with
        | nil => right; rfl
        | cons l r =>
          left
          simp only
          split_ifs <;> exact ⟨_, rfl⟩
      · left; exact ⟨_, rfl⟩
    · refine ⟨k0, hk0, ?_⟩
      unfold namesRead
      rw [if_pos ho, kLines_chunks hF _ hsub hk0, hnil]
      rfl

example : load exNum Solver.ns3dStrat.format false
    (firstLines exNum .ns3dStrat ⟨false, false, false⟩ (exV 20) 3) = .error .IndexError :=
  C60_first_record_violated exNum_ok .ns3dStrat (Or.inr rfl) ⟨false, false, false⟩ (exV 20) 3
    (by decide) (by decide)

/-- The options of the example of the next theorem. -/
def exO : Opts := ⟨false, false, false⟩

/-- What a result of `load` has for one index and one array. -/
def got (r : Except Err (List (List (Str × K)))) (i : ℕ) (name : String) : Except Err (Option K) :=
  match r with
  | .error e => .error e
  | .ok rows => .ok ((rows[i]?).bind fun row => row.lookup name.toList)

/-- When the writing is interrupted in the middle of the last line, `load` may return a wrong
number without any warning: here the total dissipation 120 saved at the second time is loaded as 12;
or raise an `IndexError` although the first record is complete. -/
theorem C60_cut_number_violated :
    let file := saves exNum Solver.ns3d.format exO [] [exV 3, exV 112]
    let cut := file.take (file.length - 3)
    let cut2 := file.take (file.length - 5)
    cut <+: file ∧ cut2 <+: file ∧
    got (load exNum Solver.ns3d.format false file) 1 "epsK_tot" = .ok (some 120) ∧
    got (load exNum Solver.ns3d.format false cut) 1 "epsK_tot" = .ok (some 12) ∧
    got (load exNum Solver.ns3d.format false cut2) 0 "epsK_tot" = .error .IndexError := by
  refine ⟨List.take_prefix _ _, List.take_prefix _ _, ?_, ?_, ?_⟩
  all_goals decide +kernel

/-- The state in which the time is that of `a` and all the rest is that of `b`. -/
def timeOf (a b : Str → K) : Str → K := fun n => if n = "t".toList then a n else b n

theorem names_time (s : Solver) : ∀ k ∈ s.format.kinds, ∀ n ∈ k.names,
    (n = "t".toList ↔ k = timeKind) := by
  cases s <;> decide +kernel

/-- When the writing of a record has been interrupted after the line of its time, and the
simulation is then restarted in the same directory, the arrays loaded for the solvers ns3d and
ns3d.strat are silently shifted with respect to the times: from the interruption on, the quantities
saved at one time are returned with the previous time of the file, and the last time is lost. -/
theorem C60_crash_restart_violated (h : NumOk nm rd) (s : Solver) (hs : s.careful) (o : Opts)
    (vs ws : List (Str → K)) (v : Str → K) (hne : vs ≠ []) :
    ∃ rows, load nm s.format o.forcing
        (saves nm s.format o (saves nm s.format o [] vs ++ firstLines nm s o v 2) ws) = .ok rows ∧
      rows.length = vs.length + ws.length ∧
      ∀ (i : ℕ) (a b : Str → K), (vs ++ v :: ws)[i]? = some a → (vs ++ ws)[i]? = some b →
        rows[i]? = some (s.arrays o (rounded rd (timeOf a b))) := by
  have hF := format_ok s
  have hlen : vs.length ≠ 0 := by simpa using hne
  set cs := vs.map (full s.format o) ++ [first s.format o v 1] ++ ws.map (full s.format o) with hcs
  have hsub : ∀ c ∈ cs, c.ks.Sublist s.format.kinds := by
    intro c hc
    rcases List.mem_append.1 hc with hc | hc
    · rcases List.mem_append.1 hc with hc | hc
      · obtain ⟨v, _, rfl⟩ := List.mem_map.1 hc
        exact full_sub o v
      · rw [List.mem_singleton.1 hc]
        exact first_sub o v 1
    · obtain ⟨v, _, rfl⟩ := List.mem_map.1 hc
      exact full_sub o v
  have hfirst : (first s.format o v 1).ks = [timeKind] := by
    obtain ⟨l, hl⟩ := time_first s o
    simp [first, hl]
  have hcol : ∀ k ∈ s.format.kinds, cols cs k = if written o k then
      (if k = timeKind then vs ++ v :: ws else vs ++ ws) else [] := by
    intro k hk
    rw [hcs, cols_append, cols_append, cols_full o vs hk, cols_full o ws hk, cols_one, hfirst]
    by_cases ht : k = timeKind
    · subst ht
      simp [time_written, first]
    · by_cases hw : written o k = true <;> simp [hw, ht]
  have htext : saves nm s.format o (saves nm s.format o [] vs ++ firstLines nm s o v 2) ws =
      withEol (chunkLines nm cs) := by
    rw [saves_eq, saves_eq, List.nil_append, first_eq, ← withEol_append, ← chunkLines_append,
      ← withEol_append, ← chunkLines_append]
  have hp : colPoints s.format cs = .ok (vs.length + ws.length) := by
    rw [colPoints_safe s hs, hcol _ hF.time, if_pos (time_written o), if_pos rfl, if_neg]
    · rw [if_neg (by simp)]
      simp
    · intro hall
      have hE : ∃ k ∈ s.format.kinds, k ≠ timeKind ∧ k.wr = .always := by
        clear hsub hF hcs hcol htext hall
        rcases hs with rfl | rfl <;> decide +kernel
      obtain ⟨k, hk, hkt, hw⟩ := hE
      have hw' : written o k = true := by simp [written, hw]
      have := hall k hk
      rw [hcol k hk, if_pos hw', if_neg hkt] at this
      rcases this with h0 | h0
      · simp at h0
        exact hne h0.1
      · simp at h0
  have hwl : (vs ++ ws).length = vs.length + ws.length := by simp
  have hload := load_chunks h hF cs hsub o.forcing (by
    intro k hk ho
    have hkt : k ≠ timeKind := by
      rintro rfl
      simp [timeKind, mk] at ho
    rw [hcol k hk, written, opt_written s k hk ho, if_pos rfl, if_neg hkt]
    simp [hne])
  rw [hp] at hload
  simp only at hload
  refine ⟨(List.range (vs.length + ws.length)).map fun i =>
    s.arrays o (rounded rd (timeOf (((vs ++ v :: ws)[i]?).getD v) (((vs ++ ws)[i]?).getD v))), ?_,
    by simp, ?_⟩
  · rw [htext, hload]
    apply allOk_ok
    intro il hil
    have hil' := List.mem_range.1 hil
    apply colRow_eq
    · intro k hk
      apply used_of_cols
      rw [hcol k hk]
      by_cases hw : written o k = true
      · simp only [hw, if_true, iff_true]
        split_ifs <;> simp [hne]
      · simp [hw]
    · intro k hk hu
      have hw := used_written s o k hk hu
      rw [hcol k hk, if_pos hw]
      by_cases ht : k = timeKind
      · rw [if_pos ht]
        have hb : il < (vs ++ v :: ws).length := by simp; omega
        refine ⟨(vs ++ v :: ws)[il], List.getElem?_eq_getElem hb, ?_⟩
        intro n hn
        rw [timeOf, if_pos ((names_time s k hk n hn).2 ht), List.getElem?_eq_getElem hb]
        rfl
      · rw [if_neg ht]
        have hb : il < (vs ++ ws).length := by simp; omega
        refine ⟨(vs ++ ws)[il], List.getElem?_eq_getElem hb, ?_⟩
        intro n hn
        rw [timeOf, if_neg fun hc => ht ((names_time s k hk n hn).1 hc),
          List.getElem?_eq_getElem hb]
        rfl
  · intro i a b ha hb
    have hi : i < vs.length + ws.length := by
      rw [← hwl]
      exact (List.getElem?_eq_some_iff.1 hb).1
    rw [List.getElem?_map, List.getElem?_range hi]
    simp only [Option.map_some, ha, hb, Option.getD_some]

/-- The energy saved at the time 15 is returned as the energy at the time 21. -/
example : ∃ rows, load exNum Solver.ns3d.format false
    (saves exNum Solver.ns3d.format exO (saves exNum Solver.ns3d.format exO [] [exV 3] ++
      firstLines exNum .ns3d exO (exV 20) 2) [exV 14]) = .ok rows ∧
    rows[1]? = some (Solver.ns3d.arrays exO (timeOf (exV 20) (exV 14))) := by
  obtain ⟨rows, h1, _, h3⟩ := C60_crash_restart_violated exNum_ok .ns3d (Or.inl rfl) exO [exV 3]
    [exV 14] (exV 20) (by simp)
  exact ⟨rows, h1, h3 1 (exV 20) (exV 14) rfl rfl⟩

/-- The state in which the quantities named in `l` are those of `b` and the rest that of `a`. -/
def hyperOf (l : List Str) (a b : Str → K) : Str → K := fun n => if n ∈ l then b n else a n

theorem nu4_on (s : Solver) (o : Opts) (vs ws : List (Str → K)) (k : Kind)
    (hk : k ∈ s.format.kinds) :
    cols (vs.map (full s.format { o with nu4 := false }) ++
      ws.map (full s.format { o with nu4 := true })) k =
    if k.wr = .nu4 then ws else if written o k then vs ++ ws else [] := by
  rw [cols_append, cols_full _ vs hk, cols_full _ ws hk]
  unfold written
  cases hw : k.wr <;> simp
  · split_ifs <;> simp
  · split_ifs <;> simp

/-- When a hyperviscosity `nu_4` is added at a restart in the same directory: if the first run has
saved more than one record, `load` raises an `IndexError`. -/
theorem C60_nu4_restart_violated (h : NumOk nm rd) (s : Solver) (hs : s.careful) (o : Opts)
    (vs ws : List (Str → K)) (hv : 2 ≤ vs.length) (hw : ws ≠ []) :
    load nm s.format o.forcing (saves nm s.format { o with nu4 := true }
      (saves nm s.format { o with nu4 := false } [] vs) ws) = .error .IndexError := by
  have hF := format_ok s
  set cs := vs.map (full s.format { o with nu4 := false }) ++
    ws.map (full s.format { o with nu4 := true }) with hcs
  have hcol := nu4_on (K := K) s o vs ws
  rw [← hcs] at hcol
  have hsub : ∀ c ∈ cs, c.ks.Sublist s.format.kinds := by
    intro c hc
    rcases List.mem_append.1 hc with hc | hc <;>
    · obtain ⟨v, _, rfl⟩ := List.mem_map.1 hc
      exact full_sub _ v
  obtain ⟨k4, hk4, hk4w, hk4u⟩ : ∃ k ∈ s.format.kinds, k.wr = .nu4 ∧ k.use = .saved := by
    clear hcol hcs hsub hF
    rcases hs with rfl | rfl <;> decide +kernel
  have htime : (cols cs timeKind).length = vs.length + ws.length := by
    rw [hcol _ hF.time, if_neg (by simp [timeKind, mk]), if_pos (time_written o)]
    simp
  have hwl : ws.length ≠ 0 := by simpa using hw
  have h4 : cols cs k4 = ws := by rw [hcol k4 hk4, if_pos hk4w]
  rw [saves_eq, saves_eq, List.nil_append, ← withEol_append, ← chunkLines_append,
    load_chunks h hF cs hsub o.forcing (by
      intro k hk ho
      have hwr := opt_written s k hk ho
      rw [hcol k hk, if_neg (by rw [hwr]; simp), if_pos (by simp [written, hwr])]
      simp [hw]), colPoints_safe s hs, htime, if_neg, if_neg (by omega)]
  · simp only
    refine rows_error o.forcing cs _ ws.length (by omega) ?_
    refine colRow_error o.forcing cs ws.length k4 hk4 ?_ (by rw [h4])
    rw [h4]
    simp [colsUsed, hk4u, hw]
  · intro hall
    have := hall k4 hk4
    rw [h4] at this
    rcases this with h0 | h0
    · exact hw h0
    · omega

example : load exNum Solver.ns3d.format false (saves exNum Solver.ns3d.format ⟨false, true, false⟩
    (saves exNum Solver.ns3d.format exO [] [exV 3, exV 5]) [exV 14]) = .error .IndexError :=
  C60_nu4_restart_violated exNum_ok .ns3d (Or.inl rfl) exO [exV 3, exV 5] [exV 14] (by simp)
    (by simp)

/-- ... and if the first run has saved one record only, `load` silently returns the dissipations by
the hyperviscosity shifted by one record with respect to the times, and without the last time. -/
theorem C60_nu4_restart_shift_violated (h : NumOk nm rd) (s : Solver) (hs : s.careful) (o : Opts)
    (v : Str → K) (ws : List (Str → K)) (hw : ws ≠ []) :
    ∃ rows, load nm s.format o.forcing (saves nm s.format { o with nu4 := true }
        (saves nm s.format { o with nu4 := false } [] [v]) ws) = .ok rows ∧
      rows.length = ws.length ∧
      ∀ (i : ℕ) (a b : Str → K), (v :: ws)[i]? = some a → ws[i]? = some b →
        rows[i]? = some (s.arrays { o with nu4 := true } (rounded rd
          (hyperOf ["epsK4".toList, "epsA4".toList] a b))) := by
  have hF := format_ok s
  set cs := [v].map (full s.format { o with nu4 := false }) ++
    ws.map (full s.format { o with nu4 := true }) with hcs
  have hcol := nu4_on (K := K) s o [v] ws
  rw [← hcs] at hcol
  have hsub : ∀ c ∈ cs, c.ks.Sublist s.format.kinds := by
    intro c hc
    rcases List.mem_append.1 hc with hc | hc <;>
    · obtain ⟨v, _, rfl⟩ := List.mem_map.1 hc
      exact full_sub _ v
  obtain ⟨k4, hk4, hk4w, hk4u⟩ : ∃ k ∈ s.format.kinds, k.wr = .nu4 ∧ k.use = .saved := by
    clear hcol hcs hsub hF
    rcases hs with rfl | rfl <;> decide +kernel
  have hnames : ∀ k ∈ s.format.kinds, ∀ n ∈ k.names,
      (n ∈ ["epsK4".toList, "epsA4".toList] ↔ k.wr = .nu4) := by
    clear hcol hcs hsub hF
    rcases hs with rfl | rfl <;> decide +kernel
  have htime : (cols cs timeKind).length = 1 + ws.length := by
    rw [hcol _ hF.time, if_neg (by simp [timeKind, mk]), if_pos (time_written o)]
    simp
    omega
  have hwl : ws.length ≠ 0 := by simpa using hw
  have h4 : cols cs k4 = ws := by rw [hcol k4 hk4, if_pos hk4w]
  refine ⟨(List.range ws.length).map fun i => s.arrays { o with nu4 := true } (rounded rd
    (hyperOf ["epsK4".toList, "epsA4".toList] (((v :: ws)[i]?).getD v) ((ws[i]?).getD v))), ?_,
    by simp, ?_⟩
  · rw [saves_eq, saves_eq, List.nil_append, ← withEol_append, ← chunkLines_append,
      load_chunks h hF cs hsub o.forcing (by
        intro k hk ho
        have hwr := opt_written s k hk ho
        rw [hcol k hk, if_neg (by rw [hwr]; simp), if_pos (by simp [written, hwr])]
        simp), colPoints_safe s hs, htime, if_neg, if_neg (by omega)]
    · simp only [Nat.add_sub_cancel_left]
      apply allOk_ok
      intro il hil
      have hil' := List.mem_range.1 hil
      refine colRow_eq s { o with nu4 := true } cs il _ ?_ ?_
      · intro k hk
        apply used_of_cols
        rw [hcol k hk]
        by_cases h4w : k.wr = .nu4
        · simp [h4w, written, hwl]
        · rw [if_neg h4w]
          have : written { o with nu4 := true } k = written o k := by
            unfold written
            cases hkw : k.wr <;> simp_all
          rw [this]
          by_cases hwk : written o k = true <;> simp [hwk]
      · intro k hk hu
        have hwk := used_written s _ k hk hu
        rw [hcol k hk]
        by_cases h4w : k.wr = .nu4
        · rw [if_pos h4w]
          refine ⟨ws[il], List.getElem?_eq_getElem hil', ?_⟩
          intro n hn
          rw [hyperOf, if_pos ((hnames k hk n hn).2 h4w), List.getElem?_eq_getElem hil']
          rfl
        · have : written { o with nu4 := true } k = written o k := by
            unfold written
            cases hkw : k.wr <;> simp_all
          rw [if_neg h4w, if_pos (by rw [← this]; exact hwk)]
          have hb : il < (v :: ws).length := by simp; omega
          refine ⟨(v :: ws)[il], List.getElem?_eq_getElem hb, ?_⟩
          intro n hn
          rw [hyperOf, if_neg fun hc => h4w ((hnames k hk n hn).1 hc),
            List.getElem?_eq_getElem hb]
          rfl
    · intro hall
      have := hall k4 hk4
      rw [h4] at this
      rcases this with h0 | h0
      · exact hw h0
      · omega
  · intro i a b ha hb
    have hi : i < ws.length := (List.getElem?_eq_some_iff.1 hb).1
    rw [List.getElem?_map, List.getElem?_range hi]
    simp only [Option.map_some, ha, hb, Option.getD_some]

/-- The hyperdissipation saved with the time 15 is returned with the time 4. -/
example : ∃ rows, load exNum Solver.ns3d.format false (saves exNum Solver.ns3d.format
    ⟨false, true, false⟩ (saves exNum Solver.ns3d.format exO [] [exV 3]) [exV 14]) = .ok rows ∧
    rows[0]? = some (Solver.ns3d.arrays ⟨false, true, false⟩
      (hyperOf ["epsK4".toList, "epsA4".toList] (exV 3) (exV 14))) := by
  obtain ⟨rows, h1, _, h3⟩ := C60_nu4_restart_shift_violated exNum_ok .ns3d (Or.inl rfl) exO
    (exV 3) [exV 14] (by simp)
  exact ⟨rows, h1, h3 0 (exV 3) (exV 14) rfl rfl⟩

end

end Verif.MeansFile
