import Verif.StdOut.Lemmas
import Verif.MeansFile.Props

/-! # C66: loading the log of a simulation -/

set_option linter.unusedSectionVars false

namespace Verif.StdOut

open Verif.PhysFiles (Str)
open Verif.MeansFile (pyLines Num NumOk withEol rounded exNum exNum_ok exV pyLines_split)

section
variable {K : Type*} {nm : Num K} {rd : Str → K → K}

/-- Loading the log of a simulation, possibly restarted several times, gives the numbers printed in each
information but the last one, as they are written.  What is missing: the last one
(`C66_load_violated`), and logs cut by an interruption before a restart (`C66_load_restart_violated`). -/
theorem C66_load_partial (h : NumOk nm rd) (S : Solver) (ms : List (Msg K)) (hms : ∀ m ∈ ms, MsgOk S.heads m) :
    load nm S (log nm S [] ms) = .ok ((kept (infos ms)).map fun v => S.row (rounded rd v)) := by
  have hit : (pyLines (log nm S [] ms)).filter (startsWith itLine.head) =
      (infos ms).map fun v => Line.text nm v itLine ++ ['\n'] := by
    rw [pyLines_log]
    exact filter_msgs h S ms hms itLine (itLine_mem S) rfl
  have e : kept (infos ms) = (infos ms).take
      (if (infos ms).length > 1 then (infos ms).length - 1 else (infos ms).length) := by
    unfold kept
    split_ifs
    · rw [List.dropLast_eq_take]
    · simp
  rw [e]
  apply load_lines h
  · split_ifs <;> omega
  · intro l hl hlo
    refine ⟨[], ?_⟩
    rw [pyLines_log, List.append_nil]
    exact filter_msgs h S ms hms l hl hlo
  · rw [hit]
    simp

/-- A log for the examples: a first process, then a restart. -/
def exMs : List (Msg ℕ) :=
  [.other "Initialization".toList, .info (exV 3) none, .untilT 100, .info (exV 14) (some 90061),
   .saved "state_phys_t0014.000.nc".toList, .info (exV 20) none, .untilT 200, .info (exV 30) (some 59),
   .other "Computation completed".toList]

theorem exMs_ok (S : Solver) : ∀ m ∈ exMs, MsgOk S.heads m := by
  intro m hm
  simp only [exMs, List.mem_cons, List.not_mem_nil, or_false] at hm
  rcases hm with rfl | rfl | rfl | rfl | rfl | rfl | rfl | rfl | rfl
  case inl => cases S <;> (show Foreign _ _; unfold Foreign; decide +kernel)
  case inr.inr.inr.inr.inl => show '\n' ∉ _; decide +kernel
  case inr.inr.inr.inr.inr.inr.inr.inr => cases S <;> (show Foreign _ _; unfold Foreign; decide +kernel)
  all_goals trivial

example : load exNum .strat (log exNum .strat [] exMs) =
    .ok [Solver.row .strat (exV 3), Solver.row .strat (exV 14), Solver.row .strat (exV 20)] :=
  C66_load_partial exNum_ok .strat exMs (exMs_ok _)

/-- In particular the last information of a simulation is never loaded, although its lines are complete in the
file. -/
theorem C66_load_violated (h : NumOk nm rd) (S : Solver) (ms : List (Msg K)) (hms : ∀ m ∈ ms, MsgOk S.heads m)
    (h2 : 2 ≤ (infos ms).length) :
    ∃ rows, load nm S (log nm S [] ms) = .ok rows ∧ rows.length = (infos ms).length - 1 := by
  refine ⟨_, C66_load_partial h S ms hms, ?_⟩
  have : (infos ms).length > 1 := h2
  simp [kept, this]

example : ∃ rows, load exNum .ns2d (log exNum .ns2d [] exMs) = .ok rows ∧ rows.length = 3 :=
  C66_load_violated exNum_ok .ns2d exMs (exMs_ok _) (by decide)

/-- When the writing of the last message has been interrupted anywhere (or is in progress), what has been printed
before is loaded: all of it, or all but the last information. -/
theorem C66_load_cut (h : NumOk nm rd) (S : Solver) (ms : List (Msg K)) (m : Msg K)
    (hms : ∀ x ∈ ms ++ [m], MsgOk S.heads x) (hne : infos ms ≠ []) (n : ℕ) :
    load nm S (log nm S [] ms ++ (msgText nm S m).take n) = .ok ((infos ms).map fun v => S.row (rounded rd v)) ∨
    load nm S (log nm S [] ms ++ (msgText nm S m).take n) =
      .ok ((kept (infos ms)).map fun v => S.row (rounded rd v)) := by
  have hms1 : ∀ x ∈ ms, MsgOk S.heads x := fun x hx => hms x (by simp [hx])
  have hl : ∀ l ∈ S.lines, l.loaded = true →
      (pyLines (log nm S [] ms ++ (msgText nm S m).take n)).filter (startsWith l.head) =
        ((infos ms).map fun v => Line.text nm v l ++ ['\n']) ++
          (pyLines ((msgText nm S m).take n)).filter (startsWith l.head) := by
    intro l hl hlo
    rw [pyLines_split _ _ (log_last S ms), List.filter_append, pyLines_log, filter_msgs h S ms hms1 l hl hlo]
  have hc := cut_count itLine.head (cut_take (msgText nm S m) n)
  have h1 : ((pyLines (msgText nm S m)).filter (startsWith itLine.head)).length ≤ 1 := by
    have := filter_msgs h S [m] (fun x hx => hms x (by simp at hx; simp [hx])) itLine (itLine_mem S) rfl
    rw [List.flatMap_cons, List.flatMap_nil, List.append_nil] at this
    rw [show pyLines (msgText nm S m) = msgLines nm S m from rfl, this]
    cases m <;> simp [infos]
  have hpos : 0 < (infos ms).length := List.length_pos_iff.2 hne
  have hcase : ((pyLines ((msgText nm S m).take n)).filter (startsWith itLine.head)).length = 0 ∨
      ((pyLines ((msgText nm S m).take n)).filter (startsWith itLine.head)).length = 1 := by omega
  rcases hcase with h0 | h0
  · right
    have e : kept (infos ms) = (infos ms).take
        (if (infos ms).length > 1 then (infos ms).length - 1 else (infos ms).length) := by
      unfold kept
      split_ifs
      · rw [List.dropLast_eq_take]
      · simp
    rw [e]
    apply load_lines h
    · split_ifs <;> omega
    · exact fun l hl' hlo => ⟨_, hl l hl' hlo⟩
    · simp only
      rw [hl itLine (itLine_mem S) rfl, List.length_append, h0]
      simp
  · left
    have e : (infos ms) = (infos ms).take (infos ms).length := by simp
    rw [e]
    apply load_lines h
    · simp
    · exact fun l hl' hlo => ⟨_, hl l hl' hlo⟩
    · simp only
      rw [hl itLine (itLine_mem S) rfl, List.length_append, h0]
      simp
      omega

example : load exNum .sw1l (log exNum .sw1l [] exMs ++ (msgText exNum .sw1l (.info (exV 40) (some 5))).take 30) =
      .ok ((infos exMs).map fun v => Solver.row .sw1l v) ∨
    load exNum .sw1l (log exNum .sw1l [] exMs ++ (msgText exNum .sw1l (.info (exV 40) (some 5))).take 30) =
      .ok ((kept (infos exMs)).map fun v => Solver.row .sw1l v) :=
  C66_load_cut exNum_ok .sw1l exMs (.info (exV 40) (some 5)) (by
    intro x hx
    rcases List.mem_append.1 hx with hx | hx
    · exact exMs_ok _ x hx
    · rw [List.mem_singleton.1 hx]; trivial) (by decide) 30

/-- The values loaded when the times come from `u` and the energies from `v`. -/
def mixed (u v : Str → K) : Str → K :=
  fun n => if n = "E".toList ∨ n = "deltaE".toList then v n else u n

/-- When an information has been interrupted after its first line and the simulation has been restarted, no
exception is raised but the loaded energies are no longer those of the loaded times: from the interrupted
information on, each time comes with the energy of the next information. -/
theorem C66_load_restart_violated (h : NumOk nm rd) (a b : List (Msg K)) (u : Str → K)
    (ha : ∀ m ∈ a, MsgOk Solver.ns2d.heads m) (hb : ∀ m ∈ b, MsgOk Solver.ns2d.heads m) (i : ℕ)
    (hi : i < (infos b).length) :
    ∃ rows, load nm .ns2d (log nm .ns2d (log nm .ns2d [] a ++ withEol [Line.text nm u itLine]) b) = .ok rows ∧
      rows[(infos a).length + i]? = some (Solver.row .ns2d
        (rounded rd (mixed ((u :: infos b).getD i u) ((infos b).getD i u)))) := by
  have hu : '\n' ∉ Line.text nm u itLine := text_noEol h .ns2d u itLine (itLine_mem _)
  have ht : pyLines (log nm .ns2d (log nm .ns2d [] a ++ withEol [Line.text nm u itLine]) b) =
      a.flatMap (msgLines nm .ns2d) ++ ([Line.text nm u itLine ++ ['\n']] ++ b.flatMap (msgLines nm .ns2d)) := by
    rw [log_eq, List.append_assoc, pyLines_split _ _ (log_last _ a), pyLines_log,
      pyLines_split _ _ (Verif.MeansFile.withEol_last _), pyLines_texts, pyLines_eol]
    · rfl
    · intro l hl
      rw [List.mem_singleton.1 hl]
      exact hu
  have hself : startsWith itLine.head (Line.text nm u itLine ++ ['\n']) = true := by
    have := filter_info h .ns2d u none itLine (itLine_mem _) rfl
    have hm : Line.text nm u itLine ++ ['\n'] ∈ (msgLines nm .ns2d (.info u none)).filter (startsWith itLine.head) := by
      rw [this]; simp
    exact (List.mem_filter.1 hm).2
  set eLine : Line := mkLine [("              energy =", "E", 2), ("; Delta energy =", "deltaE", 7)] with heL
  have hself2 : startsWith eLine.head (Line.text nm u itLine ++ ['\n']) = false := by
    obtain ⟨t, ht⟩ := text_head (nm := nm) u itLine (by decide)
    rw [ht, List.append_assoc]
    exact apart_sw (heads_apart .ns2d eLine (by decide) itLine (by decide) (by decide) (by decide)) _
  have fit : (pyLines (log nm .ns2d (log nm .ns2d [] a ++ withEol [Line.text nm u itLine]) b)).filter
      (startsWith itLine.head) = (infos a ++ u :: infos b).map fun v => Line.text nm v itLine ++ ['\n'] := by
    rw [ht, List.filter_append, List.filter_append, filter_msgs h _ a ha itLine (by decide) rfl,
      filter_msgs h _ b hb itLine (by decide) rfl]
    simp [hself]
  have fe : (pyLines (log nm .ns2d (log nm .ns2d [] a ++ withEol [Line.text nm u itLine]) b)).filter
      (startsWith eLine.head) = (infos a ++ infos b).map fun v => Line.text nm v eLine ++ ['\n'] := by
    rw [ht, List.filter_append, List.filter_append, filter_msgs h _ a ha eLine (by decide) rfl,
      filter_msgs h _ b hb eLine (by decide) rfl]
    simp [hself2]
  have mi : ∀ x y : Str → K, Line.text nm (mixed x y) itLine = Line.text nm x itLine := fun x y => rfl
  have me : ∀ x y : Str → K, Line.text nm (mixed x y) eLine = Line.text nm y eLine := fun x y => rfl
  refine ⟨_, load_rows h .ns2d (fun j => mixed ((infos a ++ u :: infos b).getD j u) ((infos a ++ infos b).getD j u))
    _ ((infos a).length + (infos b).length) ?_ ?_, ?_⟩
  · intro j hj l hl hlo
    have hl' : l = itLine ∨ l = eLine := by simpa [Solver.lines] using hl
    rcases hl' with rfl | rfl
    · rw [fit, mi, List.getElem?_map, List.getD_eq_getElem?_getD]
      have : j < (infos a ++ u :: infos b).length := by simp; omega
      rw [List.getElem?_eq_getElem this]
      rfl
    · rw [fe, me, List.getElem?_map, List.getD_eq_getElem?_getD]
      have : j < (infos a ++ infos b).length := by simpa using hj
      rw [List.getElem?_eq_getElem this]
      rfl
  · simp only
    rw [fit]
    simp
    omega
  · have : (infos a).length + i < (infos a).length + (infos b).length := by omega
    rw [List.getElem?_map, List.getElem?_range this]
    simp only [Option.map_some, List.getD_eq_getElem?_getD]
    rw [List.getElem?_append_right (by omega), List.getElem?_append_right (by omega)]
    simp

example : ∃ rows, load exNum .ns2d (log exNum .ns2d (log exNum .ns2d [] [.info (exV 3) none] ++
      withEol [Line.text exNum (exV 10) itLine]) [.info (exV 20) none]) = .ok rows ∧
    rows[1]? = some [("it".toList, 12), ("t".toList, 11), ("deltat".toList, 16), ("E".toList, 21),
      ("deltaE".toList, 26)] :=
  C66_load_restart_violated exNum_ok [.info (exV 3) none] [.info (exV 20) none] (exV 10)
    (by simp [MsgOk]) (by simp [MsgOk]) 0 (by decide)

end

end Verif.StdOut
