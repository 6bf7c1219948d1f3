import Verif.StdOut.Props

/-! # C66: first and last times, last estimated duration -/

set_option linter.unusedSectionVars false

namespace Verif.StdOut

open Verif.PhysFiles (Str digs digs_isDig fixed fixed_spec isDig)
open Verif.MeansFile (splitWs pyLines Num NumOk withEol rounded exNum exNum_ok exV pyLines_split word word_split
  word_float split_append split_word drop_last isWs withEol_last withEol_append)

section
variable {K : Type*} {nm : Num K} {rd : Str → K → K}

/-! ## Lemmas -/

theorem tail_append (N : ℕ) (a b : Str) (hb : b.length ≤ N) : ∃ n, tail N (a ++ b) = a.drop n ++ b := by
  unfold tail
  refine ⟨(a ++ b).length - min (a ++ b).length N, ?_⟩
  rw [List.drop_append_of_le_length]
  simp
  omega

/-- The beginnings of the lines used by `times_start_last_from_path`. -/
def startLastHeads : List String := ["it =", "save state_phys"]

theorem it_head : "it =".toList = itLine.head := by decide

theorem find_it (h : NumOk nm rd) (S : Solver) (ms : List (Msg K)) (hms : ∀ m ∈ ms, MsgOk startLastHeads m) :
    (pyLines (log nm S [] ms)).find? (startsWith "it =".toList) =
      (infos ms).head?.map fun v => Line.text nm v itLine ++ ['\n'] := by
  rw [← List.head?_filter, pyLines_log, it_head,
    filter_heads h S startLastHeads ms hms itLine (itLine_mem S) rfl ⟨"it =", by simp [startLastHeads], it_head⟩,
    List.head?_map]

theorem time_it (h : NumOk nm rd) (v : Str → K) :
    numAt nm (splitWs (Line.text nm v itLine ++ ['\n'])) 6 = .ok (rd "t".toList (v "t".toList)) :=
  numAt_fld h .ns2d v itLine (itLine_mem _) rfl ⟨"; t =".toList, "t".toList, 6⟩ (by decide)

theorem pyLines_ne (a : Str) (h : a ≠ []) : pyLines a ≠ [] := by
  cases a with
  | nil => exact absurd rfl h
  | cons c s =>
    rw [pyLines]
    split_ifs
    · simp
    · cases pyLines s <;> simp

theorem msgLines_ne (S : Solver) (m : Msg K) : msgLines nm S m ≠ [] := by
  apply pyLines_ne
  cases m <;> simp [msgText, withEol]

theorem lines_save (S : Solver) : ∀ l ∈ S.lines, Apart "save state_phys".toList (l.head ++ [' ']) := by
  cases S <;> decide +kernel

theorem not_saved (h : NumOk nm rd) (S : Solver) (m : Msg K) (hm : MsgOk startLastHeads m) (hs : ∀ n, m ≠ .saved n) :
    ∀ l ∈ msgLines nm S m, ¬ "save state_phys".toList <+: l := by
  intro l hl
  cases m with
  | info v d =>
    rw [lines_info h] at hl
    rcases List.mem_append.1 hl with hl | hl
    · obtain ⟨k, hk, rfl⟩ := List.mem_map.1 hl
      obtain ⟨t, ht⟩ := text_head (nm := nm) v k ((lines_ok S).ne k hk)
      rw [ht, List.append_assoc]
      exact apart_not (lines_save S k hk) _
    · rw [List.mem_singleton.1 hl]
      cases d with
      | none => decide +kernel
      | some n =>
        rw [durLine, List.append_assoc, List.append_assoc]
        exact apart_not (by decide +kernel) _
  | untilT t =>
    rw [lines_untilT h] at hl
    rw [List.mem_singleton.1 hl]
    exact apart_not (by decide +kernel) _
  | untilIt n =>
    rw [lines_untilIt] at hl
    rw [List.mem_singleton.1 hl]
    exact apart_not (by decide +kernel) _
  | saved s => exact absurd rfl (hs s)
  | other text => exact hm l hl "save state_phys" (by simp [startLastHeads])

theorem getLastD_append (a b : List Str) (hb : b ≠ []) : (a ++ b).getLastD [] = b.getLast hb := by
  rw [List.getLastD_eq_getLast?, List.getLast?_append_of_ne_nil _ hb, List.getLast?_eq_getLast_of_ne_nil hb]
  rfl

theorem flatMap_snoc (S : Solver) (ms : List (Msg K)) (m : Msg K) :
    (ms ++ [m]).flatMap (msgLines nm S) = ms.flatMap (msgLines nm S) ++ msgLines nm S m := by simp

/-! ## First and last times -/

/-- The first and last times printed are returned, if what has been printed from the last information on takes at
most 1000 characters and the last message is not that a file has been saved.  What is missing: the other
cases (`C66_start_last_saved`, `C66_start_last_stale_violated`, `C66_start_last_no_info_violated`). -/
theorem C66_start_last_partial (h : NumOk nm rd) (S : Solver) (a b : List (Msg K)) (v v0 : Str → K) (d : Option ℕ)
    (hms : ∀ m ∈ a ++ .info v d :: b, MsgOk startLastHeads m) (h0 : (infos (a ++ [.info v d])).head? = some v0)
    (hb : infos b = []) (hlen : (log nm S [] (.info v d :: b)).length ≤ 1000)
    (hlast : ∀ n, (Msg.info v d :: b).getLast? ≠ some (.saved n)) :
    startLast nm (log nm S [] (a ++ .info v d :: b)) =
      some (.ok (rd "t".toList (v0 "t".toList), rd "t".toList (v "t".toList))) := by
  have hfirst : (infos (a ++ .info v d :: b)).head? = some v0 := by
    rw [infos_append] at h0 ⊢
    cases hi : infos a with
    | nil => rw [hi] at h0; simpa [infos] using h0
    | cons x r => rw [hi] at h0; simpa [infos] using h0
  have e : log nm S [] (a ++ .info v d :: b) = log nm S [] a ++ log nm S [] (.info v d :: b) := by
    rw [log_eq, log_eq, log_eq]; simp
  obtain ⟨n, hn⟩ := tail_append 1000 (log nm S [] a) (log nm S [] (.info v d :: b)) hlen
  have hl : pyLines (tail 1000 (log nm S [] (a ++ .info v d :: b))) =
      pyLines ((log nm S [] a).drop n) ++ (Msg.info v d :: b).flatMap (msgLines nm S) := by
    rw [e, hn, pyLines_split _ _ (drop_last _ n (log_last S a)), pyLines_log]
  obtain ⟨ms', m, hm⟩ : ∃ ms' m, Msg.info v d :: b = ms' ++ [m] := by
    rcases List.eq_nil_or_concat (Msg.info v d :: b) with h | ⟨l, x, h⟩
    · simp at h
    · exact ⟨l, x, by rw [h, List.concat_eq_append]⟩
  have hmlast : ∀ n, m ≠ .saved n := by
    rintro n rfl
    apply hlast n
    rw [hm]
    simp
  have hmem : m ∈ a ++ .info v d :: b := by rw [hm]; simp
  unfold startLast
  rw [find_it h S _ hms, hfirst]
  simp only [Option.map_some]
  rw [time_it h]
  simp only
  have hlastline : startsWith "save state_phys".toList
      (((Line.text nm v0 itLine ++ ['\n']) :: pyLines (tail 1000 (log nm S [] (a ++ .info v d :: b)))).getLastD []) =
        false := by
    rw [hl, hm, flatMap_snoc, ← List.append_assoc, ← List.cons_append, getLastD_append _ _ (msgLines_ne S m), sw_false]
    exact not_saved h S m (hms m hmem) hmlast _ (List.getLast_mem _)
  rw [hlastline]
  simp only [Bool.false_eq_true, if_false]
  have hf : (((Line.text nm v0 itLine ++ ['\n']) :: pyLines (tail 1000 (log nm S [] (a ++ .info v d :: b)))).filter
      (startsWith "it =".toList)).getLast? = some (Line.text nm v itLine ++ ['\n']) := by
    rw [hl, ← List.cons_append, List.filter_append, it_head, filter_heads h S startLastHeads _
      (fun x hx => hms x (by simp only [List.mem_append]; exact Or.inr hx)) itLine (itLine_mem S) rfl
      ⟨"it =", by simp [startLastHeads], it_head⟩]
    simp [infos, hb]
  rw [hf]
  simp only
  rw [time_it h]
  rfl

theorem exMs_startLast : ∀ m ∈ exMs, MsgOk startLastHeads m := by
  intro m hm
  simp only [exMs, List.mem_cons, List.not_mem_nil, or_false] at hm
  rcases hm with rfl | rfl | rfl | rfl | rfl | rfl | rfl | rfl | rfl
  case inl => show Foreign _ _; unfold Foreign; decide +kernel
  case inr.inr.inr.inr.inl => show '\n' ∉ _; decide +kernel
  case inr.inr.inr.inr.inr.inr.inr.inr => show Foreign _ _; unfold Foreign; decide +kernel
  all_goals trivial

example : startLast exNum (log exNum .ns2d [] exMs) = some (.ok (4, 31)) :=
  C66_start_last_partial exNum_ok .ns2d (exMs.take 7) [.other "Computation completed".toList] (exV 30) (exV 3) (some 59)
    exMs_startLast rfl rfl (by decide +kernel) (by intro n hn; simp at hn)

/-! ### After the saving of a file -/

theorem beforeFirst_skip (a : Str) (ha : ∀ c ∈ a, c ≠ '_') (s : Str) :
    beforeFirst "_it=".toList (a ++ s) = a ++ beforeFirst "_it=".toList s := by
  induction a with
  | nil => rfl
  | cons c a ih =>
    have hc := ha c (by simp)
    have : ("_it=".toList).isPrefixOf (c :: (a ++ s)) = false := by
      show List.isPrefixOf ['_', 'i', 't', '='] (c :: (a ++ s)) = false
      simp [List.isPrefixOf, Ne.symm hc]
    rw [List.cons_append, beforeFirst, this, ih fun x hx => ha x (by simp [hx])]
    rfl

theorem beforeFirst_pre (s : Str) : beforeFirst "_it=".toList (Verif.PhysFiles.pre ++ s) =
    Verif.PhysFiles.pre ++ beforeFirst "_it=".toList s := by
  show beforeFirst ['_', 'i', 't', '='] ('s' :: 't' :: 'a' :: 't' :: 'e' :: '_' :: 'p' :: 'h' :: 'y' :: 's' :: '_' :: 't' :: s) =
    's' :: 't' :: 'a' :: 't' :: 'e' :: '_' :: 'p' :: 'h' :: 'y' :: 's' :: '_' :: 't' :: beforeFirst ['_', 'i', 't', '='] s
  simp [beforeFirst, List.isPrefixOf]

theorem afterLast_pre (T : Str) (hT : 's' ∉ T) : afterLast "state_phys_t".toList (Verif.PhysFiles.pre ++ T) = T := by
  have hi : isInfix ['s', 't', 'a', 't', 'e', '_', 'p', 'h', 'y', 's', '_', 't'] T = false := by
    by_contra hc
    rw [Bool.not_eq_false] at hc
    exact hT (isInfix_mem (by decide) hc)
  show afterLast ['s', 't', 'a', 't', 'e', '_', 'p', 'h', 'y', 's', '_', 't']
    ('s' :: 't' :: 'a' :: 't' :: 'e' :: '_' :: 'p' :: 'h' :: 'y' :: 's' :: '_' :: 't' :: T) = T
  rw [afterLast]
  have : isInfix ['s', 't', 'a', 't', 'e', '_', 'p', 'h', 'y', 's', '_', 't']
      ('t' :: 'a' :: 't' :: 'e' :: '_' :: 'p' :: 'h' :: 'y' :: 's' :: '_' :: 't' :: T) = false := by
    simp [isInfix, List.isPrefixOf, hi]
  rw [this]
  simp [List.isPrefixOf]

theorem stem_ext (a : Str) : stem (a ++ Verif.PhysFiles.ext) = a := by
  show (((a ++ ['.', 'n', 'c']).reverse.dropWhile (· ≠ '.')).tail).reverse = a
  simp

theorem fmt_char (w m : ℕ) : ∀ c ∈ Verif.PhysFiles.fmt w m, isDig c = true ∨ c = '.' := by
  intro c hc
  rw [Verif.PhysFiles.fmt_eq, List.mem_append, List.mem_cons] at hc
  rcases hc with hc | hc | hc
  · exact Or.inl (Verif.PhysFiles.intPart_isDig _ _ c hc)
  · exact Or.inr hc
  · exact Or.inl ((fixed_spec _ _).1 c hc)

theorem dig_ne {c : Char} (h : isDig c = true) : c ≠ '_' ∧ c ≠ 's' := by
  have := Verif.PhysFiles.isDig_bounds h
  refine ⟨?_, ?_⟩ <;>
  · rintro rfl
    revert this
    decide

/-- The name of a file: with or without the iteration. -/
def fileName (w m : ℕ) (it : Option ℕ) : Str :=
  Verif.PhysFiles.pre ++ Verif.PhysFiles.fmt w m ++ (match it with | none => [] | some n => Verif.PhysFiles.itText n) ++
    Verif.PhysFiles.ext

theorem fileName_noWs (w m : ℕ) (it : Option ℕ) : ∀ c ∈ fileName w m it, isWs c = false := by
  intro c hc
  simp only [fileName, List.mem_append] at hc
  rcases hc with ((hc | hc) | hc) | hc
  · revert c; decide +kernel
  · rcases fmt_char _ _ c hc with h | rfl
    · exact (dig_not h).1
    · rfl
  · cases it with
    | none => simp at hc
    | some n =>
      simp only [Verif.PhysFiles.itText, List.mem_append] at hc
      rcases hc with hc | hc
      · revert c; decide +kernel
      · exact (dig_not (digs_isDig _ c hc)).1
  · revert c; decide +kernel

theorem savedTime_ok (w m : ℕ) (it : Option ℕ) (x : K) (hx : nm.pyFloat (Verif.PhysFiles.fmt w m) = some x) :
    savedTime nm (savedHead ++ (' ' :: fileName w m it ++ ['\n'])) = .ok x := by
  have hw : (splitWs (savedHead ++ (' ' :: fileName w m it ++ ['\n']))).getLast? = some (fileName w m it) := by
    rw [List.cons_append, split_append _ _ ' ' rfl, split_eol, split_word _ (fileName_noWs w m it)
      (by simp [fileName, Verif.PhysFiles.ext])]
    simp
  have hT : ∀ c ∈ Verif.PhysFiles.fmt w m, c ≠ '_' ∧ c ≠ 's' := by
    intro c hc
    rcases fmt_char _ _ c hc with h | rfl
    · exact dig_ne h
    · decide
  have hb : beforeFirst "_it=".toList (stem (fileName w m it)) = Verif.PhysFiles.pre ++ Verif.PhysFiles.fmt w m := by
    unfold fileName
    rw [stem_ext, List.append_assoc, beforeFirst_pre, beforeFirst_skip _ fun c hc => (hT c hc).1]
    cases it with
    | none => simp [beforeFirst]
    | some n =>
      have : beforeFirst "_it=".toList (Verif.PhysFiles.itText n) = [] := by
        show beforeFirst ['_', 'i', 't', '='] ('_' :: 'i' :: 't' :: '=' :: digs n) = []
        simp [beforeFirst, List.isPrefixOf]
      simp only
      rw [this, List.append_nil]
  unfold savedTime
  rw [hw]
  simp only
  rw [hb, afterLast_pre _ fun hm => (hT _ hm).2 rfl, hx]

/-- When the last message is that a file has been saved, the last time is the one in the name of the file. -/
theorem C66_start_last_saved (h : NumOk nm rd) (S : Solver) (a : List (Msg K)) (v0 : Str → K) (w m : ℕ)
    (it : Option ℕ) (x : K) (hms : ∀ m ∈ a, MsgOk startLastHeads m) (h0 : (infos a).head? = some v0)
    (hx : nm.pyFloat (Verif.PhysFiles.fmt w m) = some x) (hlen : (fileName w m it).length ≤ 900) :
    startLast nm (log nm S [] (a ++ [.saved (fileName w m it)])) =
      some (.ok (rd "t".toList (v0 "t".toList), x)) := by
  have hno : '\n' ∉ fileName w m it := by
    intro hc
    have := fileName_noWs w m it _ hc
    revert this
    decide
  have hms' : ∀ y ∈ a ++ [Msg.saved (fileName w m it)], MsgOk (K := K) startLastHeads y := by
    intro y hy
    rcases List.mem_append.1 hy with hy | hy
    · exact hms y hy
    · rw [List.mem_singleton.1 hy]; exact hno
  have hfirst : (infos (a ++ [Msg.saved (fileName w m it)])).head? = some v0 := by
    rw [infos_append]; simpa [infos] using h0
  have e : log nm S [] (a ++ [.saved (fileName w m it)]) = log nm S [] a ++ log nm S [] [.saved (fileName w m it)] := by
    rw [log_eq, log_eq, log_eq]; simp
  have hl1 : (log nm S [] [.saved (fileName w m it)]).length ≤ 1000 := by
    rw [log_eq]
    simp [msgText, withEol]
    have : savedHead.length = 23 := by decide
    omega
  obtain ⟨n, hn⟩ := tail_append 1000 (log nm S [] a) _ hl1
  have hl : pyLines (tail 1000 (log nm S [] (a ++ [.saved (fileName w m it)]))) =
      pyLines ((log nm S [] a).drop n) ++ [savedHead ++ (' ' :: fileName w m it ++ ['\n'])] := by
    rw [e, hn, pyLines_split _ _ (drop_last _ n (log_last S a)), pyLines_log, List.flatMap_cons, List.flatMap_nil,
      List.append_nil, lines_saved S _ hno]
  unfold startLast
  rw [find_it h S _ hms', hfirst]
  simp only [Option.map_some]
  rw [time_it h]
  simp only
  have hlast : ((Line.text nm v0 itLine ++ ['\n']) ::
      pyLines (tail 1000 (log nm S [] (a ++ [.saved (fileName w m it)])))).getLastD [] =
        savedHead ++ (' ' :: fileName w m it ++ ['\n']) := by
    rw [hl, ← List.cons_append, getLastD_append _ _ (by simp)]
    simp
  rw [hlast]
  have hs : startsWith "save state_phys".toList (savedHead ++ (' ' :: fileName w m it ++ ['\n'])) = true := by
    rw [sw_true]
    exact List.IsPrefix.trans (by decide) (List.prefix_append _ _)
  rw [hs, if_pos rfl, savedTime_ok w m it x hx]
  rfl

/-- Numbers for the example: the dot is not read. -/
def exNum2 : Num ℕ where
  fmt := fun _ x => digs x
  pyFloat := fun w => some (Verif.PhysFiles.digitsVal (w.filter isDig))

theorem exNum2_ok : NumOk exNum2 fun _ x => x := by
  intro n x
  obtain ⟨p, w, h1, h2, h3, h4⟩ := exNum_ok n x
  refine ⟨0, digs x, rfl, Verif.PhysFiles.digs_ne_nil x, digs_noWs x, ?_⟩
  have : (digs x).filter isDig = digs x := List.filter_eq_self.2 (digs_isDig x)
  simp [exNum2, this, Verif.PhysFiles.digitsVal_digs]

example : startLast exNum2 (log exNum2 .ns2d [] (exMs ++ [.saved (fileName 7 14500 (some 12))])) = some (.ok (4, 14500)) :=
  C66_start_last_saved exNum2_ok .ns2d exMs (exV 3) 7 14500 (some 12) 14500 exMs_startLast rfl
    (by decide +kernel) (by decide +kernel)

/-- When the last 1000 characters of the log contain no beginning of an information, the last time returned is
the first one. -/
theorem C66_start_last_stale_violated (h : NumOk nm rd) (S : Solver) (ms : List (Msg K)) (v0 : Str → K) (text : Str)
    (hms : ∀ m ∈ ms, MsgOk startLastHeads m) (ht : Foreign startLastHeads text) (h0 : (infos ms).head? = some v0)
    (hlong : 999 ≤ text.length) (hno : ∀ n, Foreign startLastHeads (text.drop n)) :
    startLast nm (log nm S [] (ms ++ [.other text])) =
      some (.ok (rd "t".toList (v0 "t".toList), rd "t".toList (v0 "t".toList))) := by
  have hms' : ∀ y ∈ ms ++ [Msg.other text], MsgOk (K := K) startLastHeads y := by
    intro y hy
    rcases List.mem_append.1 hy with hy | hy
    · exact hms y hy
    · rw [List.mem_singleton.1 hy]; exact ht
  have hfirst : (infos (ms ++ [Msg.other text])).head? = some v0 := by
    rw [infos_append]; simpa [infos] using h0
  obtain ⟨n, hn⟩ : ∃ n, tail 1000 (log nm S [] (ms ++ [.other text])) = text.drop n ++ ['\n'] := by
    rw [log_append]
    show ∃ n, tail 1000 (log nm S [] ms ++ (text ++ ['\n'])) = _
    refine ⟨text.length - 999, ?_⟩
    unfold tail
    have e : (log nm S [] ms ++ (text ++ ['\n'])).length - min (log nm S [] ms ++ (text ++ ['\n'])).length 1000 =
        (log nm S [] ms).length + (text.length - 999) := by
      simp; omega
    rw [e, List.drop_append, List.drop_append_of_le_length (by omega)]
    simp
  have hF := hno n
  unfold startLast
  rw [find_it h S _ hms', hfirst]
  simp only [Option.map_some]
  rw [time_it h]
  simp only
  rw [hn]
  have hne : pyLines (text.drop n ++ ['\n']) ≠ [] := pyLines_ne _ (by simp)
  have h1 : startsWith "save state_phys".toList
      (((Line.text nm v0 itLine ++ ['\n']) :: pyLines (text.drop n ++ ['\n'])).getLastD []) = false := by
    rw [← List.singleton_append, getLastD_append _ _ hne, sw_false]
    exact hF _ (List.getLast_mem hne) "save state_phys" (by simp [startLastHeads])
  have h2 : (pyLines (text.drop n ++ ['\n'])).filter (startsWith "it =".toList) = [] :=
    filter_none _ _ fun l hl => hF l hl "it =" (by simp [startLastHeads])
  have h3 : startsWith "it =".toList (Line.text nm v0 itLine ++ ['\n']) = true := by
    obtain ⟨t, ht⟩ := text_head (nm := nm) v0 itLine (by decide)
    rw [sw_true, ht, it_head, List.append_assoc, List.append_assoc]
    exact List.prefix_append _ _
  rw [h1]
  simp only [Bool.false_eq_true, if_false]
  rw [List.filter_cons, if_pos h3, h2]
  simp only [List.getLast?_singleton]
  rw [time_it h]
  rfl

theorem foreign_x (k n : ℕ) : Foreign startLastHeads ((List.replicate k 'x').drop n) := by
  rw [List.drop_replicate]
  generalize k - n = k
  unfold Foreign
  have hl : '\n' ∉ List.replicate k 'x' := by
    intro hm
    exact absurd (List.eq_of_mem_replicate hm) (by decide)
  rw [Verif.MeansFile.pyLines_line _ [] hl]
  intro l hl h hh
  have hl' : l = List.replicate k 'x' ++ ['\n'] := by simpa [pyLines] using hl
  subst hl'
  simp only [startLastHeads, List.mem_cons, List.not_mem_nil, or_false] at hh
  cases k with
  | zero => rcases hh with rfl | rfl <;> decide
  | succ k =>
    rw [List.replicate_succ, List.cons_append]
    rcases hh with rfl | rfl
    · show ¬ ('i' :: ['t', ' ', '=']) <+: _
      intro hc
      exact absurd (List.cons_prefix_cons.1 hc).1 (by decide)
    · show ¬ ('s' :: "ave state_phys".toList) <+: _
      intro hc
      exact absurd (List.cons_prefix_cons.1 hc).1 (by decide)

example : startLast exNum (log exNum .ns2d [] (exMs ++ [.other (List.replicate 2000 'x')])) = some (.ok (4, 4)) :=
  C66_start_last_stale_violated exNum_ok .ns2d exMs (exV 3) _ exMs_startLast
    (by have := foreign_x 2000 0; rwa [List.drop_zero] at this) rfl (by rw [List.length_replicate]; omega) (foreign_x 2000)

/-- Without any information in the log, the function never returns. -/
theorem C66_start_last_no_info_violated (h : NumOk nm rd) (S : Solver) (ms : List (Msg K))
    (hms : ∀ m ∈ ms, MsgOk startLastHeads m) : startLast nm (log nm S [] ms) = none ↔ infos ms = [] := by
  unfold startLast
  rw [find_it h S _ hms]
  cases hi : infos ms with
  | nil => simp
  | cons v r =>
    simp only [List.head?_cons, Option.map_some]
    rw [time_it h]
    simp only
    split_ifs
    · simp
    · split <;> simp

example : startLast exNum (log exNum .ns3d [] [.other "Initialization".toList, .untilIt 3]) = none :=
  (C66_start_last_no_info_violated exNum_ok .ns3d _ (by
    intro m hm
    simp only [List.mem_cons, List.not_mem_nil, or_false] at hm
    rcases hm with rfl | rfl
    · show Foreign _ _; unfold Foreign; decide +kernel
    · trivial)).2 rfl

/-! ## The last estimated duration -/

/-- The text looked for. -/
def erd : Str := "estimated remaining duration".toList

/-- The messages which do not mention an estimated duration. -/
def Quiet : Msg K → Prop
  | .info _ d => d = none
  | .saved name => '\n' ∉ name
  | .other text => ¬ erd <:+: text
  | _ => True

theorem strip_prefix (s : Str) : strip s <+: s.dropWhile isWs := by
  unfold strip
  rw [← List.reverse_suffix, List.reverse_reverse]
  exact List.dropWhile_suffix _

theorem strip_infix (s : Str) : strip s <:+: s :=
  (strip_prefix s).isInfix.trans (List.dropWhile_suffix _).isInfix

theorem splitChar_infix (c : Char) (s : Str) : ∀ l ∈ splitChar c s, l <:+: s := by
  have key : ∀ s : Str, (∀ l ∈ splitChar c s, l <:+: s) ∧ ∀ l r, splitChar c s = l :: r → l <+: s := by
    intro s
    induction s with
    | nil =>
      refine ⟨?_, ?_⟩
      · intro l hl
        have : l = [] := by simpa [splitChar] using hl
        rw [this]
        exact List.infix_rfl
      · intro l r h
        simp only [splitChar, List.cons.injEq] at h
        rw [← h.1]
        exact List.nil_prefix
    | cons x s ih =>
      obtain ⟨i1, i2⟩ := ih
      by_cases hx : x = c
      · have e : splitChar c (x :: s) = [] :: splitChar c s := by rw [splitChar, if_pos hx]
        refine ⟨?_, ?_⟩
        · intro l hl
          rw [e] at hl
          rcases List.mem_cons.1 hl with rfl | hl
          · exact (List.nil_prefix).isInfix
          · exact (i1 l hl).trans (List.suffix_cons _ _).isInfix
        · intro l r h
          rw [e, List.cons.injEq] at h
          rw [← h.1]
          exact List.nil_prefix
      · cases hs : splitChar c s with
        | nil =>
          have e : splitChar c (x :: s) = [[x]] := by rw [splitChar, if_neg hx, hs]
          refine ⟨?_, ?_⟩
          · intro l hl
            rw [e] at hl
            rw [List.mem_singleton.1 hl]
            exact (show [x] <+: x :: s by simp).isInfix
          · intro l r h
            rw [e, List.cons.injEq] at h
            rw [← h.1]
            simp
        | cons y t =>
          have e : splitChar c (x :: s) = (x :: y) :: t := by rw [splitChar, if_neg hx, hs]
          have hy := i2 y t hs
          refine ⟨?_, ?_⟩
          · intro l hl
            rw [e] at hl
            rcases List.mem_cons.1 hl with rfl | hl
            · exact (List.cons_prefix_cons.2 ⟨rfl, hy⟩).isInfix
            · exact (i1 l (by rw [hs]; simp [hl])).trans (List.suffix_cons _ _).isInfix
          · intro l r h
            rw [e, List.cons.injEq] at h
            rw [← h.1]
            exact List.cons_prefix_cons.2 ⟨rfl, hy⟩
  exact (key s).1

theorem strip_apart (a t : Str) (ha : a.dropWhile isWs ≠ []) (h : Apart erd (a.dropWhile isWs)) :
    startsWith erd (strip (a ++ t)) = false := by
  rw [sw_false]
  intro hc
  have := hc.trans (strip_prefix _)
  rw [List.dropWhile_append, if_neg (by simpa using ha)] at this
  exact apart_not h t this

theorem lines_erd (S : Solver) : ∀ l ∈ S.lines, (l.head ++ [' ']).dropWhile isWs ≠ [] ∧
    Apart erd ((l.head ++ [' ']).dropWhile isWs) := by
  cases S <;> decide +kernel

theorem split_withEol (ls : List Str) (h : ∀ l ∈ ls, '\n' ∉ l) (b : Str) :
    splitChar '\n' (withEol ls ++ b) = ls ++ splitChar '\n' b := by
  induction ls with
  | nil => simp [withEol]
  | cons l ls ih =>
    have e : withEol (l :: ls) ++ b = l ++ '\n' :: (withEol ls ++ b) := by simp [withEol]
    rw [e, splitChar_append, splitChar_nil _ _ (h l (by simp)), ih fun x hx => h x (by simp [hx])]
    rfl

theorem quiet_lines (h : NumOk nm rd) (S : Solver) (b : List (Msg K)) (hb : ∀ m ∈ b, Quiet m) :
    ∀ l ∈ splitChar '\n' (b.flatMap (msgText nm S)), startsWith erd (strip l) = false := by
  induction b with
  | nil =>
    intro l hl
    have : l = [] := by simpa [splitChar] using hl
    rw [this]
    decide +kernel
  | cons m b ih =>
    intro l hl
    have ih' := ih fun x hx => hb x (by simp [hx])
    have hq := hb m (by simp)
    rw [List.flatMap_cons] at hl
    have one : ∀ a t : Str, msgText nm S m = withEol [a ++ t] → '\n' ∉ a ++ t → a.dropWhile isWs ≠ [] →
        Apart erd (a.dropWhile isWs) → startsWith erd (strip l) = false := by
      intro a t e1 e2 e3 e4
      rw [e1, split_withEol _ (by intro x hx; rw [List.mem_singleton.1 hx]; exact e2)] at hl
      rcases List.mem_append.1 hl with hl | hl
      · rw [List.mem_singleton.1 hl]
        exact strip_apart a t e3 e4
      · exact ih' l hl
    cases m with
    | info v d =>
      have hd : d = none := hq
      subst hd
      rw [msgText, split_withEol] at hl
      · rcases List.mem_append.1 hl with hl | hl
        · rcases List.mem_append.1 hl with hl | hl
          · obtain ⟨k, hk, rfl⟩ := List.mem_map.1 hl
            obtain ⟨t, ht⟩ := text_head (nm := nm) v k ((lines_ok S).ne k hk)
            rw [ht]
            exact strip_apart _ t (lines_erd S k hk).1 (lines_erd S k hk).2
          · rw [List.mem_singleton.1 hl]
            decide +kernel
        · exact ih' l hl
      · intro x hx
        rcases List.mem_append.1 hx with hx | hx
        · obtain ⟨k, hk, rfl⟩ := List.mem_map.1 hx
          exact text_noEol h S v k hk
        · rw [List.mem_singleton.1 hx]
          exact durLine_noEol _
    | untilT t =>
      refine one untilTHead (' ' :: nm.fmt "t_end".toList t) rfl ?_ (by decide +kernel) (by decide +kernel)
      simp only [List.mem_append, List.mem_cons, not_or]
      exact ⟨by decide, by decide, Verif.MeansFile.numOk_noEol h _ _⟩
    | untilIt n =>
      refine one "    compute until it = ".toList (List.replicate (8 - (digs n).length) ' ' ++ digs n)
        (by rw [msgText, List.append_assoc]) ?_ (by decide +kernel) (by decide +kernel)
      simp only [List.mem_append, not_or]
      refine ⟨by decide, ?_, fun hm => (dig_not (digs_isDig _ _ hm)).2.1 rfl⟩
      intro hm
      exact absurd (List.eq_of_mem_replicate hm) (by decide)
    | saved s =>
      refine one savedHead (' ' :: s) rfl ?_ (by decide +kernel) (by decide +kernel)
      simp only [List.mem_append, List.mem_cons, not_or]
      exact ⟨by decide, by decide, hq⟩
    | other text =>
      rw [msgText, List.append_assoc, List.singleton_append, splitChar_append] at hl
      rcases List.mem_append.1 hl with hl | hl
      · rw [sw_false]
        intro hc
        exact hq (hc.isInfix.trans ((strip_infix l).trans (splitChar_infix _ _ l hl)))
      · exact ih' l hl

theorem strip_noWs (a : Str) (h1 : a.head?.map isWs = some false) (h2 : a.getLast?.map isWs = some false) :
    strip a = a := by
  have d : ∀ s : Str, s.head?.map isWs = some false → s.dropWhile isWs = s := by
    intro s hs
    cases s with
    | nil => rfl
    | cons c s =>
      simp only [List.head?_cons, Option.map_some, Option.some.injEq] at hs
      rw [List.dropWhile_cons, hs]
      rfl
  unfold strip
  rw [d a h1, d a.reverse (by rw [List.head?_reverse]; exact h2), List.reverse_reverse]

theorem hms_last (s : ℕ) : ∃ c, (hms s).getLast? = some c ∧ isWs c = false := by
  obtain ⟨c, hc⟩ : ∃ c, (hms s).getLast? = some c :=
    ⟨_, List.getLast?_eq_getLast_of_ne_nil (hms_ne s)⟩
  exact ⟨c, hc, hms_noWs s c (List.mem_of_getLast? hc)⟩

theorem durText_last (n : ℕ) : (durText n).getLast?.map isWs = some false := by
  obtain ⟨c, h1, h2⟩ := hms_last (n % 86400)
  rw [durText_eq, List.getLast?_append, h1]
  simp only [Option.some_or, Option.map_some, h2]

theorem durText_head (n : ℕ) : (durText n).head?.map isWs = some false := by
  have hd : ∀ k (r : Str), (digs k ++ r).head?.map isWs = some false := by
    intro k r
    cases hk : digs k with
    | nil => exact absurd hk (Verif.PhysFiles.digs_ne_nil k)
    | cons c s =>
      have := digs_noWs k c (by rw [hk]; simp)
      simp [this]
  rw [durText_eq]
  split_ifs with h1 h2
  · rw [List.nil_append, hms, List.append_assoc]
    exact hd _ _
  · rw [List.append_assoc]; exact hd _ _
  · rw [List.append_assoc]; exact hd _ _

theorem durText_noEq (n : ℕ) : '=' ∉ durText n := by
  rw [durText_eq]
  intro hm
  have hh : '=' ∉ hms (n % 86400) := by
    intro h
    rcases hms_char _ _ h with h | h
    · exact (dig_not h).2.2.2.2 rfl
    · revert h; decide
  rcases List.mem_append.1 hm with h | h
  · split_ifs at h with h1 h2
    · simp at h
    · rcases List.mem_append.1 h with h | h
      · exact (dig_not (digs_isDig _ _ h)).2.2.2.2 rfl
      · revert h; decide
    · rcases List.mem_append.1 h with h | h
      · exact (dig_not (digs_isDig _ _ h)).2.2.2.2 rfl
      · revert h; decide
  · exact hh h

theorem beforeFirst_noEq (s : Str) (h : '=' ∉ s) : beforeFirst " = ".toList s = s := by
  induction s with
  | nil => rfl
  | cons c s ih =>
    have : (" = ".toList).isPrefixOf (c :: s) = false := by
      by_contra hc
      rw [Bool.not_eq_false, List.isPrefixOf_iff_prefix] at hc
      exact h (hc.subset (by decide))
    rw [beforeFirst, this, ih fun hm => h (List.mem_cons_of_mem _ hm)]
    rfl

theorem strip_durLine (n : ℕ) : strip (durLine (some n)) = erd ++ " = ".toList ++ durText n := by
  have e : (durLine (some n)).dropWhile isWs = erd ++ " = ".toList ++ durText n := by
    rw [durLine, List.append_assoc, List.dropWhile_append]
    have : estimated.dropWhile isWs = erd := by decide +kernel
    rw [this, if_neg (by decide +kernel), List.append_assoc]
  have h1 : (erd ++ " = ".toList ++ durText n).head?.map isWs = some false := by
    rw [List.append_assoc]
    show (('e' :: _).head?.map isWs) = some false
    rfl
  have h2 : (erd ++ " = ".toList ++ durText n).getLast?.map isWs = some false := by
    have := durText_last n
    rw [List.getLast?_append]
    cases hd : (durText n).getLast? with
    | none => rw [hd] at this; simp at this
    | some c => rw [hd] at this; simpa using this
  have := strip_noWs _ h1 h2
  unfold strip at this ⊢
  rw [e]
  have d : (erd ++ " = ".toList ++ durText n).dropWhile isWs = erd ++ " = ".toList ++ durText n := by
    rw [List.append_assoc, List.dropWhile_append]
    have : erd.dropWhile isWs = erd := by decide +kernel
    rw [this, if_neg (by decide +kernel)]
  rw [d] at this
  exact this

theorem part1_dur (n : ℕ) : part1 " = ".toList (erd ++ " = ".toList ++ durText n) = some (durText n) := by
  have skip : ∀ (a s : Str), (∀ k < a.length, ¬ " = ".toList <+: (a ++ s).drop k) →
      part1 " = ".toList (a ++ s) = part1 " = ".toList s := by
    intro a
    induction a with
    | nil => intro s _; rfl
    | cons c a ih =>
      intro s H
      have h0 := H 0 (by simp)
      have : (" = ".toList).isPrefixOf (c :: (a ++ s)) = false := by
        by_contra hc
        rw [Bool.not_eq_false, List.isPrefixOf_iff_prefix] at hc
        exact h0 hc
      rw [List.cons_append, part1, this]
      simp only [Bool.false_eq_true, if_false]
      apply ih
      intro k hk
      have := H (k + 1) (by simpa using hk)
      simpa using this
  rw [List.append_assoc, skip]
  · show part1 (' ' :: '=' :: ' ' :: []) (' ' :: '=' :: ' ' :: durText n) = _
    rw [part1]
    have : List.isPrefixOf (' ' :: '=' :: ' ' :: []) (' ' :: '=' :: ' ' :: durText n) = true := by
      rw [List.isPrefixOf_iff_prefix]
      exact List.prefix_append [' ', '=', ' '] (durText n)
    rw [this, if_pos rfl]
    show some (beforeFirst " = ".toList (durText n)) = _
    rw [beforeFirst_noEq _ (durText_noEq n)]
  · intro k hk
    have hk' : k < 28 := hk
    have e : (erd ++ (" = ".toList ++ durText n)).drop k = (erd ++ " = ".toList).drop k ++ durText n := by
      rw [← List.append_assoc, List.drop_append_of_le_length]
      have : (erd ++ " = ".toList).length = 31 := by decide
      omega
    rw [e]
    have : ∀ k < 28, Apart " = ".toList ((erd ++ " = ".toList).drop k) := by decide +kernel
    exact apart_not (this k hk') _

/-- The last estimated duration is returned, if it is among the last 3000 characters of the log. -/
theorem C66_last_duration (h : NumOk nm rd) (S : Solver) (a b : List (Msg K)) (v : Str → K) (n : ℕ)
    (hb : ∀ m ∈ b, Quiet m) (hlen : (durLine (some n)).length + 1 + (log nm S [] b).length ≤ 3000) :
    lastDuration (log nm S [] (a ++ .info v (some n) :: b)) = .ok (durText n) := by
  have e : log nm S [] (a ++ .info v (some n) :: b) =
      (log nm S [] a ++ withEol (S.lines.map (Line.text nm v))) ++ (durLine (some n) ++ '\n' :: log nm S [] b) := by
    rw [log_eq, log_eq, log_eq, List.flatMap_append, List.flatMap_cons, msgText, withEol_append]
    simp [withEol]
  have hA : (log nm S [] a ++ withEol (S.lines.map (Line.text nm v))) = [] ∨
      (log nm S [] a ++ withEol (S.lines.map (Line.text nm v))).getLast? = some '\n' := by
    rcases withEol_last (S.lines.map (Line.text nm v)) with h1 | h1
    · rw [h1, List.append_nil]; exact log_last S a
    · right; rw [List.getLast?_append, h1]; rfl
  obtain ⟨k, hk⟩ := tail_append 3000 (log nm S [] a ++ withEol (S.lines.map (Line.text nm v)))
    (durLine (some n) ++ '\n' :: log nm S [] b) (by simp; omega)
  obtain ⟨pre, hpre⟩ : ∃ pre, splitChar '\n' (tail 3000 (log nm S [] (a ++ .info v (some n) :: b))) =
      pre ++ (durLine (some n) :: splitChar '\n' (log nm S [] b)) := by
    rw [e, hk]
    have hs : splitChar '\n' (durLine (some n) ++ '\n' :: log nm S [] b) =
        durLine (some n) :: splitChar '\n' (log nm S [] b) := by
      rw [splitChar_append, splitChar_nil _ _ (durLine_noEol _)]
      rfl
    rcases drop_last _ k hA with h1 | h1
    · exact ⟨[], by rw [h1, List.nil_append, hs]; rfl⟩
    · obtain ⟨l, hl⟩ := List.getLast?_eq_some_iff.1 h1
      refine ⟨splitChar '\n' l, ?_⟩
      rw [hl, List.append_assoc, List.singleton_append, splitChar_append, hs]
  have hq := quiet_lines h S b hb
  rw [show b.flatMap (msgText nm S) = log nm S [] b by rw [log_eq]; simp] at hq
  have hf : ((splitChar '\n' (tail 3000 (log nm S [] (a ++ .info v (some n) :: b)))).reverse.map strip).find?
      (startsWith "estimated remaining duration".toList) = some (erd ++ " = ".toList ++ durText n) := by
    rw [hpre]
    simp only [List.reverse_append, List.reverse_cons, List.map_append, List.map_cons, List.map_nil, List.find?_append]
    have h1 : ((splitChar '\n' (log nm S [] b)).reverse.map strip).find?
        (startsWith "estimated remaining duration".toList) = none := by
      rw [List.find?_eq_none]
      intro x hx
      obtain ⟨y, hy, rfl⟩ := List.mem_map.1 hx
      have := hq y (List.mem_reverse.1 hy)
      rw [show "estimated remaining duration".toList = erd from rfl, this]
      simp
    have h2 : List.find? (startsWith "estimated remaining duration".toList) [strip (durLine (some n))] =
        some (erd ++ " = ".toList ++ durText n) := by
      rw [strip_durLine, List.find?_cons]
      have : startsWith "estimated remaining duration".toList (erd ++ " = ".toList ++ durText n) = true := by
        rw [sw_true, List.append_assoc]
        exact List.prefix_append _ _
      rw [this]
    rw [h1, h2]
    rfl
  unfold lastDuration
  rw [hf]
  simp only
  rw [part1_dur]
  simp only
  rw [strip_noWs _ (durText_head n) (durText_last n)]

example : lastDuration (log exNum .strat [] exMs) = .ok "0:00:59".toList :=
  C66_last_duration exNum_ok .strat (exMs.take 7) [.other "Computation completed".toList] (exV 30) 59
    (by
      intro m hm
      rw [List.mem_singleton.1 hm]
      show ¬ _ <:+: _
      decide +kernel) (by decide +kernel)

/-- Without estimated duration, an error is raised. What is missing: texts of more than 3000 characters. -/
theorem C66_no_duration_partial (h : NumOk nm rd) (S : Solver) (ms : List (Msg K)) (hms : ∀ m ∈ ms, Quiet m)
    (hlen : (log nm S [] ms).length ≤ 3000) : lastDuration (log nm S [] ms) = .error .RuntimeError := by
  have ht : tail 3000 (log nm S [] ms) = log nm S [] ms := by
    unfold tail
    rw [min_eq_left hlen, Nat.sub_self, List.drop_zero]
  have hq := quiet_lines h S ms hms
  rw [show ms.flatMap (msgText nm S) = log nm S [] ms by rw [log_eq]; simp] at hq
  unfold lastDuration
  rw [ht]
  have h1 : ((splitChar '\n' (log nm S [] ms)).reverse.map strip).find?
      (startsWith "estimated remaining duration".toList) = none := by
    rw [List.find?_eq_none]
    intro x hx
    obtain ⟨y, hy, rfl⟩ := List.mem_map.1 hx
    have := hq y (List.mem_reverse.1 hy)
    rw [show "estimated remaining duration".toList = erd from rfl, this]
    simp
  rw [h1]

example : lastDuration (log exNum .sw1l [] [.untilT 10, .info (exV 3) none]) = .error .RuntimeError :=
  C66_no_duration_partial exNum_ok .sw1l _ (by simp [Quiet]) (by decide +kernel)

end

end Verif.StdOut
