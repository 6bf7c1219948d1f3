import Verif.StdOut.Props
import Mathlib.Tactic.Linarith
import Mathlib.Tactic.FieldSimp
import Mathlib.Tactic.Ring
import Mathlib.Algebra.Order.Field.Basic
import Mathlib.Algebra.Order.Round
import Mathlib.Data.Rat.Floor

/-! # C66: the times and the durations of the log -/

set_option linter.unusedSectionVars false

namespace Verif.StdOut

open Verif.PhysFiles (Str)
open Verif.MeansFile (splitWs pyLines Num NumOk withEol rounded exNum exNum_ok exV pyLines_split word word_split
  word_float split_append)

/-- The text of an estimated duration is read as the same duration, with or without days. -/
theorem C66_duration_text (n : ℕ) : readDur (durLine (some n) ++ ['\n']) = .ok n := readDur_ok n

example : durText 90061 = "1 day, 1:01:01".toList ∧ durText 172800 = "2 days, 0:00:00".toList ∧
    durText 59 = "0:00:59".toList := by decide +kernel

section
variable {K : Type*} {nm : Num K} {rd : Str → K → K}

/-- The beginnings of the lines used by `_load_times`. -/
def timesHeads : List String := ["it =", "    compute until t =", "              estimated remaining duration"]

/-! ## Lemmas -/

theorem timesLoop_skip (σ : Vars K) (a b : List Str) (ha : ∀ l ∈ a, timesLine nm σ l = .ok (σ, none)) :
    timesLoop nm σ (a ++ b) = timesLoop nm σ b := by
  induction a with
  | nil => rfl
  | cons l a ih =>
    rw [List.cons_append, timesLoop, ha l (by simp)]
    simp only
    rw [ih fun x hx => ha x (by simp [hx])]
    cases timesLoop nm σ b with
    | error e => rfl
    | ok p => rfl

theorem timesLine_skip (σ : Vars K) (l : Str) (h1 : ¬ "it = ".toList <+: l) (h2 : ¬ untilTHead <+: l)
    (h3 : ¬ estimated <+: l) : timesLine nm σ l = .ok (σ, none) := by
  unfold timesLine
  rw [(sw_false _ _).2 h1, (sw_false _ _).2 h2, (sw_false _ _).2 h3]
  rfl

/-- The local variables after a message. -/
def stepVars (rd : Str → K → K) (σ : Vars K) : Msg K → Vars K
  | .info v _ => σ.next (rd "it".toList (v "it".toList)) (rd "t".toList (v "t".toList))
      (rd "deltat".toList (v "deltat".toList))
  | .untilT t => { σ with tEnd := some (rd "t_end".toList t) }
  | _ => σ

/-- What is appended for a line with a duration. -/
def entryVars (σ : Vars K) (n : ℕ) : Except Err (Entry K) :=
  match σ.time, σ.timeLast, σ.it, σ.itLast with
  | some t, some t', some i, some i' =>
    match σ.tEnd, σ.dt with
    | some te, some dt => .ok ⟨n, t, t', i, i', te, dt⟩
    | _, _ => .error .UnboundLocalError
  | _, _, _, _ => .error .TypeError

/-- The loop at the level of the messages. -/
def msgLoop (rd : Str → K → K) : Vars K → List (Msg K) → Except Err (Vars K × List (Entry K))
  | σ, [] => .ok (σ, [])
  | σ, .info v (some n) :: ms =>
    match entryVars (stepVars rd σ (.info v (some n))) n with
    | .error e => .error e
    | .ok x =>
      match msgLoop rd (stepVars rd σ (.info v (some n))) ms with
      | .error e => .error e
      | .ok (σ', xs) => .ok (σ', x :: xs)
  | σ, m :: ms => msgLoop rd (stepVars rd σ m) ms

theorem other_lines (S : Solver) : ∀ l ∈ S.lines, l ≠ itLine → Apart "it = ".toList (l.head ++ [' ']) ∧
    Apart untilTHead (l.head ++ [' ']) ∧ Apart estimated (l.head ++ [' ']) := by
  cases S <;> decide +kernel

theorem lines_cons (S : Solver) : ∃ r, S.lines = itLine :: r := by cases S <;> exact ⟨_, rfl⟩

theorem timesLine_it (h : NumOk nm rd) (σ : Vars K) (v : Str → K) (d : Option ℕ) :
    timesLine nm σ (Line.text nm v itLine ++ ['\n']) = .ok (stepVars rd σ (.info v d), none) := by
  obtain ⟨t, ht⟩ := text_head (nm := nm) v itLine (by decide)
  have h1 : startsWith "it = ".toList (Line.text nm v itLine ++ ['\n']) = true := by
    rw [sw_true, ht, List.append_assoc]
    exact List.prefix_append _ _
  have hf := numAt_fld h .ns2d v itLine (itLine_mem _) rfl
  have f1 := hf ⟨"it =".toList, "it".toList, 2⟩ (by decide)
  have f2 := hf ⟨"; t =".toList, "t".toList, 6⟩ (by decide)
  have f3 := hf ⟨"; deltat  =".toList, "deltat".toList, 10⟩ (by decide)
  simp only at f1 f2 f3
  unfold timesLine
  rw [if_pos h1]
  simp only
  rw [f1]
  simp only
  rw [f2]
  simp only
  rw [f3]
  rfl

theorem timesLine_dur (σ : Vars K) (n : ℕ) :
    timesLine nm σ (durLine (some n) ++ ['\n']) = (entryVars σ n).map fun x => (σ, some x) := by
  have e : durLine (some n) ++ ['\n'] = estimated ++ (" = ".toList ++ durText n ++ ['\n']) := by
    simp [durLine]
  have a1 : Apart "it = ".toList estimated := by decide +kernel
  have a2 : Apart untilTHead estimated := by decide +kernel
  have h3 : startsWith estimated (durLine (some n) ++ ['\n']) = true := by
    rw [sw_true, e]
    exact List.prefix_append _ _
  have h1 : startsWith "it = ".toList (durLine (some n) ++ ['\n']) = false := by
    rw [e]; exact apart_sw a1 _
  have h2 : startsWith untilTHead (durLine (some n) ++ ['\n']) = false := by
    rw [e]; exact apart_sw a2 _
  unfold timesLine
  rw [h1, h2, h3]
  simp only [Bool.false_eq_true, if_false, if_true]
  rw [readDur_ok]
  simp only
  unfold entryVars
  cases σ.time <;> cases σ.timeLast <;> cases σ.it <;> cases σ.itLast <;> try rfl
  cases σ.tEnd <;> cases σ.dt <;> rfl

theorem timesLine_until (h : NumOk nm rd) (σ : Vars K) (t : K) :
    timesLine nm σ (untilTHead ++ (' ' :: nm.fmt "t_end".toList t ++ ['\n'])) =
      .ok (stepVars rd σ (.untilT t), none) := by
  have h1 : startsWith "it = ".toList (untilTHead ++ (' ' :: nm.fmt "t_end".toList t ++ ['\n'])) = false :=
    apart_sw (by decide +kernel) _
  have h2 : startsWith untilTHead (untilTHead ++ (' ' :: nm.fmt "t_end".toList t ++ ['\n'])) = true := by
    rw [sw_true]; exact List.prefix_append _ _
  have hw : splitWs (untilTHead ++ (' ' :: nm.fmt "t_end".toList t ++ ['\n'])) =
      ["compute".toList, "until".toList, "t".toList, "=".toList, word h "t_end".toList t] := by
    rw [List.cons_append, split_append _ _ ' ' rfl, split_eol, word_split h]
    have : splitWs untilTHead = ["compute".toList, "until".toList, "t".toList, "=".toList] := by decide +kernel
    rw [this]
    simp only [List.cons_append, List.nil_append]
  unfold timesLine
  rw [h1, h2]
  simp only [Bool.false_eq_true, if_false, if_true]
  rw [hw]
  simp only [numAt, List.getElem?_cons_succ, List.getElem?_cons_zero]
  rw [word_float h]
  rfl

theorem loop_msgs (h : NumOk nm rd) (S : Solver) (ms : List (Msg K)) (hms : ∀ m ∈ ms, MsgOk timesHeads m) (σ : Vars K) :
    timesLoop nm σ (ms.flatMap (msgLines nm S)) = msgLoop rd σ ms := by
  induction ms generalizing σ with
  | nil => rfl
  | cons m ms ih =>
    have ih' := fun σ => ih (fun x hx => hms x (by simp [hx])) σ
    have hm := hms m (by simp)
    rw [List.flatMap_cons]
    have info : ∀ v d, timesLoop nm σ (msgLines nm S (.info v d) ++ ms.flatMap (msgLines nm S)) =
        timesLoop nm (stepVars rd σ (.info v d)) ((durLine d ++ ['\n']) :: ms.flatMap (msgLines nm S)) := by
      intro v d
      obtain ⟨r, hr⟩ := lines_cons S
      have hsub : ∀ l ∈ r, l ∈ S.lines ∧ l ≠ itLine := by
        intro l hl
        refine ⟨by rw [hr]; simp [hl], ?_⟩
        rintro rfl
        have := lines_nodup S
        rw [hr] at this
        exact (List.nodup_cons.1 this).1 hl
      rw [lines_info h, hr, List.map_cons, List.cons_append, List.cons_append, timesLoop,
        timesLine_it h σ v d]
      simp only
      rw [List.append_assoc, timesLoop_skip]
      · rw [List.cons_append, List.nil_append]
        cases timesLoop nm (stepVars rd σ (.info v d)) ((durLine d ++ ['\n']) :: ms.flatMap (msgLines nm S)) <;> rfl
      · intro x hx
        obtain ⟨l, hl, rfl⟩ := List.mem_map.1 hx
        obtain ⟨hl1, hl2⟩ := hsub l hl
        obtain ⟨t, ht⟩ := text_head (nm := nm) v l ((lines_ok S).ne l hl1)
        obtain ⟨o1, o2, o3⟩ := other_lines S l hl1 hl2
        rw [ht, List.append_assoc]
        exact timesLine_skip _ _ (apart_not o1 _) (apart_not o2 _) (apart_not o3 _)
    cases m with
    | info v d =>
      rw [info]
      cases d with
      | none =>
        have : timesLine nm (stepVars rd σ (.info v none)) (durLine none ++ ['\n']) =
            .ok (stepVars rd σ (.info v none), none) := by
          apply timesLine_skip <;> decide +kernel
        rw [timesLoop, this]
        simp only
        rw [ih', msgLoop]
        · cases msgLoop rd (stepVars rd σ (.info v none)) ms <;> rfl
        · intro _ _ hh; cases hh
      | some n =>
        rw [timesLoop, timesLine_dur, msgLoop]
        cases entryVars (stepVars rd σ (.info v (some n))) n with
        | error e => rfl
        | ok x =>
          simp only [Except.map]
          rw [ih']
          cases msgLoop rd (stepVars rd σ (.info v (some n))) ms <;> rfl
    | untilT t =>
      rw [lines_untilT h, List.cons_append, List.nil_append, timesLoop, timesLine_until h]
      simp only
      rw [ih', msgLoop]
      · cases msgLoop rd (stepVars rd σ (.untilT t)) ms <;> rfl
      · intro _ _ hh; cases hh
    | untilIt n =>
      rw [lines_untilIt, timesLoop_skip, ih', msgLoop]
      · rfl
      · intro _ _ hh; cases hh
      · intro l hl
        rw [List.mem_singleton.1 hl]
        exact timesLine_skip _ _ (apart_not (by decide +kernel) _) (apart_not (by decide +kernel) _)
          (apart_not (by decide +kernel) _)
    | saved s =>
      rw [lines_saved S s hm, timesLoop_skip, ih', msgLoop]
      · rfl
      · intro _ _ hh; cases hh
      · intro l hl
        rw [List.mem_singleton.1 hl]
        exact timesLine_skip _ _ (apart_not (by decide +kernel) _) (apart_not (by decide +kernel) _)
          (apart_not (by decide +kernel) _)
    | other text =>
      rw [timesLoop_skip, ih', msgLoop]
      · rfl
      · intro _ _ hh; cases hh
      · intro l hl
        refine timesLine_skip _ _ ?_ ?_ ?_
        · intro hc
          refine hm l hl "it =" (by simp [timesHeads]) (List.IsPrefix.trans ?_ hc)
          exact ⟨" ".toList, by decide⟩
        · exact hm l hl "    compute until t =" (by simp [timesHeads])
        · exact hm l hl "              estimated remaining duration" (by simp [timesHeads])

/-- The local variables after the messages `before`. -/
def varsOf (rd : Str → K → K) (before : List (Msg K)) : Vars K := before.foldl (stepVars rd) {}

theorem varsOf_snoc (before : List (Msg K)) (m : Msg K) :
    varsOf rd (before ++ [m]) = stepVars rd (varsOf rd before) m := by simp [varsOf]

theorem varsOf_spec (before : List (Msg K)) :
    (varsOf rd before).time = (infos before).getLast?.map (fun v => rd "t".toList (v "t".toList)) ∧
    (varsOf rd before).it = (infos before).getLast?.map (fun v => rd "it".toList (v "it".toList)) ∧
    (varsOf rd before).tEnd = (untils before).getLast?.map (fun t => rd "t_end".toList t) ∧
    (varsOf rd before).start = (infos before).head?.map (fun v => rd "t".toList (v "t".toList)) := by
  induction before using List.reverseRecOn with
  | nil => exact ⟨rfl, rfl, rfl, rfl⟩
  | append_singleton l m ih =>
    obtain ⟨i1, i2, i3, i4⟩ := ih
    rw [varsOf_snoc, infos_append, untils_append]
    cases m with
    | info v d =>
      refine ⟨?_, ?_, ?_, ?_⟩
      · simp [stepVars, Vars.next, infos]
      · simp [stepVars, Vars.next, infos]
      · simp [stepVars, Vars.next, untils, i3]
      · simp only [stepVars, Vars.next, infos, i4]
        cases infos l <;> rfl
    | untilT t =>
      refine ⟨?_, ?_, ?_, ?_⟩
      · simp [stepVars, infos, i1]
      · simp [stepVars, infos, i2]
      · simp [stepVars, untils]
      · simp [stepVars, infos, i4]
    | untilIt n => simp [stepVars, infos, untils, i1, i2, i3, i4]
    | saved s => simp [stepVars, infos, untils, i1, i2, i3, i4]
    | other s => simp [stepVars, infos, untils, i1, i2, i3, i4]

theorem getLast?_some {A : Type*} {l : List A} (h : l ≠ []) : ∃ a, l.getLast? = some a :=
  ⟨l.getLast h, List.getLast?_eq_getLast_of_ne_nil h⟩

theorem msgLoop_entries (before ms : List (Msg K)) (ht : ∀ a v n b, ms = a ++ .info v (some n) :: b →
      infos (before ++ a) ≠ [] ∧ untils (before ++ a) ≠ []) :
    msgLoop rd (varsOf rd before) ms = .ok (varsOf rd (before ++ ms), entries rd before ms) := by
  induction ms generalizing before with
  | nil => simp [msgLoop, entries]
  | cons m ms ih =>
    have ih' := ih (before ++ [m]) (by
      intro a v n b hb
      have := ht (m :: a) v n b (by rw [hb]; rfl)
      simpa using this)
    rw [varsOf_snoc] at ih'
    have e : before ++ m :: ms = before ++ [m] ++ ms := by simp
    have easy : entryOf rd before m = none →
        (∀ σ : Vars K, msgLoop rd σ (m :: ms) = msgLoop rd (stepVars rd σ m) ms) →
        msgLoop rd (varsOf rd before) (m :: ms) =
          .ok (varsOf rd (before ++ m :: ms), entries rd before (m :: ms)) := by
      intro h1 h2
      rw [h2, ih', entries, h1, e]
      rfl
    cases m with
    | info v d =>
      cases d with
      | none => exact easy rfl fun σ => by rw [msgLoop]; intro _ _ hh; cases hh
      | some n =>
        obtain ⟨t1, t2⟩ := ht [] v n ms rfl
        rw [List.append_nil] at t1 t2
        obtain ⟨u, hu⟩ := getLast?_some t1
        obtain ⟨te, hte⟩ := getLast?_some t2
        obtain ⟨s1, s2, s3, -⟩ := varsOf_spec (rd := rd) before
        rw [hu] at s1 s2
        rw [hte] at s3
        have hx : entryVars (stepVars rd (varsOf rd before) (.info v (some n))) n =
            .ok ⟨n, rd "t".toList (v "t".toList), rd "t".toList (u "t".toList), rd "it".toList (v "it".toList),
              rd "it".toList (u "it".toList), rd "t_end".toList te, rd "deltat".toList (v "deltat".toList)⟩ := by
          simp only [entryVars, stepVars, Vars.next]
          rw [s1, s2, s3]
          rfl
        rw [msgLoop, hx, ih', entries, entryOf, hu, hte, e]
        rfl
    | untilT t => exact easy rfl fun σ => by rw [msgLoop]; intro _ _ hh; cases hh
    | untilIt n => exact easy rfl fun σ => by rw [msgLoop]; intro _ _ hh; cases hh
    | saved s => exact easy rfl fun σ => by rw [msgLoop]; intro _ _ hh; cases hh
    | other s => exact easy rfl fun σ => by rw [msgLoop]; intro _ _ hh; cases hh

/-! ## Properties -/

/-- The times loaded from the log are, for each information with an estimated duration, this duration, the time and
iteration, those of the previous information, the time step and the last final time announced; and the first
time printed.  What is missing: simulations without final time (`C66_times_it_end_violated`). -/
theorem C66_times_partial (h : NumOk nm rd) (S : Solver) (ms : List (Msg K)) (hms : ∀ m ∈ ms, MsgOk timesHeads m)
    (ht : Timed ms) :
    loadTimes nm (log nm S [] ms) =
      .ok ((infos ms).head?.map (fun v => rd "t".toList (v "t".toList)), entries rd [] ms) := by
  unfold loadTimes
  rw [pyLines_log, loop_msgs h S ms hms]
  have := msgLoop_entries (rd := rd) [] ms (by simpa [Timed] using ht)
  rw [show ({} : Vars K) = varsOf rd [] from rfl, this]
  simp only [List.nil_append]
  rw [(varsOf_spec ms).2.2.2]

theorem exMs_times : ∀ m ∈ exMs, MsgOk timesHeads m := by
  intro m hm
  simp only [exMs, List.mem_cons, List.not_mem_nil, or_false] at hm
  rcases hm with rfl | rfl | rfl | rfl | rfl | rfl | rfl | rfl | rfl
  case inl => show Foreign _ _; unfold Foreign; decide +kernel
  case inr.inr.inr.inr.inl => show '\n' ∉ _; decide +kernel
  case inr.inr.inr.inr.inr.inr.inr.inr => show Foreign _ _; unfold Foreign; decide +kernel
  all_goals trivial

/-- A sufficient condition for `Timed`, by recursion. -/
def timedFrom (i u : Bool) : List (Msg K) → Bool
  | [] => true
  | .info _ (some _) :: ms => i && u && timedFrom true u ms
  | .info _ none :: ms => timedFrom true u ms
  | .untilT _ :: ms => timedFrom i true ms
  | _ :: ms => timedFrom i u ms

theorem timedFrom_ok (ms : List (Msg K)) (i u : Bool) (H : timedFrom i u ms = true) (a : List (Msg K)) (v : Str → K)
    (n : ℕ) (b : List (Msg K)) (e : ms = a ++ .info v (some n) :: b) :
    (i = true ∨ infos a ≠ []) ∧ (u = true ∨ untils a ≠ []) := by
  induction a generalizing ms i u with
  | nil =>
    subst e
    simp only [List.nil_append, timedFrom, Bool.and_eq_true] at H
    exact ⟨Or.inl H.1.1, Or.inl H.1.2⟩
  | cons m a ih =>
    subst e
    cases m with
    | info w d =>
      cases d with
      | none =>
        simp only [List.cons_append, timedFrom] at H
        have := ih _ _ _ H rfl
        exact ⟨Or.inr (by simp [infos]), by simpa [untils] using this.2⟩
      | some k =>
        simp only [List.cons_append, timedFrom, Bool.and_eq_true] at H
        have := ih _ _ _ H.2 rfl
        exact ⟨Or.inr (by simp [infos]), by simpa [untils] using this.2⟩
    | untilT t =>
      simp only [List.cons_append, timedFrom] at H
      have := ih _ _ _ H rfl
      exact ⟨by simpa [infos] using this.1, Or.inr (by simp [untils])⟩
    | untilIt k =>
      simp only [List.cons_append, timedFrom] at H
      simpa [infos, untils] using ih _ _ _ H rfl
    | saved s =>
      simp only [List.cons_append, timedFrom] at H
      simpa [infos, untils] using ih _ _ _ H rfl
    | other s =>
      simp only [List.cons_append, timedFrom] at H
      simpa [infos, untils] using ih _ _ _ H rfl

theorem exMs_timed : Timed exMs := by
  intro a v n b e
  simpa using timedFrom_ok exMs false false (by decide) a v n b e

example : loadTimes exNum (log exNum .ns3d [] exMs) =
    .ok (some 4, [⟨90061, 15, 4, 16, 5, 100, 20⟩, ⟨59, 31, 21, 32, 22, 200, 36⟩]) :=
  C66_times_partial exNum_ok .ns3d exMs exMs_times exMs_timed

/-- For the simulations which end at a number of iterations (`it_end`), no final time is printed and loading the times
raises an `UnboundLocalError` as soon as a duration has been estimated. -/
theorem C66_times_it_end_violated (h : NumOk nm rd) (S : Solver) (a b : List (Msg K)) (v : Str → K) (n : ℕ)
    (hms : ∀ m ∈ a ++ .info v (some n) :: b, MsgOk timesHeads m) (ha : infos a ≠ []) (hu : untils a = [])
    (hd : durs a = []) :
    loadTimes nm (log nm S [] (a ++ .info v (some n) :: b)) = .error .UnboundLocalError := by
  unfold loadTimes
  rw [pyLines_log, loop_msgs h S _ hms]
  have key : ∀ (a' : List (Msg K)) (σ : Vars K), durs a' = [] →
      msgLoop rd σ (a' ++ .info v (some n) :: b) =
        msgLoop rd (a'.foldl (stepVars rd) σ) (.info v (some n) :: b) := by
    intro a'
    induction a' with
    | nil => intro σ _; rfl
    | cons m a' ih =>
      intro σ hd
      rw [List.foldl_cons]
      cases m with
      | info w d =>
        cases d with
        | none =>
          rw [List.cons_append, msgLoop]
          exact ih _ (by simpa [durs] using hd)
        | some k => simp [durs] at hd
      | untilT t =>
        rw [List.cons_append, msgLoop]
        exact ih _ (by simpa [durs] using hd)
      | untilIt k =>
        rw [List.cons_append, msgLoop]
        exact ih _ (by simpa [durs] using hd)
      | saved s =>
        rw [List.cons_append, msgLoop]
        exact ih _ (by simpa [durs] using hd)
      | other s =>
        rw [List.cons_append, msgLoop]
        exact ih _ (by simpa [durs] using hd)
  rw [key a _ hd, show a.foldl (stepVars rd) {} = varsOf rd a from rfl, msgLoop]
  obtain ⟨s1, s2, s3, -⟩ := varsOf_spec (rd := rd) a
  obtain ⟨u, hu'⟩ := getLast?_some ha
  rw [hu'] at s1 s2
  rw [hu] at s3
  have hx : entryVars (stepVars rd (varsOf rd a) (.info v (some n))) n = .error .UnboundLocalError := by
    simp only [entryVars, stepVars, Vars.next]
    rw [s1, s2, s3]
    rfl
  rw [hx]

example : loadTimes exNum (log exNum .ns2d [] [.untilIt 10, .info (exV 3) none, .info (exV 14) (some 7)]) =
    .error .UnboundLocalError :=
  C66_times_it_end_violated exNum_ok .ns2d [.untilIt 10, .info (exV 3) none] [] (exV 14) 7 (by simp [MsgOk])
    (by simp [infos]) (by simp [untils]) (by simp [durs])

end

/-! ## Clock times -/

section
variable {Q : Type*} [Field Q] [LinearOrder Q] [IsStrictOrderedRing Q]

/-- The estimated durations of a process: none for the first information; then, the clock time since the previous
information multiplied by the ratio of the remaining equation time over the time since the previous
information, rounded. -/
theorem C66_estimates (round : Q → ℤ) (t0 : Q) (l : List (Q × Q × Q)) :
    (durations round none t0 l).length = l.length ∧
    (∀ x, (durations round none t0 l)[0]? = some x → x = none) ∧
    ∀ i t c r t' c' r', l[i]? = some (t, c, r) → l[i + 1]? = some (t', c', r') → t < t' → 0 ≤ r' →
      (durations round none t0 l)[i + 1]? = some (some (round (r' / (t' - t) * (c' - c))).toNat) := by
  have len : ∀ (k : Option Q) (s : Q) (l : List (Q × Q × Q)), (durations round k s l).length = l.length := by
    intro k s l
    induction l generalizing k s with
    | nil => rfl
    | cons p l ih => obtain ⟨t, c, r⟩ := p; simp [durations, ih]
  refine ⟨len _ _ _, ?_, ?_⟩
  · intro x hx
    cases l with
    | nil => simp [durations] at hx
    | cons p l =>
      obtain ⟨t, c, r⟩ := p
      simp [durations, evalLeft] at hx
      exact hx.symm
  · intro i
    generalize (none : Option Q) = k
    induction l generalizing k t0 i with
    | nil => intro t c r t' c' r' h1; simp at h1
    | cons p l ih =>
      intro t c r t' c' r' h1 h2 ht hr
      obtain ⟨s, d, q⟩ := p
      cases i with
      | succ i =>
        rw [durations, List.getElem?_cons_succ]
        exact ih s i (some d) t c r t' c' r' (by simpa using h1) (by simpa using h2) ht hr
      | zero =>
        simp only [List.getElem?_cons_zero, Option.some.injEq, Prod.mk.injEq] at h1
        obtain ⟨rfl, rfl, rfl⟩ := h1
        rw [List.getElem?_cons_succ] at h2
        cases l with
        | nil => simp at h2
        | cons p l =>
          simp only [List.getElem?_cons_zero, Option.some.injEq] at h2
          subst h2
          have h1 : t' - s ≠ 0 := by
            have : 0 < t' - s := sub_pos.2 ht
            exact this.ne'
          simp [durations, evalLeft, h1, not_lt.2 hr]

example : durations (Q := ℚ) round none (-1) [(0, 100, 10), (2, 104, 8), (4, 110, 6)] = [none, some 16, some 18] := by
  norm_num [durations, evalLeft]
  decide +kernel

/-- The clock time between two informations, recovered from the printed duration, is the measured one up to the
rounding of the duration to the second, when the numbers are printed exactly. -/
theorem C66_clock_partial (round : Q → ℤ) (hround : ∀ x, |(round x : Q) - x| ≤ 1 / 2) (e : Entry Q) (c c' : Q)
    (hc : c ≤ c') (ht : e.timeLast < e.time) (hend : e.time < e.tEnd)
    (hn : evalLeft round (some c) e.timeLast e.time c' (e.tEnd - e.time) = some e.remaining) :
    ∃ x, e.clock = some x ∧ |x - (c' - c)| ≤ (e.time - e.timeLast) / (2 * (e.tEnd - e.time)) := by
  have h1 : 0 < e.time - e.timeLast := sub_pos.2 ht
  have h2 : 0 < e.tEnd - e.time := sub_pos.2 hend
  simp only [evalLeft, h1.ne', if_false, not_lt.2 h2.le, Option.some.injEq] at hn
  set y := (e.tEnd - e.time) / (e.time - e.timeLast) * (c' - c) with hy
  have hy0 : 0 ≤ y := mul_nonneg (div_nonneg h2.le h1.le) (sub_nonneg.2 hc)
  have hr := hround y
  have hr0 : 0 ≤ round y := by
    by_contra hneg
    have : round y ≤ -1 := by omega
    have h3 : ((round y : ℤ) : Q) ≤ -1 := by exact_mod_cast this
    have := (abs_le.1 hr).1
    linarith
  have hcast : (e.remaining : Q) = ((round y : ℤ) : Q) := by
    rw [← hn]
    have : (((round y).toNat : ℤ) : Q) = ((round y : ℤ) : Q) := by rw [Int.toNat_of_nonneg hr0]
    exact_mod_cast this
  refine ⟨(e.time - e.timeLast) * e.remaining / (e.tEnd - e.time), ?_, ?_⟩
  · unfold Entry.clock
    rw [if_neg h2.ne']
  · have e1 : (e.time - e.timeLast) * e.remaining / (e.tEnd - e.time) - (c' - c) =
        (e.time - e.timeLast) / (e.tEnd - e.time) * (((round y : ℤ) : Q) - y) := by
      rw [hcast, hy]
      field_simp
    rw [e1, abs_mul, abs_of_pos (div_pos h1 h2)]
    have e2 : (e.time - e.timeLast) / (2 * (e.tEnd - e.time)) = (e.time - e.timeLast) / (e.tEnd - e.time) * (1 / 2) := by
      field_simp
    rw [e2]
    exact mul_le_mul_of_nonneg_left hr (div_pos h1 h2).le

example : ∃ x, (Entry.clock (⟨16, 2, 0, 4, 0, 10, 1⟩ : Entry ℚ)) = some x ∧ |x - (104 - 100)| ≤ (2 - 0) / (2 * (10 - 2)) :=
  C66_clock_partial round (fun x => abs_sub_comm (round x : ℚ) x ▸ abs_sub_round x) ⟨16, 2, 0, 4, 0, 10, 1⟩ 100 104 (by norm_num) (by norm_num) (by norm_num)
    (by norm_num [evalLeft]; decide +kernel)

/-- What is missing in `C66_clock_partial`: the times are printed with six digits. When two successive times are printed
as the same number, the clock time recovered is zero, whatever the measured one. -/
theorem C66_clock_violated (e : Entry Q) (h : e.time = e.timeLast) (hend : e.tEnd ≠ e.time) : e.clock = some 0 := by
  unfold Entry.clock
  rw [if_neg (sub_ne_zero.2 hend), h]
  simp

example : Entry.clock (⟨3600, 1000000, 1000000, 12, 11, 2000000, 1⟩ : Entry ℚ) = some 0 :=
  C66_clock_violated _ rfl (by norm_num)

end

end Verif.StdOut
