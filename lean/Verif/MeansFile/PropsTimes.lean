import Verif.MeansFile.PropsRestart
import Mathlib.Data.Rat.Defs
import Mathlib.Tactic.Linarith

/-! # C60, continued: first and last times saved, the JSON variant, time means -/

namespace Verif.MeansFile

open Verif.PhysFiles (Str)

set_option linter.unusedSectionVars false

section
variable {K : Type*} [Zero K] {nm : Num K} {rd : Str → K → K}

/-! ## First and last times -/

theorem timeOfLine_ok (h : NumOk nm rd) (v : Str → K) :
    timeOfLine nm (lineText nm v timeKind ++ ['\n']) = .ok (rd "t".toList (v "t".toList)) := by
  have hF := format_ok .ns2d
  have := words_get h v timeKind.fields 2 (hF.words _ hF.time) 0 (by decide)
  unfold timeOfLine
  rw [words_line h hF v hF.time]
  exact numAt_word h _ _ "t".toList (v "t".toList) this

theorem pyLines_saves (h : NumOk nm rd) (s : Solver) (o : Opts) (vs : List (Str → K)) :
    pyLines (saves nm s.format o [] vs) =
      (chunkLines nm (vs.map (full s.format o))).map (· ++ ['\n']) := by
  rw [saves_eq, List.nil_append]
  have := pyLines_withEol (chunkLines nm (vs.map (full s.format o)))
    (chunk_noEol h (format_ok s) _ (by
      intro c hc
      obtain ⟨v, _, rfl⟩ := List.mem_map.1 hc
      exact full_sub o v)) []
  simpa [pyLines] using this

theorem kLines_saves (h : NumOk nm rd) (s : Solver) (o : Opts) (vs : List (Str → K)) :
    kLines timeKind (pyLines (saves nm s.format o [] vs)) =
      vs.map fun v => lineText nm v timeKind ++ ['\n'] := by
  rw [pyLines_saves h, kLines_chunks (format_ok s) _ (by
      intro c hc
      obtain ⟨v, _, rfl⟩ := List.mem_map.1 hc
      exact full_sub o v) (format_ok s).time, cols_full o vs (format_ok s).time,
    if_pos (time_written o)]

/-- `time_first_saved` returns the time of the first record. -/
theorem C60_time_first (h : NumOk nm rd) (s : Solver) (o : Opts) (v : Str → K)
    (vs : List (Str → K)) :
    timeFirst nm (saves nm s.format o [] (v :: vs)) =
      some (.ok (rd "t".toList (v "t".toList))) := by
  unfold timeFirst
  rw [kLines_saves h]
  simp only [List.map_cons]
  rw [timeOfLine_ok h]

example : timeFirst exNum (saves exNum Solver.plate2d.format ⟨true, false, false⟩ []
    [exV 7, exV 8]) = some (.ok 8) :=
  C60_time_first exNum_ok .plate2d ⟨true, false, false⟩ (exV 7) [exV 8]

/-- `time_first_saved` never returns when there is no line with a time in the file, in particular
when the file is empty or when the first record has been interrupted after its first line. -/
theorem C60_time_first_violated (s : Solver) (o : Opts) (v : Str → K) :
    timeFirst nm [] = none ∧ timeFirst nm (firstLines nm s o v 1) = none := by
  constructor
  · rfl
  · have : firstLines nm s o v 1 = hashes ++ ['\n'] := by
      simp [firstLines, recLines, withEol]
    rw [this]
    rfl

theorem withEol_last (ls : List Str) : withEol ls = [] ∨ (withEol ls).getLast? = some '\n' := by
  rcases List.eq_nil_or_concat ls with rfl | ⟨l, a, rfl⟩
  · left; rfl
  · right
    rw [List.concat_eq_append, withEol_append]
    simp [withEol]

theorem drop_last (a : Str) (n : ℕ) (h : a = [] ∨ a.getLast? = some '\n') :
    a.drop n = [] ∨ (a.drop n).getLast? = some '\n' := by
  by_cases hn : a.length ≤ n
  · left
    exact List.drop_eq_nil_of_le hn
  · right
    rcases h with h | h
    · subst h
      simp at hn
    · rw [List.getLast?_drop, if_neg hn]
      exact h

/-- The end of the file contains the whole last part when this part is short enough. -/
theorem lastPart_append (a b : Str) (hb : b.length ≤ 1000) : ∃ n, lastPart (a ++ b) = a.drop n ++ b := by
  unfold lastPart
  refine ⟨(a ++ b).length - min (a ++ b).length 1000, ?_⟩
  rw [List.drop_append_of_le_length]
  simp
  omega

/-- `time_last_saved` returns the time of the last record, if this record takes at most 1000
characters. -/
theorem C60_time_last (h : NumOk nm rd) (s : Solver) (o : Opts) (vs : List (Str → K))
    (v : Str → K) (hlen : (recText nm s.format o v).length ≤ 1000) :
    timeLast nm (saves nm s.format o [] (vs ++ [v])) = .ok (rd "t".toList (v "t".toList)) := by
  have hF := format_ok s
  have e : saves nm s.format o [] (vs ++ [v]) =
      withEol (chunkLines nm (vs.map (full s.format o))) ++ recText nm s.format o v := by
    rw [saves_eq, List.nil_append, List.map_append, chunkLines_append, withEol_append]
    congr 1
    simp [recText, recLines, chunkLines, full, Chunk.lines]
  obtain ⟨n, hn⟩ := lastPart_append (withEol (chunkLines nm (vs.map (full s.format o))))
    (recText nm s.format o v) hlen
  have e1 : recText nm s.format o v = saves nm s.format o [] [v] := rfl
  unfold timeLast
  rw [e, hn, pyLines_split _ _ (drop_last _ n (withEol_last _)), kLines_append, e1,
    kLines_saves h]
  simp only [List.map_cons, List.map_nil, List.getLast?_append, List.getLast?_singleton]
  simp only [Option.some_or]
  exact timeOfLine_ok h v

/-- Length of the text of a line. -/
theorem fieldsText_length (w : ℕ) (hw : ∀ n x, (nm.fmt n x).length ≤ w) (v : Str → K)
    (l : List (Str × Str)) :
    (fieldsText nm v l).length ≤ (l.map fun f => f.1.length + w + 2).sum := by
  induction l with
  | nil => simp [fieldsText]
  | cons f r ih =>
    obtain ⟨c, n⟩ := f
    have := hw n (v n)
    cases r with
    | nil =>
      simp [fieldsText]
      omega
    | cons g r =>
      simp only [fieldsText, List.map_cons, List.sum_cons, List.length_append,
        List.length_cons] at ih ⊢
      omega

theorem recText_length (w : ℕ) (hw : ∀ n x, (nm.fmt n x).length ≤ w) (F : Format) (o : Opts)
    (v : Str → K) : (recText nm F o v).length ≤ 5 +
      (F.kinds.map fun k => (k.fields.map fun f => f.1.length + w + 2).sum +
        k.trail.length + 1).sum := by
  have key : ∀ l : List Kind, (withEol ((l.filter (written o)).map (lineText nm v))).length ≤
      (l.map fun k => (k.fields.map fun f => f.1.length + w + 2).sum + k.trail.length + 1).sum := by
    intro l
    induction l with
    | nil => simp [withEol]
    | cons k l ih =>
      have hk := fieldsText_length w hw v k.fields
      simp only [List.filter_cons]
      split_ifs
      · simp only [List.map_cons, withEol, List.flatMap_cons, List.length_append, lineText,
          List.length_cons, List.length_nil, List.sum_cons] at ih ⊢
        omega
      · simp only [List.map_cons, List.sum_cons]
        omega
  have := key F.kinds
  have e : recText nm F o v = (hashes ++ ['\n']) ++
      withEol ((F.kinds.filter (written o)).map (lineText nm v)) := rfl
  rw [e, List.length_append]
  have h5 : (hashes ++ ['\n']).length = 5 := by decide
  omega

/-- The records are short enough for `time_last_saved`, if the numbers take at most 20 characters
(33 for plate2d, where the energy is written with 26 decimals). -/
theorem C60_time_last_short (h : NumOk nm rd) (s : Solver) (o : Opts) (vs : List (Str → K))
    (v : Str → K)
    (hw : ∀ n x, (nm.fmt n x).length ≤ if s = .plate2d then 33 else 20) :
    timeLast nm (saves nm s.format o [] (vs ++ [v])) = .ok (rd "t".toList (v "t".toList)) := by
  refine C60_time_last h s o vs v ?_
  refine (recText_length _ hw s.format o v).trans ?_
  cases s <;> decide +kernel

example : timeLast exNum (saves exNum Solver.ns2d.format exO [] [exV 3, exV 5]) = .ok 6 :=
  C60_time_last exNum_ok .ns2d exO [exV 3] (exV 5) (by decide +kernel)

/-- Numbers written with one character, for the example. -/
def exNum1 : Num ℕ where
  fmt := fun _ x => [Verif.PhysFiles.dig (x % 10)]
  pyFloat := fun w => some (Verif.PhysFiles.digitsVal w)

theorem exNum1_ok : NumOk exNum1 fun _ x => x % 10 := by
  intro n x
  have hx : x % 10 < 10 := Nat.mod_lt _ (by decide)
  refine ⟨0, [Verif.PhysFiles.dig (x % 10)], rfl, by simp, ?_, ?_⟩
  · simp only [List.mem_singleton, forall_eq]
    generalize x % 10 = y at hx
    interval_cases y <;> decide
  · simp only [exNum1]
    generalize x % 10 = y at hx
    interval_cases y <;> decide

example : timeLast exNum1 (saves exNum1 Solver.ns2dStrat.format exO [] [exV 3, exV 5]) = .ok 6 :=
  C60_time_last_short exNum1_ok .ns2dStrat exO [exV 3] (exV 5) (fun _ _ => by simp [exNum1])

/-! ## JSON -/

variable {R : Type*} {js : Json R K}

theorem savesJson_eq (file : Str) (rs : List R) :
    savesJson js file rs = file ++ withEol (rs.map js.dumps) := by
  induction rs generalizing file with
  | nil => simp [savesJson, withEol]
  | cons r rs ih =>
    have : savesJson js file (r :: rs) = savesJson js (saveJson js file r) rs := rfl
    rw [this, ih, saveJson, List.append_assoc]
    rfl

/-- `time_first_saved` returns the time of the first record. -/
theorem C60_json_time_first (h : JsonOk js) (r : R) (rs : List R) :
    timeFirstJson js (savesJson js [] (r :: rs)) = .ok (js.t r) := by
  unfold timeFirstJson
  rw [savesJson_eq, List.nil_append]
  have e : withEol ((r :: rs).map js.dumps) = js.dumps r ++ '\n' :: withEol (rs.map js.dumps) := by
    simp [withEol]
  rw [e, pyLines_line _ _ (h.noEol r)]
  simp only [List.headD_cons]
  rw [h.loads_dumps]

/-- `time_last_saved` returns the time of the last record if this record takes at most 1000
characters with its end of line, and raises a `JSONDecodeError` otherwise. -/
theorem C60_json_time_last_partial (h : JsonOk js) (rs : List R) (r : R) :
    timeLastJson js (savesJson js [] (rs ++ [r])) =
      if (js.dumps r).length + 1 ≤ 1000 then .ok (js.t r) else .error .JSONDecodeError := by
  have e : savesJson js [] (rs ++ [r]) = withEol (rs.map js.dumps) ++ (js.dumps r ++ ['\n']) := by
    rw [savesJson_eq, List.nil_append, List.map_append, withEol_append]
    simp [withEol]
  unfold timeLastJson
  rw [e]
  by_cases hlen : (js.dumps r).length + 1 ≤ 1000
  · rw [if_pos hlen]
    obtain ⟨n, hn⟩ := lastPart_append (withEol (rs.map js.dumps)) (js.dumps r ++ ['\n'])
      (by simpa using hlen)
    rw [hn, pyLines_split _ _ (drop_last _ n (withEol_last _)), pyLines_line _ [] (h.noEol r)]
    simp only [pyLines, List.getLast?_append, List.getLast?_singleton]
    simp only [Option.some_or]
    rw [h.loads_dumps]
  · rw [if_neg hlen]
    have hcut : lastPart (withEol (rs.map js.dumps) ++ (js.dumps r ++ ['\n'])) =
        (js.dumps r).drop ((js.dumps r).length - 999) ++ ['\n'] := by
      unfold lastPart
      rw [List.length_append, List.length_append, List.length_singleton]
      have hmin : min ((withEol (rs.map js.dumps)).length + ((js.dumps r).length + 1)) 1000 =
          1000 := by omega
      rw [hmin, List.drop_append, List.drop_eq_nil_of_le (by omega), List.nil_append,
        List.drop_append_of_le_length (by omega)]
      have hk : (withEol (rs.map js.dumps)).length + ((js.dumps r).length + 1) - 1000 -
          (withEol (rs.map js.dumps)).length = (js.dumps r).length - 999 := by omega
      rw [hk]
    have hno : '\n' ∉ (js.dumps r).drop ((js.dumps r).length - 999) := fun hm =>
      h.noEol r (List.mem_of_mem_drop hm)
    rw [hcut, pyLines_line _ [] hno]
    simp only [pyLines, List.getLast?_singleton]
    rw [h.cut r _ (by omega) (by omega)]

theorem dumpItems_length (l : List (Str × Str)) :
    (dumpItems l).length + 2 ≥ (l.map fun f => f.1.length + f.2.length + 6).sum := by
  induction l with
  | nil => simp
  | cons f r ih =>
    obtain ⟨k, x⟩ := f
    cases r with
    | nil =>
      simp [dumpItems]
      omega
    | cons g r =>
      simp only [dumpItems, List.map_cons, List.sum_cons, List.length_append,
        List.length_cons] at ih ⊢
      have h1 : "\": ".toList.length = 3 := by decide
      have h2 : ", ".toList.length = 2 := by decide
      omega

/-- For a forced simulation of sw1l, `time_last_saved` raises a `JSONDecodeError` as soon as the
texts of the 33 numbers of the last record have together more than 604 characters, i.e. 18.4
characters on average (a number in double precision like `0.012345678901234567` takes 18 to 24). -/
theorem C60_sw1l_time_last_violated (h : JsonOk js) (rs : List R) (r : R) (xs : List Str)
    (hx : xs.length = sw1lKeys.length) (hr : js.dumps r = dumpDict (sw1lKeys.zip xs))
    (hsum : 605 ≤ (xs.map List.length).sum) :
    timeLastJson js (savesJson js [] (rs ++ [r])) = .error .JSONDecodeError := by
  rw [C60_json_time_last_partial h, if_neg]
  have h1 := dumpItems_length (sw1lKeys.zip xs)
  have h2 : ((sw1lKeys.zip xs).map fun f => f.1.length + f.2.length + 6).sum =
      (sw1lKeys.map List.length).sum + (xs.map List.length).sum + 6 * sw1lKeys.length := by
    have : ∀ (a b : List Str), b.length = a.length →
        ((a.zip b).map fun f => f.1.length + f.2.length + 6).sum =
          (a.map List.length).sum + (b.map List.length).sum + 6 * a.length := by
      intro a
      induction a with
      | nil =>
        intro b hb
        have : b = [] := List.eq_nil_of_length_eq_zero (by simpa using hb)
        simp [this]
      | cons c a ih =>
        intro b hb
        cases b with
        | nil => simp at hb
        | cons d b =>
          have := ih b (by simpa using hb)
          simp only [List.zip_cons_cons, List.map_cons, List.sum_cons, List.length_cons]
          omega
    exact this sw1lKeys xs hx
  have h3 : (sw1lKeys.map List.length).sum = 197 := by decide +kernel
  have h4 : sw1lKeys.length = 33 := by decide +kernel
  rw [hr, dumpDict]
  simp only [List.length_cons, List.length_append, List.length_nil]
  omega

/-- A record of sw1l with numbers of 20 characters. -/
def exDump : Str := dumpDict (sw1lKeys.zip (List.replicate 33 "0.012345678901234567".toList))

/-- JSON for this record. -/
def exJson : Json Unit ℕ where
  dumps := fun _ => exDump
  loads := fun s => if s = exDump ++ ['\n'] then some () else none
  t := fun _ => 1

theorem exJson_ok : JsonOk exJson where
  noEol := by
    intro r
    change '\n' ∉ exDump
    decide +kernel
  loads_dumps := by
    intro r
    simp [exJson]
  cut := by
    intro r n h0 hn
    have : exDump.drop n ++ ['\n'] ≠ exDump ++ ['\n'] := by
      intro he
      have := congrArg List.length he
      change n ≤ exDump.length at hn
      simp at this
      omega
    simp [exJson, this]

example : timeLastJson exJson (savesJson exJson [] ([(), ()] ++ [()])) = .error .JSONDecodeError :=
  C60_sw1l_time_last_violated exJson_ok [(), ()] ()
    (List.replicate 33 "0.012345678901234567".toList) (by decide +kernel) rfl (by decide +kernel)

end

/-! ## Time means -/

section
variable {Q : Type*} [Field Q] [LinearOrder Q] [IsStrictOrderedRing Q] [FloorRing Q]

open Verif.PhysFiles (closest closest_spec IsClosest)

/-- The records between two times are among those from the closest to the first to the closest to the
second. -/
theorem closest_between (times : List Q) (tstatio tmax : Q) (hne : times ≠ [])
    (hinc : times.Pairwise (· < ·)) :
    IsClosest times tstatio (closest times tstatio) ∧ IsClosest times tmax (closest times tmax) ∧
      (∀ (i : ℕ) (t : Q), times[i]? = some t → tstatio ≤ t → t ≤ tmax →
        closest times tstatio ≤ i ∧ i ≤ closest times tmax) ∧
      ∀ (i : ℕ) (t : Q), times[i]? = some t → closest times tstatio < i → i < closest times tmax →
        tstatio < t ∧ t < tmax := by
  obtain ⟨x, hx, hx2, _⟩ := closest_spec times tstatio hne
  obtain ⟨y, hy, hy2, _⟩ := closest_spec times tmax hne
  have lt_of : ∀ (i j : ℕ) (s t : Q), times[i]? = some s → times[j]? = some t → i < j → s < t := by
    intro i j s t hi hj hij
    obtain ⟨h1, rfl⟩ := List.getElem?_eq_some_iff.1 hi
    obtain ⟨h2, rfl⟩ := List.getElem?_eq_some_iff.1 hj
    exact List.pairwise_iff_getElem.1 hinc i j h1 h2 hij
  refine ⟨⟨x, hx, hx2⟩, ⟨y, hy, hy2⟩, ?_, ?_⟩
  · intro i t hi h1 h2
    have hmem : t ∈ times := List.mem_of_getElem? hi
    constructor
    · by_contra hc
      have hlt := lt_of i _ t x hi hx (not_le.1 hc)
      have := hx2 t hmem
      rw [abs_of_nonneg (by linarith), abs_of_nonneg (by linarith)] at this
      linarith
    · by_contra hc
      have hlt := lt_of _ i y t hy hi (not_le.1 hc)
      have := hy2 t hmem
      rw [abs_of_nonpos (by linarith), abs_of_nonpos (by linarith)] at this
      linarith
  · intro i t hi h1 h2
    have hmem : t ∈ times := List.mem_of_getElem? hi
    have hlt1 := lt_of _ i x t hx hi h1
    have hlt2 := lt_of i _ t y hi hy h2
    constructor
    · by_contra hc
      have := hx2 t hmem
      rw [abs_of_nonpos (by linarith), abs_of_nonpos (by linarith)] at this
      linarith
    · by_contra hc
      have := hy2 t hmem
      rw [abs_of_nonneg (by linarith), abs_of_nonneg (by linarith)] at this
      linarith

/-- The records used for the time means between `tstatio` and `tmax`, when the saved times
increase, are consecutive, from a record closest to `tstatio` to a record closest to `tmax`; all the
records with times between `tstatio` and `tmax` are used, and all the records used, but possibly the
first and the last, have a time between `tstatio` and `tmax`. -/
theorem C60_time_means_partial {A : Type*} (times : List Q) (vals : List A) (tstatio tmax : Q)
    (hne : times ≠ []) (hinc : times.Pairwise (· < ·)) :
    ∃ a b, IsClosest times tstatio a ∧ IsClosest times tmax b ∧
      meanSlice times vals tstatio (some tmax) = (vals.take (b + 1)).drop a ∧
      (∀ (i : ℕ) (t : Q), times[i]? = some t → tstatio ≤ t → t ≤ tmax → a ≤ i ∧ i ≤ b) ∧
      ∀ (i : ℕ) (t : Q), times[i]? = some t → a < i → i < b → tstatio < t ∧ t < tmax := by
  obtain ⟨h1, h2, h3, h4⟩ := closest_between times tstatio tmax hne hinc
  exact ⟨_, _, h1, h2, rfl, h3, h4⟩

example : meanSlice [0, 1, 2, 3, 4] ["a", "b", "c", "d", "e"] (9/10 : ℚ) (some 3) =
    ["b", "c", "d"] := by
  decide +kernel

/-- When a simulation has been restarted from an earlier time in the same directory, the times in
the file are not increasing and the means from `tstatio` on take also earlier times: here the mean
for the times from 3 on is 2, the mean of the times 3, 1 and 2.  And when the record closest to
`tmax` comes before the record closest to `tstatio`, the mean is `nan`. -/
theorem C60_time_means_restart_violated :
    meanSlice [0, 1, 2, 3, 1, 2] [0, 1, 2, 3, 1, 2] (3 : ℚ) none = [3, 1, 2] ∧
    timeMean [0, 1, 2, 3, 1, 2] [0, 1, 2, 3, 1, 2] (3 : ℚ) none = some 2 ∧
    timeMean [0, 1, 2, 3, 1, 2] [0, 1, 2, 3, 1, 2] (3 : ℚ) (some (3/2)) = none := by
  decide +kernel

/-- Without `tmax`, the records used are those from the one closest to `tstatio` to the end. -/
theorem C60_time_means_end {A : Type*} (times : List Q) (vals : List A) (tstatio : Q)
    (hne : times ≠ []) (hinc : times.Pairwise (· < ·)) :
    ∃ a, IsClosest times tstatio a ∧ meanSlice times vals tstatio none = vals.drop a ∧
      (∀ (i : ℕ) (t : Q), times[i]? = some t → tstatio ≤ t → a ≤ i) ∧
      ∀ (i : ℕ) (t : Q), times[i]? = some t → a < i → tstatio < t := by
  obtain ⟨x, hx, hx2, _⟩ := closest_spec times tstatio hne
  have lt_of : ∀ (i j : ℕ) (s t : Q), times[i]? = some s → times[j]? = some t → i < j → s < t := by
    intro i j s t hi hj hij
    obtain ⟨h1, rfl⟩ := List.getElem?_eq_some_iff.1 hi
    obtain ⟨h2, rfl⟩ := List.getElem?_eq_some_iff.1 hj
    exact List.pairwise_iff_getElem.1 hinc i j h1 h2 hij
  refine ⟨closest times tstatio, ⟨x, hx, hx2⟩, rfl, ?_, ?_⟩
  · intro i t hi h1
    by_contra hc
    have hlt := lt_of i _ t x hi hx (not_le.1 hc)
    have := hx2 t (List.mem_of_getElem? hi)
    rw [abs_of_nonneg (by linarith), abs_of_nonneg (by linarith)] at this
    linarith
  · intro i t hi h1
    have hlt1 := lt_of _ i x t hx hi h1
    by_contra hc
    have := hx2 t (List.mem_of_getElem? hi)
    rw [abs_of_nonpos (by linarith), abs_of_nonpos (by linarith)] at this
    linarith

example : timeMean [0, 1, 2, 3] [5, 6, 8, 10] (2 : ℚ) none = some 9 := by decide +kernel

end

end Verif.MeansFile
