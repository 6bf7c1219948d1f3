import Verif.Series.Lemmas
import Mathlib.Data.List.Forall2

/-!
# C16: appended time series stay aligned
-/

set_option linter.unusedSectionVars false

namespace Verif.Series

variable {T V : Type*} [Inhabited T] [Inhabited V]

theorem sameKeys_tail {keys : List Key} {e : Ev T V} {h : List (Ev T V)}
    (hs : SameKeys keys (e :: h)) : SameKeys keys h :=
  ⟨hs.1, fun x hx => hs.2 x (by simp [hx])⟩

/-- C16: after any sequence of saves and restarts (a restart re-opens the file and appends a
record), the file holds exactly the records that were saved, in order, with the same index in
`times` and in each dataset. -/
theorem C16_aligned (keys : List Key) (t0 : T) (d0 : Dict V) (h : List (Ev T V))
    (hs : SameKeys keys (.start t0 d0 :: h)) (hn : NoCrash h) :
    ∃ f, run (.start t0 d0 :: h) = some f ∧
      Holds keys f (completed (.start t0 d0 :: h)) := by
  have h0 := holds_create (T := T) keys t0 d0 (hs.2 (.start t0 d0) (by simp))
  obtain ⟨f, h1, h2⟩ := run_holds_from keys h (sameKeys_tail hs) hn _ _ h0
  exact ⟨f, h1, by simpa [completed] using h2⟩

/-- A history with a restart meets the hypotheses, and the file is the expected one. -/
example : SameKeys ["E", "Z"] ([.start 0 [("E", 1), ("Z", 2)], .save 1 [("E", 3), ("Z", 4)],
      .start 1 [("E", 3), ("Z", 4)], .save 2 [("E", 5), ("Z", 6)]] : List (Ev ℕ ℕ)) ∧
    (run ([.start 0 [("E", 1), ("Z", 2)], .save 1 [("E", 3), ("Z", 4)],
      .start 1 [("E", 3), ("Z", 4)], .save 2 [("E", 5), ("Z", 6)]] : List (Ev ℕ ℕ))).map
      (fun f => (f.times, f.dsets)) =
      some ([0, 1, 1, 2], [("E", [1, 3, 3, 5]), ("Z", [2, 4, 4, 6])]) := by
  refine ⟨⟨by decide, ?_⟩, by decide +kernel⟩
  intro e he
  simp only [List.mem_cons, List.not_mem_nil, or_false] at he
  rcases he with rfl | rfl | rfl | rfl <;> rfl

theorem completed_append (h h' : List (Ev T V)) :
    completed (h ++ h') = completed h ++ completed h' := by
  induction h with
  | nil => rfl
  | cons e h ih => cases e <;> simp [completed, ih]

/-- C16: what is in the file at some point is never modified later: it stays a prefix of the
times and of every dataset. -/
theorem C16_earlier_records_unchanged (keys : List Key) (t0 : T) (d0 : Dict V)
    (h h' : List (Ev T V)) (hs : SameKeys keys (.start t0 d0 :: (h ++ h')))
    (hn : NoCrash (h ++ h')) :
    ∃ f f', run (.start t0 d0 :: h) = some f ∧ run (.start t0 d0 :: (h ++ h')) = some f' ∧
      f.times <+: f'.times ∧
      ∀ k ∈ keys, ∃ l l', f.get k = some l ∧ f'.get k = some l' ∧ l <+: l' := by
  have hs1 : SameKeys keys (.start t0 d0 :: h) := ⟨hs.1, fun x hx => hs.2 x (by
    rcases List.mem_cons.1 hx with rfl | hx
    · simp
    · simp [hx])⟩
  obtain ⟨f, hf, hold⟩ := C16_aligned keys t0 d0 h hs1 (fun x hx => hn x (by simp [hx]))
  obtain ⟨f', hf', hold'⟩ := C16_aligned keys t0 d0 (h ++ h') hs hn
  have hc : completed (.start t0 d0 :: (h ++ h')) =
      completed (.start t0 d0 :: h) ++ completed h' := by
    simp [completed, completed_append]
  rw [hc] at hold'
  refine ⟨f, f', hf, hf', ?_, fun k hk => ?_⟩
  · rw [hold.1, hold'.1, List.map_append]; exact List.prefix_append _ _
  · obtain ⟨l, hl, hm⟩ := hold.2 k hk
    obtain ⟨l', hl', hm'⟩ := hold'.2 k hk
    refine ⟨l, l', hl, hl', ?_⟩
    rw [List.map_append, ← hm] at hm'
    have : (l'.take l.length).map some = l.map some := by
      rw [List.map_take, hm']; simp
    have : l'.take l.length = l := List.map_injective_iff.2 (fun _ _ h => Option.some.inj h) this
    rw [← this]
    exact List.take_prefix _ _

/-- C16, crashes: even if processes are killed in the middle of a save, at any point of the
sequence of writes, all records whose saving was completed (before or after the crashes) stay
in the file, in order and aligned. -/
theorem C16_crash_safe (keys : List Key) (t0 : T) (d0 : Dict V) (h : List (Ev T V))
    (hs : SameKeys keys (.start t0 d0 :: h)) :
    ∃ f, run (.start t0 d0 :: h) = some f ∧
      HoldsAmong keys f (completed (.start t0 d0 :: h)) := by
  have hd : d0.map Prod.fst = keys := hs.2 (.start t0 d0) (by simp)
  have h0 : Inv keys (createFile t0 d0) [some (t0, d0)] := by
    refine ⟨rfl, fun k hk => ?_, fun i t d hi => ?_⟩
    · obtain ⟨v, hv⟩ := dictVal_isSome d0 k (by rw [hd]; exact hk)
      exact ⟨[v], by rw [createFile_get, hv]; rfl, by simp⟩
    · cases i with
      | succ i => simp at hi
      | zero =>
        simp only [List.getElem?_cons_zero, Option.some.injEq, Prod.mk.injEq] at hi
        obtain ⟨rfl, rfl⟩ := hi
        refine ⟨rfl, fun k hk => ?_⟩
        obtain ⟨v, hv⟩ := dictVal_isSome d0 k (by rw [hd]; exact hk)
        exact ⟨[v], v, by rw [createFile_get, hv]; rfl, rfl, hv⟩
  obtain ⟨f, slots, h1, h2, h3⟩ := run_inv_from keys h (sameKeys_tail hs) _ _ h0
  refine ⟨f, h1, slots, by simpa [completed] using h3, h2.1, fun i t d hi => ?_⟩
  obtain ⟨ha, hb⟩ := h2.2.2 i t d hi
  refine ⟨ha, fun k hk => ?_⟩
  obtain ⟨l, v, hl, hv, hdv⟩ := hb k hk
  obtain ⟨l', hl', hle⟩ := h2.2.1 k hk
  rw [hl] at hl'
  cases hl'
  exact ⟨l, hl, by rw [hv, hdv], hle⟩

/-- A crash after the dataset `E` was extended but before `Z` was: the next records are
still aligned. -/
example : (run ([.start 10 [("E", 1), ("Z", 2)], .crash 4 11 [("E", 3), ("Z", 4)],
      .start 11 [("E", 3), ("Z", 4)]] : List (Ev ℕ ℕ))).map (fun f => (f.times, f.dsets)) =
    some ([10, 11, 11], [("E", [1, 3, 3]), ("Z", [2, 0, 4])]) := by
  decide +kernel

/-- C16: saving in a file that does not exist is refused (ValueError) and creates nothing. -/
theorem C16_missing_file_raises (t : T) (d : Dict V) :
    addDict (none : Option (File T V)) t d = (none, some .valueError) := rfl

/-- C16: a dictionary with a key that is not in the file is refused (KeyError), and the
records already saved stay aligned. -/
theorem C16_unknown_key_raises (keys : List Key) (f : File T V) (recs : List (T × Dict V))
    (hf : Holds keys f recs) (t : T) (d : Dict V)
    (hd : ∃ k ∈ d.map Prod.fst, f.get k = none) :
    ∃ f', addDict (some f) t d = (some f', some .keyError) ∧ HoldsAmong keys f' recs := by
  have hall : ¬ (d.all fun e => hasKey f e.1) = true := by
    intro h
    rw [List.all_eq_true] at h
    obtain ⟨k, hk, hnone⟩ := hd
    obtain ⟨e, he, rfl⟩ := List.mem_map.1 hk
    have := (hasKey_iff f e.1).1 (h e he)
    rw [hnone] at this
    cases this
  refine ⟨_, by simp only [addDict, hall]; rfl, ?_⟩
  have hinv : Inv keys f (recs.map some) := by
    refine ⟨by rw [hf.1]; simp, fun k hk => ?_, fun i t' d' hi => ?_⟩
    · obtain ⟨l, hl, hm⟩ := hf.2 k hk
      refine ⟨l, hl, ?_⟩
      have := congrArg List.length hm
      simp at this
      simp [this]
    · have hi' : recs[i]? = some (t', d') := by
        rw [List.getElem?_map] at hi
        cases hr : recs[i]? with
        | none => rw [hr] at hi; simp at hi
        | some r => rw [hr] at hi; simpa using hi
      refine ⟨by rw [hf.1, List.getElem?_map, hi']; rfl, fun k hk => ?_⟩
      obtain ⟨l, hl, hm⟩ := hf.2 k hk
      have h2 : (l.map some)[i]? = (recs.map fun r => dictVal r.2 k)[i]? := by rw [hm]
      rw [List.getElem?_map, List.getElem?_map, hi'] at h2
      cases hv : l[i]? with
      | none => rw [hv] at h2; simp at h2
      | some v =>
        rw [hv] at h2
        simp at h2
        exact ⟨l, v, hl, hv, h2.symm⟩
  obtain ⟨more, hm, hI⟩ := inv_crash keys f _ hinv (opsBeforeError f d) t d
  refine ⟨_, ?_, hI.1, fun i t' d' hi => ?_⟩
  · rw [List.filterMap_append, hm]; simp
  · obtain ⟨ha, hb⟩ := hI.2.2 i t' d' hi
    refine ⟨ha, fun k hk => ?_⟩
    obtain ⟨l, v, hl, hv, hdv⟩ := hb k hk
    obtain ⟨l', hl', hle⟩ := hI.2.1 k hk
    rw [hl] at hl'
    cases hl'
    exact ⟨l, hl, by rw [hv, hdv], hle⟩

example : (addDict (some (⟨[1], [("E", [5])]⟩ : File ℕ ℕ)) 2 [("E", 6), ("new", 7)]).2
    = some .keyError := by decide +kernel

/-! ### `time_signals_fft` -/

/-- C16, time signals, full statement refuted: the counter of saved times is reset to one
when the file is re-opened, so that the first save after a restart truncates the file to two
records: the record of time 1 is overwritten and the one of time 2 is lost. -/
theorem C16_time_signals_restart_violated :
    ∃ (h : List (Ev ℕ ℕ)), SameKeys ["q"] h ∧
      (sigRun h).file.map File.times = some [0, 3] ∧
      (completed h).map Prod.fst = [0, 1, 2, 2, 3] := by
  refine ⟨[.start 0 [("q", 10)], .save 1 [("q", 11)], .save 2 [("q", 12)],
    .start 2 [("q", 12)], .save 3 [("q", 13)]], ⟨by decide, ?_⟩, by decide +kernel,
    by decide +kernel⟩
  intro e he
  simp only [List.mem_cons, List.not_mem_nil, or_false] at he
  rcases he with rfl | rfl | rfl | rfl | rfl <;> rfl

/-- C16, time signals, without restart: the file holds exactly the saved records, aligned.
Missing: restarts (see `C16_time_signals_restart_violated`). -/
theorem C16_time_signals_partial (keys : List Key) (t0 : T) (d0 : Dict V)
    (recs : List (T × Dict V)) (hk : keys.Nodup) (hd0 : d0.map Prod.fst = keys)
    (hd : ∀ r ∈ recs, r.2.map Prod.fst = keys) :
    ∃ f, (sigRun (.start t0 d0 :: recs.map fun r => .save r.1 r.2)).file = some f ∧
      Holds keys f ((t0, d0) :: recs) := by
  have key : ∀ (recs : List (T × Dict V)) (f : File T V) (done : List (T × Dict V)),
      (∀ r ∈ recs, r.2.map Prod.fst = keys) → Holds keys f done →
      ∃ f', ((recs.map fun r => Ev.save r.1 r.2).foldl sigStep ⟨some f, done.length⟩).file
        = some f' ∧ Holds keys f' (done ++ recs) := by
    intro recs
    induction recs with
    | nil => intro f done _ hf; exact ⟨f, rfl, by simpa using hf⟩
    | cons r recs ih =>
      intro f done hr hf
      have hlen : f.times.length = done.length := by rw [hf.1]; simp
      have hap := holds_append keys hk f done hf r.1 r.2 (hr r (by simp))
      rw [hlen] at hap
      obtain ⟨f', h1, h2⟩ := ih _ _ (fun x hx => hr x (by simp [hx])) hap
      refine ⟨f', ?_, by simpa using h2⟩
      have hl : (done ++ [(r.1, r.2)]).length = done.length + 1 := by simp
      rw [hl] at h1
      simpa [sigStep, sigSave] using h1
  exact key recs _ [(t0, d0)] hd (holds_create keys t0 d0 hd0)

example : (sigRun ([.start 0 [("q", 10)], .save 1 [("q", 11)], .save 2 [("q", 12)]] :
    List (Ev ℕ ℕ))).file.map (fun f => (f.times, f.dsets)) =
    some ([0, 1, 2], [("q", [10, 11, 12])]) := by decide +kernel

/-! ### Probes -/

theorem writeOps_eq (n : ℕ) (t : T) (d : Dict V) :
    (writeOps (n + 1) t d : List (Op T V)) = appendOps n t d := rfl

theorem get_blank (keys : List Key) (ts : List T) (k : Key) (hk : k ∈ keys) :
    File.get (⟨ts, keys.map fun k => (k, [default])⟩ : File T V) k = some [default] := by
  simp only [File.get]
  induction keys with
  | nil => simp at hk
  | cons a keys ih =>
    simp only [List.map_cons, List.find?_cons]
    by_cases h : a = k
    · simp [h]
    · simp only [h, decide_false]
      exact ih (by
        rcases List.mem_cons.1 hk with rfl | hk
        · exact absurd rfl h
        · exact hk)

theorem holds_blank (keys : List Key) (hk : keys.Nodup) (t : T) (d : Dict V)
    (hd : d.map Prod.fst = keys) :
    Holds keys ((writeOps 1 t d).foldl applyOp
      (⟨[default], keys.map fun k => (k, [default])⟩ : File T V)) [(t, d)] := by
  have e := appendFull_eq 0 (⟨[default], keys.map fun k => (k, [default])⟩ : File T V) t d
  unfold appendUpTo at e
  rw [List.take_of_length_le (le_refl _)] at e
  rw [writeOps_eq, e]
  refine ⟨by rw [foldl_keyOps_times]; rfl, fun k hkk => ?_⟩
  obtain ⟨v, hv⟩ := dictVal_isSome d k (by rw [hd]; exact hkk)
  refine ⟨[v], ?_, by simp [hv]⟩
  rw [foldl_keyOps_get 0 d (by rw [hd]; exact hk), hv]
  simp only
  rw [get_blank keys _ k hkk]
  rfl

/-- Invariant of the probes: the current file is the last one, every file holds a chunk of
the records. -/
structure PInv (keys : List Key) (used : List String) (p : Probes T V)
    (recs : List (T × Dict V)) : Prop where
  ex : ∃ (init : List (String × File T V)) (f : File T V) (chunks : List (List (T × Dict V)))
    (last : List (T × Dict V)),
    p.files = init ++ [(p.cur, f)] ∧ Holds keys f last ∧ p.nb = last.length ∧
    p.cur ∉ init.map Prod.fst ∧ List.Forall₂ (fun e r => Holds keys e.2 r) init chunks ∧
    chunks.flatten ++ last = recs ∧ ∀ n ∈ p.files.map Prod.fst, n ∈ used

theorem pinv_write (p : Probes T V)
    (init : List (String × File T V)) (f : File T V)
    (hfiles : p.files = init ++ [(p.cur, f)]) (hcur : p.cur ∉ init.map Prod.fst) (t : T)
    (d : Dict V) (nb : ℕ) :
    (p.files.map fun e => if e.1 = p.cur then (e.1, (writeOps nb t d).foldl applyOp e.2) else e)
      = init ++ [(p.cur, (writeOps nb t d).foldl applyOp f)] := by
  rw [hfiles, List.map_append]
  congr 1
  · conv_rhs => rw [← List.map_id init]
    apply List.map_congr_left
    intro e he
    have : e.1 ≠ p.cur := fun h => hcur (h ▸ List.mem_map_of_mem he)
    simp [this]
  · simp

theorem pinv_save (name : T → String) (max : ℕ) (keys : List Key) (hk : keys.Nodup)
    (used : List String) (p : Probes T V) (recs : List (T × Dict V)) (h : PInv keys used p recs)
    (t : T) (d : Dict V) (hd : d.map Prod.fst = keys) (hname : name t ∉ used) :
    PInv keys (name t :: used) (probeSave name max p t d) (recs ++ [(t, d)]) := by
  obtain ⟨init, f, chunks, last, hfiles, hold, hnb, hcur, hall, hrecs, hused⟩ := h.ex
  by_cases hroll : p.nb ≥ max
  · -- a new file
    have hfilter : (p.files.filter fun e => e.1 ≠ name t) = p.files := by
      rw [List.filter_eq_self]
      intro e he
      have : e.1 ≠ name t := fun hc => hname (hc ▸ hused _ (List.mem_map_of_mem he))
      simpa using this
    have hnew : newFile p (name t) (d.map Prod.fst) =
        ⟨p.files ++ [(name t, ⟨[default], keys.map fun k => (k, [default])⟩)], name t, 0⟩ := by
      simp only [newFile, hfilter, hd]
    have hsave : probeSave name max p t d =
        ⟨p.files ++ [(name t, (writeOps 1 t d).foldl applyOp
          (⟨[default], keys.map fun k => (k, [default])⟩ : File T V))], name t, 1⟩ := by
      have := pinv_write (newFile p (name t) (d.map Prod.fst)) p.files
        (⟨[default], keys.map fun k => (k, [default])⟩ : File T V) (by rw [hnew])
        (by rw [hnew]; intro hc; exact hname (hused _ hc)) t d 1
      unfold probeSave
      simp only [hroll, if_true]
      rw [hnew] at this ⊢
      simp only at this
      simp only [Nat.zero_add, Probes.mk.injEq, and_true]
      exact this
    rw [hsave]
    refine ⟨p.files, _, chunks ++ [last], [(t, d)], rfl, holds_blank keys hk t d hd, rfl,
      fun hc => hname (hused _ hc), ?_, by simp [← hrecs], ?_⟩
    · rw [hfiles]
      exact List.rel_append hall (by simpa using hold)
    · intro n hn
      simp only [List.map_append, List.mem_append, List.map_cons, List.map_nil,
        List.mem_singleton] at hn
      rcases hn with hn | hn
      · exact List.mem_cons_of_mem _ (hused n hn)
      · simp [hn]
  · have hlen : f.times.length = last.length := by rw [hold.1]; simp
    have hsave : probeSave name max p t d =
        ⟨init ++ [(p.cur, (writeOps (p.nb + 1) t d).foldl applyOp f)], p.cur, p.nb + 1⟩ := by
      have := pinv_write p init f hfiles hcur t d (p.nb + 1)
      unfold probeSave
      simp only [hroll, if_false]
      simp only [Probes.mk.injEq, and_true]
      exact this
    have hap := holds_append keys hk f last hold t d hd
    unfold appendUpTo at hap
    rw [List.take_of_length_le (le_refl _), hlen, ← hnb, ← writeOps_eq] at hap
    rw [hsave]
    refine ⟨init, _, chunks, last ++ [(t, d)], rfl, hap, by simp [hnb], hcur, hall,
      by simp [← hrecs], ?_⟩
    intro n hn
    refine List.mem_cons_of_mem _ (hused n ?_)
    rw [hfiles]
    simpa using hn

theorem pinv_mono {keys : List Key} {used used' : List String} {p : Probes T V}
    {recs : List (T × Dict V)} (h : PInv keys used p recs) (hu : ∀ n ∈ used, n ∈ used') :
    PInv keys used' p recs := by
  obtain ⟨init, f, chunks, last, a, b, c, d, e, g, i⟩ := h.ex
  exact ⟨init, f, chunks, last, a, b, c, d, e, g, fun n hn => hu n (i n hn)⟩

theorem pinv_start (name : T → String) (keys : List Key) (used : List String) (p : Probes T V)
    (recs : List (T × Dict V)) (h : PInv keys used p recs) (t : T) (keys' : List Key) :
    PInv keys used (probeStart name p t keys') recs := by
  obtain ⟨init, f, chunks, last, hfiles, hold, hnb, hcur, hall, hrecs, hused⟩ := h.ex
  have hlen : f.times.length = last.length := by rw [hold.1]; simp
  have : probeStart name p t keys' = p := by
    obtain ⟨files, cur, nb⟩ := p
    simp only at hfiles hnb
    subst hfiles
    simp [probeStart, hlen, hnb]
  rw [this]; exact h

theorem pinv_read {keys : List Key} {used : List String} {p : Probes T V}
    {recs : List (T × Dict V)} (h : PInv keys used p recs) :
    joinedTimes p.files = recs.map Prod.fst ∧
    ∀ k ∈ keys, (joinedData p.files k).map some = recs.map fun r => dictVal r.2 k := by
  obtain ⟨init, f, chunks, last, hfiles, hold, hnb, hcur, hall, hrecs, hused⟩ := h.ex
  have hinit : joinedTimes init = chunks.flatten.map Prod.fst ∧
      ∀ k ∈ keys, (joinedData init k).map some = chunks.flatten.map fun r => dictVal r.2 k := by
    clear hfiles hold hnb hcur hrecs hused
    induction hall with
    | nil => exact ⟨rfl, fun _ _ => rfl⟩
    | @cons e r es rs he _ ih =>
      refine ⟨?_, fun k hk => ?_⟩
      · have := ih.1
        simp only [joinedTimes, List.flatMap_cons, List.flatten_cons, List.map_append] at this ⊢
        rw [this, he.1]
      · obtain ⟨l, hl, hm⟩ := he.2 k hk
        have := ih.2 k hk
        simp only [joinedData, List.flatMap_cons, List.flatten_cons, List.map_append] at this ⊢
        rw [this, hl, Option.getD_some, hm]
  rw [hfiles, ← hrecs]
  refine ⟨?_, fun k hk => ?_⟩
  · have := hinit.1
    simp only [joinedTimes, List.flatMap_append, List.map_append] at this ⊢
    rw [this]; simp [hold.1]
  · obtain ⟨l, hl, hm⟩ := hold.2 k hk
    have := hinit.2 k hk
    simp only [joinedData, List.flatMap_append, List.map_append] at this ⊢
    rw [this]; simp [hl, hm]

/-- C16, probes (files of bounded size, `max` records per file): as long as the first process
has saved at least one record and the files have different names, after any sequence of saves
and restarts the joined files hold exactly the saved records, in order and aligned.
Missing: a restart before the first record, and file names that collide (see the two
`_violated` theorems). -/
theorem C16_probes_partial (name : T → String) (max : ℕ) (hmax : 1 ≤ max) (keys : List Key)
    (t0 t1 : T) (d0 d1 : Dict V) (h : List (Ev T V))
    (hs : SameKeys keys (.start t0 d0 :: .save t1 d1 :: h)) (hn : NoCrash h)
    (hname : (name t0 :: (savedOnly h).map fun r => name r.1).Nodup) :
    let p := probeRun name max keys (.start t0 d0 :: .save t1 d1 :: h)
    joinedTimes p.files = ((t1, d1) :: savedOnly h).map Prod.fst ∧
    ∀ k ∈ keys, (joinedData p.files k).map some =
      ((t1, d1) :: savedOnly h).map fun r => dictVal r.2 k := by
  intro p
  have hd1 : d1.map Prod.fst = keys := hs.2 (.save t1 d1) (by simp)
  -- after the first record
  have hfirst : PInv keys [name t0]
      (probeStep name max keys (probeStep name max keys (⟨[], "", 0⟩ : Probes T V) (.start t0 d0))
        (.save t1 d1)) [(t1, d1)] := by
    have hz : ¬ 0 ≥ max := by omega
    refine ⟨[], (writeOps 1 t1 d1).foldl applyOp
      (⟨[default], keys.map fun k => (k, [default])⟩ : File T V), [], [(t1, d1)], ?_,
      holds_blank keys hs.1 t1 d1 hd1, ?_, by simp, List.Forall₂.nil, by simp, ?_⟩ <;>
      simp [probeStep, probeStart, newFile, probeSave, hz]
  have key : ∀ (h : List (Ev T V)) (used : List String) (p : Probes T V)
      (recs : List (T × Dict V)), SameKeys keys h → NoCrash h → PInv keys used p recs →
      (∀ r ∈ savedOnly h, name r.1 ∉ used) → ((savedOnly h).map fun r => name r.1).Nodup →
      ∃ used', PInv keys used' (h.foldl (probeStep name max keys) p) (recs ++ savedOnly h) := by
    intro h
    induction h with
    | nil => intro used p recs _ _ hp _ _; exact ⟨used, by simpa [savedOnly] using hp⟩
    | cons e h ih =>
      intro used p recs hsk hnc hp hnot hnd
      have hsk' := sameKeys_tail hsk
      have hnc' : NoCrash h := fun x hx => hnc x (by simp [hx])
      cases e with
      | start t d =>
        exact ih used _ recs hsk' hnc' (pinv_start name keys used p recs hp t keys)
          (by simpa [savedOnly] using hnot) (by simpa [savedOnly] using hnd)
      | save t d =>
        simp only [savedOnly, List.map_cons, List.nodup_cons] at hnd
        have hsv := pinv_save name max keys hsk.1 used p recs hp t d (hsk.2 (.save t d) (by simp))
          (hnot (t, d) (by simp [savedOnly]))
        obtain ⟨u, hu⟩ := ih _ _ _ hsk' hnc' hsv (fun r hr hc => by
          rcases List.mem_cons.1 hc with hc | hc
          · exact hnd.1 (hc ▸ List.mem_map_of_mem (f := fun r => name r.1) hr)
          · exact hnot r (by simp [savedOnly, hr]) hc) hnd.2
        exact ⟨u, by simpa [savedOnly, probeStep] using hu⟩
      | crash m t d => exact absurd rfl (hnc _ (by simp) m t d)
  rw [List.nodup_cons] at hname
  obtain ⟨u, hu⟩ := key h [name t0] _ _ (sameKeys_tail (sameKeys_tail hs)) hn hfirst
    (fun r hr hc => hname.1 (by
      have : name r.1 = name t0 := by simpa using hc
      rw [← this]; exact List.mem_map_of_mem (f := fun r => name r.1) hr)) hname.2
  exact pinv_read hu

/-- Two files of two records with a restart in between. -/
example : (probeRun (fun t : ℕ => s!"tmin{t}") 2 ["u"]
      ([.start 0 [], .save 0 [("u", 10)], .save 1 [("u", 11)], .start 1 [], .save 2 [("u", 12)]] :
        List (Ev ℕ ℕ))).files.map (fun e => (e.1, e.2.times, e.2.dsets)) =
    [("tmin0", [0, 1], [("u", [10, 11])]), ("tmin2", [2], [("u", [12])])] := by
  decide +kernel

/-- C16, probes, refuted for a restart before the first record: the cell with which the file
is created is taken for a record; after the first real save the file holds a record (time 0)
that was never saved. -/
theorem C16_probes_restart_before_first_save_violated :
    ∃ (h : List (Ev ℕ ℕ)), joinedTimes (probeRun (fun t : ℕ => s!"tmin{t}") 10 ["u"] h).files
        = [0, 5] ∧ (savedOnly h).map Prod.fst = [5] :=
  ⟨[.start 4 [], .start 4 [], .save 5 [("u", 12)]], by decide +kernel, by decide +kernel⟩

/-- C16, probes, refuted when two files get the same name (the name holds the time with three
digits only): the second one replaces the first and its records are lost. -/
theorem C16_probes_same_name_violated :
    ∃ (name : ℕ → String) (h : List (Ev ℕ ℕ)),
      joinedTimes (probeRun name 1 ["u"] h).files = [1] ∧
      (savedOnly h).map Prod.fst = [0, 1] :=
  ⟨fun t => s!"tmin{t / 1000}", [.start 0 [], .save 0 [("u", 12)], .save 1 [("u", 13)]],
    by decide +kernel, by decide +kernel⟩

end Verif.Series
