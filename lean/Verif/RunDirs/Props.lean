import Verif.RunDirs.Lemmas
import Mathlib.Data.List.Induction

/-! # C20 (own directory), C21 (final move), C22 (lock file) -/

namespace Verif.RunDirs

open PhysFiles (Str digs digs_inj)

/-! ### C20 -/

/-- Whatever the number of processes launched at the same time and the interleaving of their
existence tests and `mkdir` calls, and whatever the other programs make: the directory a
process ends up with did not exist before, was made by this process, and no other process has
it. -/
theorem C20_own_directory {N : Type*} [DecidableEq N] (w0 w : World N) (h0 : Init w0)
    (hs : Steps w0 w) (i : ℕ) (n : N) (hi : w.proc i = .done n) :
    w0.dir n = none ∧ w.dir n = some (.proc i) ∧ ∀ j, j ≠ i → w.proc j ≠ .done n := by
  have hinv : Owned w ∧ ∀ m, w0.dir m ≠ none → w.dir m = w0.dir m := by
    clear hi
    induction hs with
    | refl =>
      refine ⟨⟨fun i n hi => ?_, fun i n hi => ?_⟩, fun _ _ => rfl⟩
      · obtain ⟨m, hm⟩ := h0.1 i; rw [hm] at hi; simp at hi
      · rcases h0.2 n with h | h <;> rw [h] at hi <;> simp at hi
    | tail _ hs ih =>
      refine ⟨owned_step ih.1 hs, fun m hm => ?_⟩
      rw [dir_step hs m (by rw [ih.2 m hm]; exact hm), ih.2 m hm]
  obtain ⟨⟨o1, o2⟩, hkeep⟩ := hinv
  have hd := o1 i n hi
  refine ⟨?_, hd, ?_⟩
  · by_contra hne
    have h1 := hkeep n hne
    rcases h0.2 n with h | h
    · exact hne h
    · rw [h1, h] at hd; simp at hd
  · intro j hj hjn
    have := o1 j n hjn
    rw [hd] at this
    simp only [Option.some.injEq, Owner.proc.injEq] at this
    exact hj this.symm

/-- No directory that existed before is removed or taken over. -/
theorem C20_existing_directories_kept {N : Type*} [DecidableEq N] (w0 w : World N)
    (hs : Steps w0 w) (n : N) (hn : w0.dir n ≠ none) : w.dir n = w0.dir n := by
  induction hs with
  | refl => rfl
  | tail _ hs ih => rw [dir_step hs n (by rw [ih]; exact hn), ih]

/-- A lone process ends up with the first of its names that is free; it ends because the names
given by the clock differ and there are finitely many directories. -/
theorem C20_terminates {N : Type*} [DecidableEq N] (dirs : List N) (names : ℕ → N)
    (hinj : Function.Injective names) :
    ∃ j, initPathRun (fun n => decide (n ∈ dirs)) names (dirs.length + 1) 0 = some (names j) ∧
      names j ∉ dirs ∧ ∀ i, i < j → names i ∈ dirs := by
  rcases Option.eq_none_or_eq_some (initPathRun (fun n => decide (n ∈ dirs)) names
    (dirs.length + 1) 0) with hc | ⟨n, hc⟩
  · exfalso
    obtain ⟨i, hi, hn⟩ := exists_fresh dirs names hinj
    have := initPathRun_none _ _ _ _ hc i (by omega) (by omega)
    exact hn (by simpa using this)
  · obtain ⟨j, _, rfl, h3, h4⟩ := initPathRun_spec _ _ _ _ _ hc
    exact ⟨j, hc, by simpa using h3, fun i hi => by simpa using h4 i (by omega) hi⟩

/-- A run that saves never goes on in a directory of another resolution: when an old directory
is used, every one of nx, ny, nz known on both sides is the same. -/
theorem C20_no_mixed_resolution (newDir : Bool) (pathRun : Option String)
    (saved : Option (List (String × ℕ))) (res : List (String × ℕ)) (p : String)
    (h : chooseDir newDir true pathRun saved res = .ok (some p)) :
    newDir = false ∧ pathRun = some p ∧ ∃ old, saved = some old ∧
      ∀ k ∈ ["nx", "ny", "nz"], ∀ a b, res.lookup k = some a → old.lookup k = some b → a = b := by
  unfold chooseDir at h
  cases newDir with
  | true => simp at h
  | false =>
    cases pathRun with
    | none => simp at h
    | some path =>
      cases saved with
      | none => simp at h
      | some old =>
        simp only [Bool.false_eq_true, if_false, if_true] at h
        split_ifs at h with hc
        · simp at h
        simp only [Except.ok.injEq, Option.some.injEq] at h
        subst h
        refine ⟨rfl, rfl, old, rfl, fun k hk a b ha hb => ?_⟩
        simp only [Bool.not_eq_true, List.any_eq_false] at hc
        have := hc k hk
        simp only [ha, hb] at this
        simpa using this

/-- Conversely with the same resolution the old directory is used. -/
theorem C20_same_resolution_reuses (path : String) (old res : List (String × ℕ))
    (h : ∀ k ∈ ["nx", "ny", "nz"], ∀ a b, res.lookup k = some a → old.lookup k = some b → a = b) :
    chooseDir false true (some path) (some old) res = .ok (some path) := by
  unfold chooseDir
  simp only [Bool.false_eq_true, if_false, if_true]
  rw [if_neg]
  simp only [Bool.not_eq_true, List.any_eq_false]
  intro k hk
  have := h k hk
  split
  · rename_i a b ha hb
    simp [this a b ha hb]
  · simp

/-- Violation: `params.NEW_DIR_RESULTS = False` without `params.path_run` raises
AttributeError although the code has a branch that would make a new directory. -/
theorem C20_missing_path_run_violated (saved : Option (List (String × ℕ)))
    (res : List (String × ℕ)) :
    chooseDir false true none saved res = .error "AttributeError" := rfl

/-- Non-vacuity: two processes with the same name both pass the existence test; one of them
makes the directory, the other one tries again with another name. -/
example : ∃ w0 w : World ℕ, Init w0 ∧ Steps w0 w ∧ w.proc 0 = .done 8 ∧ w.proc 1 = .done 7 :=
  ⟨⟨fun _ => none, fun _ => .test 7⟩, _, ⟨fun _ => ⟨7, rfl⟩, fun _ => Or.inl rfl⟩,
    .tail (.tail (.tail (.tail (.tail (.tail (.refl _)
      (.testFree _ 0 7 rfl rfl)) (.testFree _ 1 7 rfl rfl)) (.mkOk _ 1 7 rfl rfl))
      (.mkFails _ 0 7 8 rfl (by simp))) (.testFree _ 0 8 rfl rfl)) (.mkOk _ 0 8 rfl rfl),
    rfl, rfl⟩

example : initPathRun (fun n => decide (n ∈ [10, 11])) (fun k => 10 + k) 3 0 = some 12 := by decide

example : chooseDir false true (some "run") (some [("nx", 32)]) [("nx", 64)] = .ok none := by
  decide +kernel

/-! ### C21 -/

/-- At the end of a run outside of FLUIDSIM_PATH, the directory goes to the first free name
among `name`, `name_1`, `name_2`, ...; its content is there, it is not at the old place any
more, all other directories are as before, and `path_run` is the new place. -/
theorem C21_moved {C : Type*} (fs : Fs C) (final sub : Path) (name : Str) (pathRun : Path) (c : C)
    (hrun : content fs pathRun = some c) (hout : (text final).isPrefixOf (text pathRun) = false) :
    ∃ i fs', endOfSimul fs final sub name false pathRun
        = .ok (fs', suffixed (final ++ sub) name i) ∧
      hasDir fs (suffixed (final ++ sub) name i) = false ∧
      (∀ j, j < i → hasDir fs (suffixed (final ++ sub) name j) = true) ∧
      content fs' (suffixed (final ++ sub) name i) = some c ∧
      content fs' pathRun = none ∧
      ∀ q, q ≠ pathRun → q ≠ suffixed (final ++ sub) name i → content fs' q = content fs q := by
  obtain ⟨i, hi, hfree, hmin⟩ := freshPath_total fs (final ++ sub) name
  have hnew : newPath fs final sub name false pathRun = some (suffixed (final ++ sub) name i) := by
    simp [newPath, hout, hi]
  have hhas : hasDir fs pathRun = true := by
    by_contra hcon
    rw [(content_none fs pathRun).2 (by simpa using hcon)] at hrun
    simp at hrun
  have hmv : ∃ fs', moveDir fs pathRun (suffixed (final ++ sub) name i) = .ok fs' := by
    simp [moveDir, hrun, hfree]
  obtain ⟨fs', hfs'⟩ := hmv
  obtain ⟨c', real, e1, e2, e3, e4, -, e6⟩ := moveDir_spec _ _ _ _ hfs'
  have hreal := e4 hfree
  subst hreal
  rw [hrun] at e1
  cases e1
  refine ⟨i, fs', ?_, hfree, hmin, ?_, ?_, ?_⟩
  · simp only [endOfSimul, hnew, hhas, if_true, hfs']
  · rw [e6]; simp
  · rw [e6]; simp [Ne.symm e3]
  · intro q h1 h2; rw [e6]; simp [h1, h2]

/-- Otherwise (inside FLUIDSIM_PATH, or the same parent directory) nothing changes. -/
theorem C21_stays {C : Type*} (fs : Fs C) (final sub : Path) (name : Str) (same : Bool)
    (pathRun : Path) (h : (text final).isPrefixOf (text pathRun) = true ∨ same = true) :
    endOfSimul fs final sub name same pathRun = .ok (fs, pathRun) := by
  have : newPath fs final sub name same pathRun = none := by
    unfold newPath
    rcases h with h | h <;> simp [h]
  simp [endOfSimul, this]

/-- Whatever happened between the choice of the name and the move (`dst` may exist by then): if
the move succeeds, the content of the run is at a place that was free, and no other directory
is touched; if it fails, nothing changes. -/
theorem C21_move_never_destroys {C : Type*} (fs fs' : Fs C) (src dst : Path)
    (h : moveDir fs src dst = .ok fs') :
    (∃ q, content fs q = none ∧ content fs' q = content fs src) ∧
      ∀ p, p ≠ src → content fs p ≠ none → content fs' p = content fs p := by
  obtain ⟨c, real, e1, e2, e3, -, -, e6⟩ := moveDir_spec _ _ _ _ h
  have hnone := (content_none fs real).2 e2
  refine ⟨⟨real, hnone, by rw [e6, e1]; simp⟩, fun p hp hne => ?_⟩
  have : p ≠ real := by rintro rfl; exact hne hnone
  rw [e6]; simp [hp, this]

/-- Violation: two runs of the same name from two scratch places. Both look for a free name
before any of them moves: the results of the second one end up inside the directory of the
first one, and not at its `path_run`. -/
theorem C21_concurrent_moves_violated :
    ∃ (fs fs1 fs2 : Fs ℕ) (final a b p : Path) (name : Str),
      newPath fs final [] name false a = some p ∧ newPath fs final [] name false b = some p ∧
      moveDir fs a p = .ok fs1 ∧ moveDir fs1 b p = .ok fs2 ∧
      content fs b = some 2 ∧ content fs2 p = some 1 ∧ content fs2 (p ++ [name]) = some 2 :=
  ⟨[(["s1".toList, "run".toList], 1), (["s2".toList, "run".toList], 2)], _, _, ["data".toList],
    ["s1".toList, "run".toList], ["s2".toList, "run".toList], ["data".toList, "run".toList],
    "run".toList, by decide +kernel, by decide +kernel, rfl, rfl, by decide +kernel,
    by decide +kernel, by decide +kernel⟩

/-- Violation: with MPI, a rank that looks for the free name after rank 0 has moved the
directory never gets the path of rank 0. -/
theorem C21_mpi_ranks_violated {C : Type*} (fs : Fs C) (final sub : Path) (name : Str)
    (pathRun p : Path) (c : C) (fs' : Fs C) (hrun : content fs pathRun = some c)
    (hout : (text final).isPrefixOf (text pathRun) = false)
    (h : endOfSimul fs final sub name false pathRun = .ok (fs', p)) :
    newPath fs' final sub name false pathRun ≠ some p := by
  obtain ⟨i, fs'', h1, _, _, h4, _⟩ := C21_moved fs final sub name pathRun c hrun hout
  rw [h] at h1
  cases h1
  obtain ⟨k, hk, hfree, _⟩ := freshPath_total fs' (final ++ sub) name
  intro hcon
  simp only [newPath, hout, hk, Bool.false_eq_true, if_false, Option.some.injEq] at hcon
  rw [hcon] at hfree
  rw [(content_none _ _).2 hfree] at h4
  simp at h4

/-- Violation: the test "inside FLUIDSIM_PATH" is a test on texts, so a run in a directory
`Sim_data_scratch` is not moved to `Sim_data`. -/
theorem C21_textual_prefix_violated :
    ∃ (final pathRun : Path), ¬ final <+: pathRun ∧
      ∀ (fs : Fs ℕ) (sub : Path) (name : Str),
        endOfSimul fs final sub name false pathRun = .ok (fs, pathRun) :=
  ⟨["home".toList, "Sim_data".toList], ["home".toList, "Sim_data_scratch".toList, "run".toList],
    by decide +kernel, fun fs sub name => C21_stays fs _ sub name _ _ (Or.inl (by decide +kernel))⟩

/-- Non-vacuity: two directories with the name exist already. -/
example : (endOfSimul [(["s".toList, "run".toList], 5), (["d".toList, "run".toList], 6),
    (["d".toList, "run_1".toList], 7)] ["d".toList] [] "run".toList false
    ["s".toList, "run".toList]).map Prod.snd = .ok ["d".toList, "run_2".toList] := by
  decide +kernel

/-! ### C22 -/

/-- If only one process at a time works on the directory and no SIGTERM arrives: while the
process advances, the lock file exists. (Partial: see the violations below.) -/
theorem C22_lock_while_advancing_partial (evs : List Ev) (hser : Serial evs)
    (hterm : ∀ e ∈ evs, e.isTerm = false) (i : ℕ) (h : (lockRun evs).Advancing i) :
    (lockRun evs).exists_ = true := by
  have inv : ∀ j, (∀ b, (lockRun evs).proc j = .tested b → (lockRun evs).exists_ = b) ∧
      (∀ b, (lockRun evs).proc j = .running b → (lockRun evs).exists_ = true) := by
    clear h
    induction evs using List.reverseRecOn with
    | nil => intro j; simp [lockRun, lock0]
    | append_singleton evs e ih =>
      have ih := ih (serial_prefix hser) fun x hx => hterm x (by simp [hx])
      have hold := serial_self (serial_prefix hser)
      have hnew := serial_self hser
      have ht := hterm e (by simp)
      rw [lockRun_snoc] at hnew ⊢
      generalize lockRun evs = s at ih hold hnew ⊢
      intro j
      cases e with
      | test i =>
        rcases hi : s.proc i with _ | saw | tm <;> simp only [lockStep, hi] <;> try exact ih j
        by_cases hji : j = i
        · subst hji; simp
        · simp only [set_ne _ _ hji]; exact ih j
      | create i =>
        rcases hi : s.proc i with _ | saw | tm <;> simp only [lockStep, hi] at hnew ⊢ <;>
          try exact ih j
        have hs := (ih i).1 saw hi
        by_cases hji : j = i
        · subst hji
          cases saw <;> simp [hs]
        · have := hnew j i
          simp only [set_ne _ _ hji, set_same] at this ⊢
          constructor <;> intro b hb <;>
            exact absurd (this (by rw [hb]; simp) (by simp)) hji
      | term i => simp [Ev.isTerm] at ht
      | int i =>
        rcases hi : s.proc i with _ | saw | tm <;> simp only [lockStep, hi] <;> try exact ih j
        by_cases hji : j = i
        · subst hji; simp
        · have := hold j i
          simp only [set_ne _ _ hji]
          constructor <;> intro b hb <;>
            exact absurd (this (by rw [hb]; simp) (by rw [hi]; simp)) hji
      | finish i =>
        rcases hi : s.proc i with _ | saw | tm <;> simp only [lockStep, hi] <;> try exact ih j
        by_cases hji : j = i
        · subst hji; simp
        · have := hold j i
          simp only [set_ne _ _ hji]
          constructor <;> intro b hb <;>
            exact absurd (this (by rw [hb]; simp) (by rw [hi]; simp)) hji
      | finishMoved i =>
        rcases hi : s.proc i with _ | saw | tm <;> simp only [lockStep, hi] <;> try exact ih j
        by_cases hji : j = i
        · subst hji; simp
        · simp only [set_ne _ _ hji]; exact ih j
      | kill i =>
        rcases hi : s.proc i with _ | saw | tm <;> simp only [lockStep, hi] <;> try exact ih j
        all_goals
          by_cases hji : j = i
          · subst hji; simp
          · simp only [set_ne _ _ hji]; exact ih j
  obtain ⟨b, hb⟩ := h
  exact (inv i).2 b hb

/-- If only one process at a time works on the directory, no process is killed, and the
directory is not moved at the end: the lock file exists only while a process advances (so no
process gets a warning, and no lock is left behind). -/
theorem C22_no_stale_lock_partial (evs : List Ev) (hser : Serial evs)
    (hkill : ∀ e ∈ evs, e.isKill = false) (hmov : ∀ e ∈ evs, e.isMoved = false)
    (h : (lockRun evs).exists_ = true) : ∃ i, (lockRun evs).Advancing i := by
  have inv : ((lockRun evs).exists_ = true → ∃ i b, (lockRun evs).proc i = .running b) := by
    clear h
    induction evs using List.reverseRecOn with
    | nil => simp [lockRun, lock0]
    | append_singleton evs e ih =>
      have ih := ih (serial_prefix hser) (fun x hx => hkill x (by simp [hx]))
        fun x hx => hmov x (by simp [hx])
      have hk := hkill e (by simp)
      have hm := hmov e (by simp)
      rw [lockRun_snoc]
      generalize lockRun evs = s at ih ⊢
      cases e with
      | test i =>
        simp only [lockStep]
        split
        · rename_i hi
          intro hx
          obtain ⟨j, b, hj⟩ := ih hx
          have hji : j ≠ i := by rintro rfl; rw [hi] at hj; simp at hj
          exact ⟨j, b, by simp only [set_ne _ _ hji]; exact hj⟩
        · exact ih
      | create i =>
        simp only [lockStep]
        split
        · exact fun _ => ⟨i, false, by simp⟩
        · exact ih
      | term i => simp only [lockStep]; split <;> [simp; exact ih]
      | int i => simp only [lockStep]; split <;> [simp; exact ih]
      | finish i => simp only [lockStep]; split <;> [simp; exact ih]
      | finishMoved i => simp [Ev.isMoved] at hm
      | kill i => simp [Ev.isKill] at hk
  exact inv h

/-- A process that looks at the directory while the lock exists is told so (it warns), and the
lock stays until an event that releases it. -/
theorem C22_lock_stays_until_release (s : Lock) (evs : List Ev) (hs : s.exists_ = true)
    (hrel : ∀ e ∈ evs, e.isRelease = false) : (evs.foldl lockStep s).exists_ = true := by
  induction evs generalizing s with
  | nil => exact hs
  | cons e evs ih =>
    refine ih (lockStep s e) ?_ fun x hx => hrel x (by simp [hx])
    have := hrel e (by simp)
    cases e <;> simp [Ev.isRelease] at this <;> simp only [lockStep] <;> split <;> simp [hs]

/-- Violation 1: a second process only warns: both advance the same directory. -/
theorem C22_two_processes_violated :
    ∃ evs, (lockRun evs).Advancing 0 ∧ (lockRun evs).Advancing 1 :=
  ⟨[.test 0, .create 0, .test 1, .create 1], ⟨false, by decide⟩, ⟨false, by decide⟩⟩

/-- Violation 2: when the second process ends, it removes the lock of the first one. -/
theorem C22_other_process_releases_violated :
    ∃ evs, (lockRun evs).Advancing 0 ∧ (lockRun evs).exists_ = false :=
  ⟨[.test 0, .create 0, .test 1, .create 1, .finish 1], ⟨false, by decide⟩, by decide⟩

/-- Violation 3: after SIGTERM the lock is absent while the process still advances. -/
theorem C22_sigterm_violated :
    ∃ evs, Serial evs ∧ (lockRun evs).Advancing 0 ∧ (lockRun evs).exists_ = false := by
  refine ⟨[.test 0, .create 0, .term 0], ?_, ⟨true, by decide⟩, by decide⟩
  have hall : ∀ evs : List Ev, evs ∈ [[], [Ev.test 0], [.test 0, .create 0],
      [.test 0, .create 0, .term 0]] → ∀ i, i ≠ 0 → (lockRun evs).proc i = .idle := by
    intro evs he i hi
    simp only [List.mem_cons, List.not_mem_nil, or_false] at he
    rcases he with rfl | rfl | rfl | rfl <;> simp [lockRun, lockStep, lock0, set, hi]
  intro pre hp i j hi hj
  have hmem : pre ∈ [[], [Ev.test 0], [.test 0, .create 0], [.test 0, .create 0, .term 0]] := by
    have := List.mem_inits pre [.test 0, .create 0, .term 0] |>.2 hp
    simpa [List.inits] using this
  have h0 := hall pre hmem
  have hi0 : i = 0 := by by_contra hne; exact hi (h0 i hne)
  have hj0 : j = 0 := by by_contra hne; exact hj (h0 j hne)
  rw [hi0, hj0]

/-- Violation 4: the test and the writing are not atomic: two processes can both see no lock
and then both advance without any warning. -/
theorem C22_test_then_write_violated :
    ∃ evs, (lockRun evs).Advancing 0 ∧ (lockRun evs).Advancing 1 ∧
      (lockRun (evs.take 2)).proc 0 = .tested false ∧
      (lockRun (evs.take 2)).proc 1 = .tested false :=
  ⟨[.test 0, .test 1, .create 0, .create 1], ⟨false, by decide⟩, ⟨false, by decide⟩, by decide,
    by decide⟩

/-- Violation 5: a run that ends normally leaves its lock in the directory if the directory is
moved at the end (C21). -/
theorem C22_moved_lock_violated :
    ∃ evs, (lockRun evs).exists_ = true ∧ ∀ i, (lockRun evs).proc i = .idle :=
  ⟨[.test 0, .create 0, .finishMoved 0], by decide, fun i => by
    by_cases h : i = 0 <;> simp [lockRun, lockStep, lock0, set, h]⟩

/-- Non-vacuity of the two partial theorems: three runs one after the other. -/
example : (lockRun [.test 0, .create 0, .finish 0, .test 1, .create 1, .int 1, .test 2,
    .create 2]).exists_ = true := by decide

end Verif.RunDirs
