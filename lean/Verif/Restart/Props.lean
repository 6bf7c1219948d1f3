import Verif.Restart.Lemmas
import Mathlib.Algebra.Order.Archimedean.Basic

/-! # C23 (restart), C49 (max_elapsed as text), C50 (open_patient) -/

set_option linter.unusedSectionVars false

namespace Verif.Restart

open PhysFiles (Str digitsVal isDig thousandths digs)

variable {K : Type*} [Field K] [LinearOrder K]

/-! ### C23 -/

/-- `--t_end T` gives the end time `T`; otherwise the end time is the old one plus the value of
`--add-to-t_end` if there is one. -/
theorem C23_t_end (p : Params K) (a : Args K) (f : StartFile K) :
    (restart p a f).1.tEnd = match a.tEnd with
      | some T => T
      | none => p.tEnd + a.addTEnd.getD 0 := by
  unfold restart setTimeStepping
  cases a.tEnd <;> cases a.addTEnd <;> cases a.addItEnd <;> cases a.itEnd <;>
    cases a.maxElapsed <;> simp only [] <;> split_ifs <;> simp

/-- Without `--it_end`, the last iteration is the old one plus the value of `--add-to-it_end`.
(Partial: the property also asks that `--it_end I` gives `I`.) -/
theorem C23_it_end_partial (p : Params K) (a : Args K) (f : StartFile K) (h : a.itEnd = none) :
    (restart p a f).1.itEnd = p.itEnd + a.addItEnd.getD 0 := by
  unfold restart setTimeStepping
  cases a.tEnd <;> cases a.addTEnd <;> cases a.addItEnd <;>
    cases a.maxElapsed <;> simp only [h] <;> split_ifs <;> simp

/-- Violation: `--it_end I` adds `I` to the old value, so the last iteration is the requested
one only if the old value was 0. -/
theorem C23_it_end_violated (p : Params K) (a : Args K) (f : StartFile K) (I : ℤ)
    (h : a.itEnd = some I) (h' : a.addItEnd = none) :
    (restart p a f).1.itEnd = p.itEnd + I ∧
      ((restart p a f).1.itEnd = I ↔ p.itEnd = 0) := by
  have : (restart p a f).1.itEnd = p.itEnd + I := by
    unfold restart setTimeStepping
    cases a.tEnd <;> cases a.addTEnd <;>
      cases a.maxElapsed <;> simp only [h, h'] <;> split_ifs <;> simp
  exact ⟨this, by rw [this]; omega⟩

/-- The simulation is run exactly if neither `--only-check` nor `--only-init` is given and the
end is after the start file (time of its name, or iteration). -/
theorem C23_started_iff (p : Params K) (a : Args K) (f : StartFile K) :
    (restart p a f).2 = .started ↔ a.onlyCheck = false ∧ a.onlyInit = false ∧
      (p.useTEnd = true → f.nameTime < (restart p a f).1.tEnd) ∧
      (p.useTEnd = false → f.it < (restart p a f).1.itEnd) := by
  have hu : (restart p a f).1.useTEnd = p.useTEnd := by
    unfold restart setTimeStepping
    cases a.tEnd <;> cases a.addTEnd <;> cases a.addItEnd <;> cases a.itEnd <;>
      cases a.maxElapsed <;> simp only [] <;> split_ifs <;> simp
  have key : (restart p a f).2 = if a.onlyCheck then .checked
      else if !check (restart p a f).1 f then .refused
      else if a.onlyInit then .initialized else .started := by
    unfold restart
    simp only
    generalize (match a.maxElapsed with
      | none => _
      | some s => _ : Params K) = q
    split_ifs <;> simp_all
  rw [key]
  have hc : check (restart p a f).1 f = true ↔
      (p.useTEnd = true → f.nameTime < (restart p a f).1.tEnd) ∧
      (p.useTEnd = false → f.it < (restart p a f).1.itEnd) := by
    unfold check
    rw [hu]
    cases p.useTEnd <;> simp
  rw [← hc]
  cases a.onlyCheck <;> cases a.onlyInit <;> cases check (restart p a f).1 f <;> simp

/-- With an end time not after the time of the file (up to the rounding of its name, half a
thousandth), no simulation is run. (Partial: see the violation.) -/
theorem C23_refused_partial [IsStrictOrderedRing K] [FloorRing K] (p : Params K) (a : Args K)
    (f : StartFile K) (hf : 0 ≤ f.time) (hn : f.nameTime = (thousandths f.time : K) / 1000)
    (hu : p.useTEnd = true)
    (h : (restart p a f).1.tEnd ≤ f.time - 1 / 2000) : (restart p a f).2 ≠ .started := by
  intro hs
  have h1 := ((C23_started_iff p a f).1 hs).2.2.1 hu
  have h2 := (abs_le.1 (PhysFiles.thousandths_near hf)).1
  rw [← hn] at h2
  linarith

/-- Violation: a run is started although its end is before its start file: file at time
1.0004, named 1.000, `--t_end 1.0002`. -/
theorem C23_end_before_file_violated :
    ∃ (p : Params ℚ) (a : Args ℚ) (f : StartFile ℚ),
      f.nameTime = (thousandths f.time : ℚ) / 1000 ∧ p.useTEnd = true ∧
      (restart p a f).1.tEnd < f.time ∧ (restart p a f).2 = .started :=
  ⟨⟨true, 1, 0, none, false, true⟩, { tEnd := some (10002 / 10000) }, ⟨10004 / 10000, 1, 5⟩,
    by decide +kernel, rfl, by decide +kernel, by decide +kernel⟩

/-- With `--only-check` or `--only-init` nothing is run and nothing is saved. -/
theorem C23_only_check (p : Params K) (a : Args K) (f : StartFile K)
    (h : a.onlyCheck = true ∨ a.onlyInit = true) :
    (restart p a f).1.hasToSave = false ∧ (restart p a f).2 ≠ .started := by
  constructor
  · unfold restart setTimeStepping
    rcases h with h | h <;>
    cases a.tEnd <;> cases a.addTEnd <;> cases a.addItEnd <;> cases a.itEnd <;>
      cases a.maxElapsed <;> simp only [h] <;> split_ifs <;> simp_all
  · intro hs
    have := (C23_started_iff p a f).1 hs
    rcases h with h | h
    · rw [h] at this; simp at this
    · rw [h] at this; simp at this

/-- The restart goes on in the directory of the start file unless `--new-dir-results`. -/
theorem C23_new_dir (p : Params K) (a : Args K) (f : StartFile K) :
    (restart p a f).1.newDir = a.newDir := by
  unfold restart setTimeStepping
  cases a.tEnd <;> cases a.addTEnd <;> cases a.addItEnd <;> cases a.itEnd <;>
    cases a.maxElapsed <;> simp only [] <;> split_ifs <;> simp

/-- `--max-elapsed` replaces the limit of the saved parameters, which is kept without this option. -/
theorem C23_max_elapsed (p : Params K) (a : Args K) (f : StartFile K) :
    (∀ s, a.maxElapsed = some s → (restart p a f).1.maxElapsed = some s) ∧
      (a.maxElapsed = none → (restart p a f).1.maxElapsed = p.maxElapsed) := by
  unfold restart setTimeStepping
  constructor
  · intro s hs
    rw [hs]
    cases a.tEnd <;> cases a.addTEnd <;> cases a.addItEnd <;> cases a.itEnd <;>
      simp only [] <;> split_ifs <;> simp
  · intro hs
    rw [hs]
    cases a.tEnd <;> cases a.addTEnd <;> cases a.addItEnd <;> cases a.itEnd <;>
      simp only [] <;> split_ifs <;> simp

/-- The exit code 99 (which asks for another job) is given exactly when a simulation was made,
it was stopped before its end, and relaunching is not forbidden. -/
theorem C23_exit_code (o : Outcome) (hasToStop noRelaunch : Bool) :
    exitCode o hasToStop noRelaunch = 99 ↔
      (o = .started ∨ o = .initialized) ∧ hasToStop = true ∧ noRelaunch = false := by
  cases o <;> cases hasToStop <;> cases noRelaunch <;> decide

/-- Non-vacuity. -/
example : restart (⟨true, 10, 0, none, false, true⟩ : Params ℚ) { addTEnd := some 5 } ⟨10, 10, 77⟩ =
    (⟨true, 15, 0, none, false, true⟩, .started) := by decide +kernel

example : restart (⟨true, 10, 0, none, false, true⟩ : Params ℚ) {} ⟨10, 10, 77⟩ =
    (⟨true, 10, 0, none, false, true⟩, .refused) := by decide +kernel

example : restart (⟨false, 10, 77, none, false, true⟩ : Params ℚ) { itEnd := some 100 } ⟨10, 10, 77⟩ =
    (⟨false, 10, 177, none, false, true⟩, .started) := by decide +kernel

/-! ### C49 -/

/-- A text with a colon is accepted exactly if it is a time of the day `HH:MM:SS`, and its
value is its number of seconds. `pyFloat` is Python's `float`, which refuses any text with a
colon. (Partial: see the violation for durations of a day or more.) -/
theorem C49_seconds_partial (pyFloat : Str → Option K) (hfloat : ∀ s, ':' ∈ s → pyFloat s = none)
    (s : Str) (hs : ':' ∈ s) :
    (∀ n, IsTimeText s n → maxElapsed pyFloat s = .ok (n : K)) ∧
      ((∀ n, ¬ IsTimeText s n) → maxElapsed pyFloat s = .error "ValueError") := by
  constructor
  · intro n hn
    simp only [maxElapsed, hfloat s hs, (strptime_iff s n).2 hn]
  · intro hn
    rcases Option.eq_none_or_eq_some (strptime s) with hc | ⟨n, hc⟩
    · simp only [maxElapsed, hfloat s hs, hc]
    · exact absurd ((strptime_iff s n).1 hc) (hn n)

/-- A text that `float` accepts is a number of seconds. -/
theorem C49_number (pyFloat : Str → Option K) (s : Str) (x : K) (h : pyFloat s = some x) :
    maxElapsed pyFloat s = .ok x := by simp [maxElapsed, h]

/-- Violation: durations of 24 hours or more are refused: for any text `HH:MM:SS` of digits
with `HH ≥ 24`. -/
theorem C49_day_or_more_violated (pyFloat : Str → Option K)
    (hfloat : ∀ s, ':' ∈ s → pyFloat s = none) (h m sec : Str) (hd : ∀ c ∈ h, isDig c = true)
    (h24 : 24 ≤ digitsVal h) :
    maxElapsed pyFloat (h ++ ':' :: (m ++ ':' :: sec)) = .error "ValueError" := by
  refine (C49_seconds_partial pyFloat hfloat _ (by simp)).2 ?_
  rintro n ⟨h', m', sec', hh', _, _, lh, _, _, he, _⟩
  obtain ⟨rfl, _⟩ := cut_unique hd hh'.2 he
  omega

/-- Non-vacuity. -/
example : maxElapsed (fun _ => (none : Option ℚ)) "23:30:00".toList = .ok 84600 := by decide +kernel
example : maxElapsed (fun _ => (none : Option ℚ)) "0:2:05".toList = .ok 125 := by decide +kernel
example : maxElapsed (fun _ => (none : Option ℚ)) "24:00:00".toList = .error "ValueError" := by
  decide +kernel
example : IsTimeText "23:30:00".toList 84600 :=
  (strptime_iff _ _).1 (by decide +kernel)

/-! ### C50 -/

/-- The file is returned exactly if some attempt succeeds and every earlier one failed with
errno 11 within the time allowed. -/
theorem C50_returns_file_iff {F : Type*} (att : ℕ → Attempt F) (elapsed : ℕ → K) (total : K)
    (f : F) : (∃ fuel, openPatient att elapsed total fuel 0 = some (.file f)) ↔
      ∃ k, att k = .ok f ∧ ∀ i, i < k → att i = .errno 11 ∧ elapsed i ≤ total := by
  constructor
  · rintro ⟨fuel, h⟩
    obtain ⟨j, _, _, h3, h4⟩ := openPatient_spec att elapsed total fuel 0 _ h
    rcases h4 with ⟨g, hg, he⟩ | ⟨_, he⟩ | ⟨n, _, _, he⟩
    · cases he; exact ⟨j, hg, fun i hi => h3 i (Nat.zero_le _) hi⟩
    · cases he
    · cases he
  · rintro ⟨k, hk, h⟩
    refine ⟨k + 1, ?_⟩
    rw [openPatient_of att elapsed total (k + 1) 0 k (Nat.zero_le _) (by omega)
      fun i _ hi => h i hi]
    have : k + 1 - (k - 0) = 1 := by omega
    rw [this]
    simp [openPatient, hk]

/-- When an OSError is raised, it is the one of the last attempt, and either its number is not
11 or the time allowed is over. (Partial: see the violation.) -/
theorem C50_raises_last_error_partial {F : Type*} (att : ℕ → Attempt F) (elapsed : ℕ → K)
    (total : K) (fuel : ℕ) (n : ℤ) (h : openPatient att elapsed total fuel 0 = some (.osError n)) :
    ∃ k, att k = .errno n ∧ (n ≠ 11 ∨ total < elapsed k) ∧
      ∀ i, i < k → att i = .errno 11 ∧ elapsed i ≤ total := by
  obtain ⟨j, _, _, h3, h4⟩ := openPatient_spec att elapsed total fuel 0 _ h
  rcases h4 with ⟨g, hg, he⟩ | ⟨_, he⟩ | ⟨m, h5, h6, he⟩
  · cases he
  · cases he
  · cases he; exact ⟨j, h5, h6, fun i hi => h3 i (Nat.zero_le _) hi⟩

/-- Violation: an OSError without the text `errno =` (for example a truncated file) is replaced
by an IndexError. -/
theorem C50_error_hidden_violated {F : Type*} (att : ℕ → Attempt F) (elapsed : ℕ → K) (total : K)
    (k : ℕ) (hk : att k = .noErrno) (h : ∀ i, i < k → att i = .errno 11 ∧ elapsed i ≤ total) :
    openPatient att elapsed total (k + 1) 0 = some .indexError := by
  rw [openPatient_of att elapsed total (k + 1) 0 k (Nat.zero_le _) (by omega) fun i _ hi => h i hi]
  have : k + 1 - (k - 0) = 1 := by omega
  rw [this]
  simp [openPatient, hk]

/-- The call ends: at most `m + 2` attempts where `total < (m + 1) * once`, since the clock
advances at least by `once` between two attempts. -/
theorem C50_bounded {F : Type*} [IsStrictOrderedRing K] (att : ℕ → Attempt F) (elapsed : ℕ → K)
    (total once : K) (h0 : 0 ≤ elapsed 0) (hstep : ∀ k, elapsed k + once ≤ elapsed (k + 1))
    (m : ℕ) (hm : total < (m + 1) * once) :
    ∃ r, openPatient att elapsed total (m + 2) 0 = some r := by
  rcases Option.eq_none_or_eq_some (openPatient att elapsed total (m + 2) 0) with hc | h
  · exfalso
    have h1 := (openPatient_none att elapsed total _ _ hc (m + 1) (by omega) (by omega)).2
    have h2 : ∀ k : ℕ, (k : K) * once ≤ elapsed k := by
      intro k
      induction k with
      | zero => simpa using h0
      | succ k ih =>
        have := hstep k
        push_cast
        linarith
    have h3 := h2 (m + 1)
    push_cast at h3
    linarith
  · exact h

/-- Non-vacuity: two failures with errno 11, then a file. -/
example : openPatient (fun k => if k < 2 then .errno 11 else Attempt.ok "file")
    (fun k => (2 * k : ℚ)) 200 102 0 = some (.file "file") := by decide +kernel

/-- Non-vacuity of the bound: default values (200 s, 2 s), the file is never free: 102 attempts. -/
example : openPatient (fun _ => (.errno 11 : Attempt String)) (fun k => (2 * k : ℚ)) 200 102 0 =
    some (.osError 11) := by decide +kernel
example : (200 : ℚ) < ((100 : ℕ) + 1) * 2 := by norm_num

end Verif.Restart
