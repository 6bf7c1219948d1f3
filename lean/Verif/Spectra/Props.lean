import Verif.Spectra.Lemmas

/-!
# C61: the files of the spectra of the 3D solvers
-/

namespace Verif.Spectra

variable {R : Type*}

/-- C61: one process in an empty directory. All the records are in `spectra1d.h5` and in
`spectra3d.h5`, in order; `spectra_kzkh.h5` holds the records number `0`, `p`, `2 p`, ... with
`p = kzkh_periodicity`, and does not exist if `p = 0`; no exception is raised. -/
theorem C61_one_process (p : ℕ) (r0 : R) (rs : List R) :
    let s := run (.start p r0 :: rs.map .save)
    s.errs = [] ∧ s.disk.f1 = some (r0 :: rs) ∧ s.disk.f3 = some (r0 :: rs) ∧
    s.disk.fk = if p = 0 then none else some (oneOutOf p (r0 :: rs)) := by
  have h0 := inv_first p r0
  obtain ⟨K', h, e⟩ := inv_saves rs h0
  have hK := e (by simp [oneOutOf])
  subst hK
  exact ⟨h.errs, h.f1, h.f3, h.fk⟩

example : oneOutOf 3 [0, 1, 2, 3, 4, 5, 6, 7] = [0, 3, 6] ∧
    (run (.start 3 0 :: [1, 2, 3, 4].map Ev.save)).disk.fk = some [0, 3] := by decide

/-- C61: processes one after the other in the same directory: `spectra1d.h5` and `spectra3d.h5`
hold all the records of all the processes, in order, and no exception is raised. -/
theorem C61_restarts (p : ℕ) (a : Session R) (ss : List (Session R)) :
    let s := run (history p (a :: ss))
    s.errs = [] ∧ s.disk.f1 = some (records (a :: ss)) ∧
    s.disk.f3 = some (records (a :: ss)) := by
  have h := inv_run (p := p) a ss
  rw [marked_snd] at h
  exact ⟨h.errs, h.f1, h.f3⟩

example : (run (history 2 [(0, [1, 2]), (3, [4])])).disk.f3 = some [0, 1, 2, 3, 4] := by decide

/-- C61: exactly which records are in `spectra_kzkh.h5` when the processes all have the same
period `p ≥ 1`: the record number `i` made by a restart is there iff `p` divides `i + 1`, any other
one iff `p` divides `i`. The full property (one record out of `p`) fails because of the restarts,
see `C61_kzkh_cadence_violated`; it holds for `p = 1`. -/
theorem C61_kzkh_cadence_partial (p : ℕ) (hp : p ≠ 0) (a : Session R) (ss : List (Session R)) :
    (run (history p (a :: ss))).disk.fk =
      some (((marked (a :: ss)).zipIdx.filter fun x =>
        if x.1.1 = true ∧ x.2 ≠ 0 then (x.2 + 1) % p = 0 else x.2 % p = 0).map fun x => x.1.2) ∧
    (p = 1 → (run (history p (a :: ss))).disk.fk = some (records (a :: ss))) := by
  have h := (inv_run (p := p) a ss).fk
  rw [if_neg hp] at h
  refine ⟨h, fun h1 => ?_⟩
  subst h1
  rw [h, ← marked_snd, kzkhMarked]
  congr 1
  rw [List.filter_eq_self.2 (by simp [Nat.mod_one])]
  rw [show (fun x : (Bool × R) × ℕ => x.1.2) = Prod.snd ∘ Prod.fst from rfl, ← List.map_map,
    List.zipIdx_map_fst]

/-- C61 is violated for the period of the (kz, kh) spectra: with `kzkh_periodicity = 2`, after a
restart two consecutive records can both be saved, and three consecutive ones can be left out. -/
theorem C61_kzkh_cadence_violated :
    (run (history 2 [(0, []), (1, [2])])).disk.fk = some [0, 1, 2] ∧
    (run (history 2 [(0, [1]), (2, [3, 4])])).disk.fk = some [0, 4] ∧
    oneOutOf 2 [0, 1, 2, 3, 4] = [0, 2, 4] := by decide

/-- C61: whatever the restarts and wherever the processes are killed, as soon as a first process
has created its files with a non-zero period (or if all the periods are zero), no exception is ever
raised; `spectra1d.h5` and `spectra3d.h5` hold exactly the records whose writing reached them, in
order; the (kz, kh) records are records of `spectra3d.h5`, in the same order. -/
theorem C61_kills (p : ℕ) (r0 : R) (h : List (Ev R)) (hp : p ≠ 0 ∨ Periods (· = 0) h) :
    let s := run (.start p r0 :: h)
    s.errs = [] ∧ s.disk.f1 = some (r0 :: written 1 true h) ∧
    s.disk.f3 = some (r0 :: written 2 true h) ∧
    (p = 0 → s.disk.fk = none) ∧
    (p ≠ 0 → ∃ K, s.disk.fk = some K ∧ K.Sublist (r0 :: written 2 true h)) := by
  have h0 := inv_first p r0
  by_cases hp0 : p = 0
  · have hP : Periods (· = 0) h := hp.resolve_left (by simpa using hp0)
    subst hp0
    have hi : Inv2 (· = 0) [r0] [r0] true (step empty (.start 0 r0)) :=
      ⟨h0.f1, h0.f3, Or.inl ⟨by simpa using h0.fk, fun _ h => h⟩,
        by simp [h0.obj], h0.errs⟩
    obtain ⟨al, hh⟩ := inv2_run h hP hi
    refine ⟨hh.errs, hh.f1, hh.f3, fun _ => ?_, fun h => absurd rfl h⟩
    exact fk_none h hP hi (by simpa using h0.fk)
  · have hP : Periods (fun _ => True) h := by
      intro e _; cases e <;> trivial
    have hi : Inv2 (fun _ => True) [r0] [r0] true (step empty (.start p r0)) :=
      ⟨h0.f1, h0.f3, Or.inr ⟨[r0], by simpa [hp0] using h0.fk, by simp⟩,
        by simp [h0.obj], h0.errs⟩
    obtain ⟨al, hh⟩ := inv2_run h hP hi
    refine ⟨hh.errs, hh.f1, hh.f3, fun h => absurd h hp0, fun _ => ?_⟩
    rcases hh.fk with ⟨-, hz⟩ | hk
    · exact absurd (hz 1 trivial) (by simp)
    · exact hk

example : (run [.start 2 0, .save 1, .killSave 1 2, .save 3, .start 2 4, .killStart 2 3 5]).disk.f1 =
      some [0, 1, 2, 4, 5] ∧
    (run [.start 2 0, .save 1, .killSave 1 2, .save 3, .start 2 4, .killStart 2 3 5]).disk.f3 =
      some [0, 1, 4, 5] := by decide

/-- C61 is violated for a kill inside the creation of the files: if only `spectra1d.h5` has been
created, every later process raises when it starts. -/
theorem C61_kill_at_creation_violated (p p' : ℕ) (r r' : R) :
    (run [.killStart 1 p r, .start p' r']).errs = [.value] ∧
    (run [.killStart 1 p r, .start p' r']).obj = none := by
  constructor <;>
    simp [run, step, empty, initOps, applyAll, apply, create, add, Except.map]

/-- C61 is violated when the (kz, kh) spectra are asked for at a restart only: whatever the period
`p ≥ 1` and the number of records made without them, the process that starts with the period `p`
raises an exception, at the latest `p` records later. -/
theorem C61_enable_at_restart_violated (p : ℕ) (hp : p ≠ 0) (r0 : R) (rs : List R) (r : R)
    (later : List R) (hl : p ≤ later.length) :
    (run (.start 0 r0 :: rs.map .save ++ .start p r :: later.map .save)).errs ≠ [] := by
  have h0 := inv_first 0 r0
  obtain ⟨K', h, -⟩ := inv_saves rs h0
  rw [run, List.cons_append, List.foldl_cons, List.foldl_append, List.foldl_cons]
  set s := (rs.map Ev.save).foldl step (step empty (.start 0 r0))
  obtain ⟨h1, h3, hk, ho, he⟩ := h
  by_cases hs : hasToSave ⟨(rs.length + 1) + 1, p⟩ = true
  · have h0' : hasToSave ⟨0, p⟩ = true := by simp [hasToSave, hp]
    have : (step s (.start p r)).errs ≠ [] := by
      simp [step, initOps, applyAll, apply, add, Except.map, h1, h3, hs, hk]
    exact errs_mono _ _ this
  · have hs' : hasToSave ⟨(rs.length + 1) + 1, p⟩ = false := by simpa using hs
    refine no_file_raises p hp later _ (rs.length + 1 + 1) ([r0] ++ rs ++ [r]) ([r0] ++ rs ++ [r])
      ?_ ?_ ?_ ?_ hl <;>
    simp [step, initOps, applyAll, apply, add, Except.map, h1, h3, hs', hk]

example : (run [.start 0 0, .start 3 1, .save 2, .save 3]).errs = [.value] := by decide

/-! ## Loading -/

/-- C61: for ns3d.strat, `load1d_mean()` and `load3d_mean()` give all the spectra of the files. -/
theorem C61_loaded_strat :
    loadedKeys keys1Strat none = .ok keys1Strat ∧ loadedKeys keys3Strat none = .ok keys3Strat := by
  constructor <;> exact congrArg Except.ok (by decide +kernel)

/-- C61 is violated for ns3d: the spectra `Khr` and `Khd` are in the files under names that
`load1d_mean()` and `load3d_mean()` do not look at, so they are not in the result. -/
theorem C61_loaded_ns3d_violated :
    (loadedKeys keys3Ns3d none = .ok ["spectra_vx", "spectra_vy", "spectra_vz", "spectra_E"]) ∧
    (∃ l, loadedKeys keys1Ns3d none = .ok l ∧ l.length = 12 ∧ keys1Ns3d.length = 18) ∧
    "Khd" ∈ keys3Ns3d ∧ "spectra_Khd" ∉ keys3Ns3d := by
  refine ⟨congrArg Except.ok (by decide +kernel), ⟨_, rfl, by decide +kernel, rfl⟩, ?_, ?_⟩ <;>
    decide

/-- C61 is violated for `load_kzkh_mean()` without key: no spectrum is loaded, for the two
solvers. -/
theorem C61_loaded_kzkh_violated :
    loadedKeys keysKNs3d none = .ok [] ∧ loadedKeys keysKStrat none = .ok [] := ⟨rfl, rfl⟩

/-- C61: with keys, `load_kzkh_mean` gives exactly these spectra, or raises if one of them is not
in the file. -/
theorem C61_loaded_keys (file ks : List String) :
    ((∀ k ∈ ks, k ∈ file) → loadedKeys file (some ks) = .ok ks) ∧
    ((∃ k ∈ ks, k ∉ file) → loadedKeys file (some ks) = .error .value) := by
  constructor
  · intro h; simp [loadedKeys, List.all_eq_true]; exact h
  · rintro ⟨k, hk, hn⟩
    simp only [loadedKeys]
    rw [if_neg]
    simp only [List.all_eq_true, not_forall]
    exact ⟨k, hk, by simpa using hn⟩

example : loadedKeys keysKStrat (some ["Khd", "Kz"]) = .ok ["Khd", "Kz"] ∧
    loadedKeys keysKStrat (some ["K"]) = .error .value := ⟨rfl, rfl⟩

end Verif.Spectra
