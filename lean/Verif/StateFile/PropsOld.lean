import Verif.StateFile.Props

/-! # C80: old files -/

set_option linter.unusedSectionVars false

namespace Verif.StateFile

variable {G V T : Type*} [DecidableEq T] [Zero V]

/-- C80: a file without the attribute "axes" is accepted if and only if it gives the numbers of points and the lengths along x and y and
they are those of the simulation; it is refused with KeyError if one of them is missing in the file, else with ValueError. -/
theorem C80_old_file (s : Sim G V T) (needed : List Str) (f : File G V T) (hf : f.axes = none) :
    let names : List Str := [['n', 'x'], ['n', 'y'], ['L', 'x'], ['L', 'y']]
    ((∃ s', load s needed f = .ok s') ↔ ∀ k ∈ names, f.oper k ≠ none ∧ s.oper k = f.oper k) ∧
    (load s needed f = .error .key ↔ ∃ k ∈ names, f.oper k = none) := by
  simp only [load, check, hf, checkLegacy, List.mem_cons, List.not_mem_nil, or_false, forall_eq_or_imp, forall_eq, exists_eq_or_imp,
    exists_eq_left]
  cases h1 : f.oper ['n', 'x'] <;> cases h2 : f.oper ['n', 'y'] <;> cases h3 : f.oper ['L', 'x'] <;> cases h4 : f.oper ['L', 'y'] <;>
    simp
  split_ifs with h <;> simp_all

/-- The axes before the first one without number of points agree. -/
theorem checkAxes_key (oper fileOper : Str → Option T) (r : Str) (hr : fileOper ('n' :: r) = none) :
    ∀ l1 l2, checkAxes oper fileOper l1 = .ok () → checkAxes oper fileOper (l1 ++ r :: l2) = .error .key
  | [], l2, _ => by simp [checkAxes, checkAxis, hr]
  | a :: l1, l2, h => by
    simp only [List.cons_append, checkAxes] at h ⊢
    cases ha : checkAxis oper fileOper a with
    | error e => rw [ha] at h; cases h
    | ok u =>
      rw [ha] at h
      simp only at h ⊢
      exact checkAxes_key oper fileOper r hr l1 l2 h

/-- C80: a file whose attribute "axes" contains an axis without number of points, the previous axes being correct, is treated as a file
without axes. -/
theorem C80_missing_size (s : Sim G V T) (needed : List Str) (f : File G V T) (l1 l2 : List Str) (r : Str)
    (ha : f.axes = some (l1 ++ r :: l2)) (hr : f.oper ('n' :: r) = none)
    (h1 : ∀ a ∈ l1, f.oper ('n' :: a) ≠ none ∧ s.oper ('n' :: a) = f.oper ('n' :: a) ∧
      (f.oper ('L' :: a) ≠ none → s.oper ('L' :: a) = f.oper ('L' :: a))) :
    load s needed f = load s needed { f with axes := none } := by
  have hok : checkAxes s.oper f.oper l1 = .ok () := by
    clear ha
    induction l1 with
    | nil => rfl
    | cons a l ih =>
      obtain ⟨e1, e2, e3⟩ := h1 a (List.mem_cons_self ..)
      have : checkAxis s.oper f.oper a = .ok () := by
        unfold checkAxis
        cases hn : f.oper ('n' :: a) with
        | none => exact absurd hn e1
        | some x =>
          rw [hn] at e2
          simp only [e2, if_true]
          cases hL : f.oper ('L' :: a) with
          | none => rfl
          | some y => rw [hL] at e3; simp [e3]
      rw [checkAxes, this]
      exact ih fun a ha => h1 a (List.mem_cons_of_mem _ ha)
  simp only [load, check, ha, checkAxes_key _ _ r hr l1 l2 hok]

/-- C80: the time of a simulation which loads a file is the one of the file; for an old file without iteration, the iterations start
at 0. -/
theorem C80_time (s s' : Sim G V T) (needed : List Str) (f : File G V T) (h : load s needed f = .ok s') :
    s'.t = f.time ∧ (∀ it, f.it = some it → s'.it = it) ∧ (f.it = none → s'.it = 0) := by
  unfold load at h
  cases hc : check s.oper f with
  | error e => rw [hc] at h; cases h
  | ok u =>
    rw [hc] at h
    cases h
    exact ⟨rfl, fun it hi => by simp [hi], fun hi => by simp [hi]⟩

/-- Old files: accepted, refused, and with an axis "z" without number of points. -/
example : let s : Sim ℕ ℤ ℕ := ⟨[['y'], ['x']], fun _ => some 1, [], fun _ => 0, fun _ _ _ => none, 0, 5⟩
    (load s [] ⟨none, fun _ => some 1, [], 3, none⟩).map (fun s => (s.t, s.it)) = .ok (3, 0) ∧
    (load s [] ⟨none, fun k => if k = ['L', 'y'] then some 2 else some 1, [], 3, none⟩).map (fun s => s.t) = .error .value ∧
    (load s [] ⟨some [['y'], ['z']], fun k => if k = ['n', 'z'] then none else some 1, [], 3, some 7⟩).map (fun s => s.it) = .ok 7 :=
  ⟨rfl, rfl, rfl⟩

end Verif.StateFile
