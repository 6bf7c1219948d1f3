import Verif.Procs.LemmasCode
import Mathlib.Tactic.FinCases
import Mathlib.Tactic.Linarith

/-!
# C86: the processes which look at the files

`TemporalSpectra`, `SpatioTemporalSpectra` and the end of a run in a scratch directory decide from the names which each process
finds in a directory. When another process has already changed the directory, the decisions of the processes differ.
-/

set_option linter.unusedSectionVars false

namespace Verif.Procs

open Function

variable {n : ℕ}

/-- Processes which return, some of them after one last access. -/
theorem SafeI.ends {S α : Type} [Inhabited S] {I : S → Prop} (Q : Fin n → α → Prop) (p : Fin n → Prog n S α)
    (h : ∀ i, (∃ a, p i = .ret a ∧ Q i a) ∨ ∃ f b, (p i = .acc f fun _ => .ret b) ∧ Q i b) :
    SafeI I (fun a => ∀ i, Q i (a i)) p := by
  classical
  have main : ∀ (T : Finset (Fin n)) (p : Fin n → Prog n S α),
      (∀ i, (∃ a, p i = .ret a ∧ Q i a) ∨ ∃ f b, (p i = .acc f fun _ => .ret b) ∧ Q i b) →
      (∀ i, i ∉ T → ∃ a, p i = .ret a ∧ Q i a) → SafeI I (fun a => ∀ i, Q i (a i)) p := by
    intro T
    induction T using Finset.induction_on with
    | empty =>
      intro p _ hr
      choose a ha using fun i => hr i (by simp)
      have e : p = fun i => .ret (a i) := funext fun i => (ha i).1
      rw [e]
      exact SafeI.ret _ fun i => (ha i).2
    | insert j T hj ih =>
      intro p hp hr
      rcases hp j with hj' | ⟨f, b, e, hb⟩
      · refine ih p hp fun i hi => ?_
        by_cases hij : i = j
        · exact hij ▸ hj'
        · exact hr i (by simp [hij, hi])
      · refine SafeI.acc j e fun s _ => ih _ (fun i => ?_) fun i hi => ?_
        · by_cases hij : i = j
          · subst hij; exact Or.inl ⟨b, by simp, hb⟩
          · simpa [hij] using hp i
        · by_cases hij : i = j
          · subst hij; exact ⟨b, by simp, hb⟩
          · simpa [hij] using hr i (by simp [hij, hi])
  exact main Finset.univ p h (by simp)

/-- **C86 (probes, restart).** With the files of a previous run in the directory, whatever the number of processes and their
relative speeds, the initialisation completes and each process has the probes of its file, none without a file. -/
theorem C86_probes_restart (nb : Fin n → ℕ) (files : Fin n → Option ℕ) (hf : ∃ i, (files i).isSome) :
    CompletesFrom (fun i => probesInit nb i) files fun a => ∀ i, a i = (files i).getD 0 := by
  have hk : ∀ i, Keeps (fun s => s = files) (probesInit nb i) := by
    rintro i _ s rfl
    refine ⟨rfl, ?_⟩
    simp only [hf, if_true]
    cases h : s i <;> trivial
  refine SafeI.completes (I := fun s => s = files) ?_ hk files rfl
  refine SafeI.coll .barrier (fun _ => .unit) _ ?_
  refine SafeI.accs (fun _ => id) _ ?_
  intro s hs
  refine SafeI.ends (fun i v => v = (files i).getD 0) _ ?_
  intro i
  simp only [hs i, hf, if_true]
  cases files i <;> simp

/-- **C86 (probes, first run).** In a directory without the files of another run, the initialisation always completes, and each process
has its probes or none. -/
theorem C86_probes_values (nb : Fin n → ℕ) (files : Fin n → Option ℕ) (hf : ∀ i m, files i = some m → m = nb i) :
    CompletesFrom (fun i => probesInit nb i) files fun a => ∀ i, a i = nb i ∨ a i = 0 := by
  have hk : ∀ i, Keeps (fun s => ∀ i m, s i = some m → m = nb i) (probesInit nb i) := by
    intro i _ s hs
    refine ⟨hs, ?_⟩
    dsimp only
    split
    · cases s i <;> trivial
    · split
      · intro s' hs'
        refine ⟨?_, trivial⟩
        intro j m hj
        by_cases h : j = i
        · subst h; simpa using hj.symm
        · exact hs' j m (by simpa [h] using hj)
      · trivial
  refine SafeI.completes (I := fun s => ∀ i m, s i = some m → m = nb i) ?_ hk files hf
  refine SafeI.coll .barrier (fun _ => .unit) _ ?_
  refine SafeI.accs (fun _ => id) _ ?_
  intro s hs
  refine SafeI.ends (fun i v => v = nb i ∨ v = 0) _ ?_
  intro i
  split
  · cases h : s i i with
    | none => exact Or.inl ⟨0, rfl, Or.inr rfl⟩
    | some m => exact Or.inl ⟨m, rfl, Or.inl (hs i i m h)⟩
  · split
    · exact Or.inr ⟨_, _, rfl, Or.inl rfl⟩
    · exact Or.inl ⟨0, rfl, Or.inr rfl⟩

/-- Both cases occur: three processes, two with probes. -/
example : (∃ i, ((fun i => if i = 2 then none else some 4 : Fin 3 → Option ℕ) i).isSome) ∧
    ∀ i m, (fun _ => none : Fin 3 → Option ℕ) i = some m → m = 4 := by decide +kernel

/-- **C86 (probes, first run, violated).** Two processes which should both have probes, in an empty directory: when process 0 has created its
file before process 1 lists the directory, process 1 believes that the run is a restart where it has no probes. The initialisation
ends normally, and nothing is ever saved for its probes. -/
theorem C86_probes_violated (nb : Fin 2 → ℕ) (h0 : 0 < nb 0) (h1 : 0 < nb 1) :
    ∃ c a, Reach (start (fun _ => none) fun i => probesInit nb i) c ∧ Finished c a ∧ a 0 = nb 0 ∧ a 1 ≠ nb 1 := by
  have e1 := Reach.step _ _ _ (Reach.refl (start (fun _ => none) fun i => probesInit nb i)) (Step.enter _ _ _ 0 _ _ _ rfl)
  have e2 := Reach.step _ _ _ e1 (Step.enter _ _ _ 1 _ _ _ rfl)
  have e3 := Reach.step _ _ _ e2 (Step.leave _ _ _ 0 .barrier _ (fun _ => some .unit) rfl (by
    intro j; fin_cases j <;> exact ⟨_, rfl, rfl⟩))
  have e4 := Reach.step _ _ _ e3 (Step.leave _ _ _ 1 .barrier _ (fun _ => some .unit) rfl (by
    intro j; fin_cases j <;> exact ⟨_, rfl, rfl⟩))
  have e5 := Reach.step _ _ _ e4 (Step.acc _ _ _ 0 _ _ rfl)
  simp only [Option.isSome_none, Bool.false_eq_true, exists_false, if_false, gt_iff_lt, h0, if_true] at e5
  have e6 := Reach.step _ _ _ e5 (Step.acc _ _ _ 0 _ _ rfl)
  have e7 := Reach.step _ _ _ e6 (Step.acc _ _ _ 1 _ _ rfl)
  refine ⟨_, fun i => if i = 0 then nb 0 else 0, e7, ?_, by simp, by simp; omega⟩
  intro i
  fin_cases i <;> simp

/-- **C86 (end of a run).** The search of the new name of the directory always completes. -/
theorem C86_move_completes [NeZero n] : Completes (fun i : Fin n => moveEnd i) fun _ => True := by
  apply Safe.completes
  refine SafeI.accs (fun _ => id) _ ?_
  intro s _
  have : SafeI (fun _ => True) (fun _ => True) fun i : Fin n => if i = 0 then
      Prog.acc (fun used => freeName (s 0) ((s 0).length + 1) 0 :: used) fun _ =>
        .coll .barrier .unit fun _ => .ret (freeName (s 0) ((s 0).length + 1) 0)
      else .coll .barrier .unit fun _ => .ret (freeName (s i) ((s i).length + 1) 0) := by
    refine SafeI.acc0 0 _ _ _ fun s' _ => ?_
    have e : (fun i : Fin n => if i = 0 then
        Prog.coll .barrier .unit fun _ => .ret (freeName (s 0) ((s 0).length + 1) 0)
        else .coll .barrier .unit fun _ => .ret (freeName (s i) ((s i).length + 1) 0)) =
        fun i => (Prog.coll .barrier .unit fun _ => .ret (freeName (s i) ((s i).length + 1) 0) : Prog n (List ℕ) ℕ) := by
      funext i
      by_cases hi : i = 0
      · subst hi; simp
      · simp [hi]
    rw [e]
    exact SafeI.coll .barrier (fun _ => .unit) _ (SafeI.ret _ trivial)
  convert this using 1
  funext i
  by_cases hi : i = 0
  · subst hi; simp
  · simp [hi]

/-- **C86 (end of a run, violated).** Two processes, a name which is not used: when process 0 has moved the directory before process 1
looks for a name, process 1 finds that the name is used: the two processes end with different directories. -/
theorem C86_move_violated (used : List ℕ) (h : 0 ∉ used) :
    ∃ c a, Reach (start used fun i : Fin 2 => moveEnd i) c ∧ Finished c a ∧ a 0 = 0 ∧ a 1 ≠ 0 := by
  have hge : ∀ (l : List ℕ) f i, i ≤ freeName l f i := by
    intro l f
    induction f with
    | zero => intro i; exact le_rfl
    | succ f ih =>
      intro i
      simp only [freeName]
      split
      · exact le_trans (Nat.le_succ i) (ih (i + 1))
      · exact le_rfl
  have hf : freeName used (used.length + 1) 0 = 0 := by simp [freeName, h]
  have hf' : freeName (0 :: used) (used.length + 1 + 1) 0 ≠ 0 := by
    have := hge (0 :: used) (used.length + 1) 1
    have e : freeName (0 :: used) (used.length + 1 + 1) 0 = freeName (0 :: used) (used.length + 1) 1 := by
      rw [freeName]; simp
    omega
  have e1 := Reach.step _ _ _ (Reach.refl (start used fun i : Fin 2 => moveEnd i)) (Step.acc _ _ _ 0 _ _ rfl)
  simp only [hf, if_true] at e1
  have e2 := Reach.step _ _ _ e1 (Step.acc _ _ _ 0 _ _ rfl)
  have e3 := Reach.step _ _ _ e2 (Step.acc _ _ _ 1 _ _ rfl)
  have e4 := Reach.step _ _ _ e3 (Step.enter _ _ _ 0 _ _ _ rfl)
  have e5 := Reach.step _ _ _ e4 (Step.enter _ _ _ 1 _ _ _ rfl)
  have e6 := Reach.step _ _ _ e5 (Step.leave _ _ _ 0 .barrier _ (fun _ => some .unit) rfl (by
    intro j; fin_cases j <;> exact ⟨_, rfl, rfl⟩))
  have e7 := Reach.step _ _ _ e6 (Step.leave _ _ _ 1 .barrier _ (fun _ => some .unit) rfl (by
    intro j; fin_cases j <;> exact ⟨_, rfl, rfl⟩))
  refine ⟨_, fun i => if i = 0 then 0 else freeName (0 :: used) (used.length + 1 + 1) 0, e7, ?_, by simp, by simpa using hf'⟩
  intro i
  fin_cases i <;> simp

/-- The name 0 is not used, others are. -/
example : 0 ∉ [1, 2] := by decide

end Verif.Procs
