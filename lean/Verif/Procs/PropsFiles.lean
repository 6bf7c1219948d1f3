import Verif.Procs.LemmasFiles
import Verif.Procs.PropsRun
import Verif.Procs.PropsRaces
import Verif.Cfl.Model

/-!
# C86: the files at the end, and the time increment
-/

set_option linter.unusedSectionVars false

namespace Verif.Procs

open Function

variable {n : ℕ}

/-- The directory after the saving of the state of iteration `it`: nothing changes when the file with the name of this time already has this
iteration; when it has another iteration, the file with the name of the time and of the iteration is written; without
file, the file with the name of the time. -/
def savedDir (it : ℕ) (d : RunDir) : RunDir :=
  match d.byTime with
  | none => ⟨some it, d.byIt⟩
  | some i => if i = it then d else ⟨some i, some it⟩

theorem saveFile_alone [NeZero n] (nf : ℕ) (create : RunDir → RunDir) (field : ℕ → List ℚ) (s : RunDir) :
    Alone (fun a s' => a.isSome = true ∧ s' = create s) 0 (saveFile (n := n) nf 0 create field) s := by
  unfold saveFile
  rw [if_pos rfl]
  refine Alone.bind ?_
  refine Alone.bind ?_
  exact Alone.gatherFields nf 0 0 field _ _ fun l => ⟨rfl, rfl⟩

theorem saveFile_readOnly [NeZero n] (nf : ℕ) (me : Fin n) (h : me ≠ 0) (create : RunDir → RunDir) (field : ℕ → List ℚ) :
    ReadOnly (saveFile nf me create field) := by
  unfold saveFile
  rw [if_neg h]
  exact (ReadOnly.gatherFields nf me field).bind fun _ => trivial

/-- **C86 (the saved files).** Whatever the relative speeds of the processes, when the saving of the state of iteration `it` has ended, the
directory is the expected one, and the processes have saved the fields exactly when the state was not already in the directory. -/
theorem C86_save_files [NeZero n] (it nf : ℕ) (field : Fin n → ℕ → List ℚ) (d : RunDir) (c : Config n RunDir (Option (List (List Val))))
    (a : Fin n → Option (List (List Val))) (hr : Reach (start d fun i => save it nf i (field i)) c) (hf : Finished c a) :
    c.fs = savedDir it d ∧ (if d.byTime = some it then ∀ i, a i = none else
      (∀ i, (a i).isSome) ∧ a 0 = some ((List.range nf).map fun v => (List.finRange n).map fun i => .arr (field i v))) := by
  have ho : ∀ i : Fin n, i ≠ 0 → ReadOnly (save it nf i (field i)) := by
    intro i hi
    unfold save
    simp only [if_neg hi]
    intro e
    show ReadOnly (if _ then _ else _)
    split
    · intro e'
      show ReadOnly (if _ then _ else _)
      split
      · trivial
      · exact saveFile_readOnly nf i hi _ _
    · exact saveFile_readOnly nf i hi _ _
  have ha : Alone (fun r s => s = savedDir it d ∧ (r.isSome = true ↔ d.byTime ≠ some it)) (0 : Fin n) (save it nf 0 (field 0)) d := by
    unfold save
    simp only [if_true]
    intro ans h
    have h0 := h (by simp [Kind.needs])
    show Alone _ _ (if _ then _ else _) _
    simp only [h0, Option.getD_some, Val.toB]
    cases hb : d.byTime with
    | none =>
      simp only [Option.isSome_none, Bool.false_eq_true, if_false, id]
      refine (saveFile_alone nf _ _ d).imp ?_
      rintro r s ⟨h1, rfl⟩
      simp [savedDir, hb, h1]
    | some i =>
      simp only [Option.isSome_some, if_true]
      intro ans' h'
      have h1 := h' (by simp [Kind.needs])
      show Alone _ _ (if _ then _ else _) _
      simp only [h1, Option.getD_some, Val.toQ, id, hb, Nat.cast_inj]
      by_cases hi : i = it
      · rw [if_pos hi]
        show _ ∧ _
        simp [savedDir, hb, hi]
      · rw [if_neg hi]
        refine (saveFile_alone nf _ _ d).imp ?_
        rintro r s ⟨h1, rfl⟩
        simp [savedDir, hb, h1, hi]
  have h := Alone.finished ho ha hr hf
  refine ⟨h.1, ?_⟩
  rcases ((C86_save it nf field) d).2 c hr with ⟨c', hs⟩ | ⟨a', hf', hp⟩
  · exfalso
    cases hs <;> rename_i h' <;> simp [Finished] at hf <;> simp_all
  · have e : a' = a := by
      funext i
      exact Prog.ret.inj ((hf' i).symm.trans (hf i))
    subst e
    split_ifs with hd
    · rcases hp with hp | hp
      · exact hp
      · exact absurd hd (h.2.1 (hp.1 0))
    · rcases hp with hp | hp
      · have := h.2.2 hd
        rw [hp 0] at this
        cases this
      · exact hp

/-- The three cases occur. -/
example : savedDir 5 ⟨none, none⟩ = ⟨some 5, none⟩ ∧ savedDir 5 ⟨some 5, none⟩ = ⟨some 5, none⟩ ∧
    savedDir 5 ⟨some 3, none⟩ = ⟨some 3, some 5⟩ := ⟨rfl, rfl, rfl⟩

/-- **C86 (files of the probes).** In every reachable state of the initialisation of the probes from an empty directory, the only files
are those of processes which have probes, with the probes of their process. -/
theorem C86_probes_files (nb : Fin n → ℕ) (c : Config n (Fin n → Option ℕ) ℕ)
    (hr : Reach (start (fun _ => none) fun i => probesInit nb i) c) (i : Fin n) (m : ℕ) (h : c.fs i = some m) :
    m = nb i ∧ 0 < nb i := by
  have hk : ∀ i, Keeps (fun s => ∀ i m, s i = some m → m = nb i ∧ 0 < nb i) (probesInit nb i) := by
    intro i _ s hs
    refine ⟨hs, ?_⟩
    dsimp only
    split
    · cases s i <;> trivial
    · split
      · rename_i hpos
        intro s' hs'
        refine ⟨?_, trivial⟩
        intro j m hj
        by_cases h : j = i
        · subst h; exact ⟨by simpa using hj.symm, hpos⟩
        · exact hs' j m (by simpa [h] using hj)
      · trivial
  have key : ∀ c, Reach (start (fun _ => none) fun i => probesInit nb i) c →
      (∀ i m, c.fs i = some m → m = nb i ∧ 0 < nb i) ∧
        ∀ i, Keeps (fun s => ∀ i m, s i = some m → m = nb i ∧ 0 < nb i) (c.p i) := by
    intro c hc
    generalize hs : start (fun _ => none) (fun i => probesInit nb i) = s0 at hc
    induction hc with
    | refl =>
      subst hs
      refine ⟨?_, hk⟩
      intro i m h
      exact absurd (show (none : Option ℕ) = some m from h) (by simp)
    | step b c _ hs' ih => exact Keeps.step hs' ih.1 ih.2
  exact (key c hr).1 i m h

/-- **C86 (time increment).** The time increment of the processes is the one of C03. -/
theorem C86_time_increment (cfl dtMax dt tmp : ℚ) : newDt cfl dtMax dt tmp = Cfl.fromTmp cfl dtMax dt tmp := rfl

/-- A reduction on process `r` always completes: process `r` gets the operation on the contributions of all processes in the order of the
ranks, the others nothing (used by fluidsim/solvers/ns2d/strat/output/spatial_means.py lines 41-43 and
fluidsim/solvers/plate2d/output/correlations_freq.py lines 132, 143 and 201). -/
theorem C86_reduce {S : Type} [Inhabited S] (r : Fin n) (op : List Val → Val) (v : Fin n → Val) :
    Completes (S := S) (fun i => Prog.reduce r i op (v i)) fun a => ∀ i, a i = if i = r then op ((List.finRange n).map v) else .unit := by
  refine Safe.completes ?_
  refine SafeI.coll (.reduce r) v _ ?_
  refine SafeI.ret _ ?_
  intro i
  by_cases hi : i = r
  · simp [hi, answers, Kind.needs]
  · simp [hi]

end Verif.Procs
