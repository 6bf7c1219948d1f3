import Verif.Procs.Model

/-!
# Specification: a parallel run completes

`Completes p Post`: whatever the file system at the beginning and the relative speeds of the processes, there is no infinite
execution, an execution can always go on until all processes have returned, and the values which they return satisfy `Post`.

`Blocked c`: no process can go on although at least one of them has not ended (neither returned nor raised).
-/

namespace Verif.Procs

/-- All processes have returned. -/
def Finished {n : ℕ} {S α : Type} (c : Config n S α) (a : Fin n → α) : Prop := ∀ i, c.p i = .ret (a i)

/-- The process has returned or raised an exception. -/
def Ended {n : ℕ} {S α : Type} : Prog n S α → Prop
  | .ret _ => True
  | .err _ => True
  | _ => False

/-- Nothing can happen any more and a process still waits. -/
def Blocked {n : ℕ} {S α : Type} (c : Config n S α) : Prop := (¬ ∃ c', Step c c') ∧ ∃ i, ¬ Ended (c.p i)

/-- The run completes, for all relative speeds, from the file system `fs`. -/
def CompletesFrom {n : ℕ} {S α : Type} (p : Fin n → Prog n S α) (fs : S) (Post : (Fin n → α) → Prop) : Prop :=
  Acc (fun c' c => Step c c') (start fs p) ∧
    ∀ c, Reach (start fs p) c → (∃ c', Step c c') ∨ ∃ a, Finished c a ∧ Post a

/-- The run completes, for every file system and all relative speeds. -/
def Completes {n : ℕ} {S α : Type} (p : Fin n → Prog n S α) (Post : (Fin n → α) → Prop) : Prop :=
  ∀ fs : S, CompletesFrom p fs Post

/-- A weaker requirement on the values. -/
theorem Completes.imp {n : ℕ} {S α : Type} {p : Fin n → Prog n S α} {Post Post' : (Fin n → α) → Prop} (h : Completes p Post)
    (hp : ∀ a, Post a → Post' a) : Completes p Post' :=
  fun fs => ⟨(h fs).1, fun c hc => ((h fs).2 c hc).imp id fun ⟨a, ha, h⟩ => ⟨a, ha, hp a h⟩⟩

/-- The run never completes: for every file system and all relative speeds, a process never ends. -/
def NeverCompletes {n : ℕ} {S α : Type} (p : Fin n → Prog n S α) (fs : S) : Prop :=
  ∀ c, Reach (start fs p) c → ∃ i, ¬ Ended (c.p i)

end Verif.Procs
