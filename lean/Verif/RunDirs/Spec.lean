import Verif.RunDirs.Model

/-! Specification vocabulary for C20, C21, C22. -/

namespace Verif.RunDirs

/-- The process advances the simulation. -/
def Lock.Advancing (s : Lock) (i : ℕ) : Prop := ∃ b, s.proc i = .running b

/-- In this history, at every time at most one process works on the directory. -/
def Serial (evs : List Ev) : Prop :=
  ∀ pre, pre <+: evs → ∀ i j, (lockRun pre).proc i ≠ .idle → (lockRun pre).proc j ≠ .idle → i = j

def Ev.isTerm : Ev → Bool
  | .term _ => true
  | _ => false

def Ev.isKill : Ev → Bool
  | .kill _ => true
  | _ => false

def Ev.isMoved : Ev → Bool
  | .finishMoved _ => true
  | _ => false

/-- Events at which the code removes the lock file. -/
def Ev.isRelease : Ev → Bool
  | .term _ => true
  | .int _ => true
  | .finish _ => true
  | _ => false

end Verif.RunDirs
