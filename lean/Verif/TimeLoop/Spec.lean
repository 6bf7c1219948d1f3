import Verif.TimeLoop.Model

/-! Specification vocabulary for the time-loop properties (C01, C02). -/

namespace Verif.TimeLoop

variable {K : Type*} [Field K] [LinearOrder K]

/-- A completed step as seen from outside: its start time, iteration number, increment. -/
structure StepRec (K : Type*) where
  t : K
  it : ℕ
  dt : K

/-- The completed steps of a log. -/
def stepsOf : List (Ev K) → List (StepRec K)
  | [] => []
  | .compute t it dt :: l => ⟨t, it, dt⟩ :: stepsOf l
  | _ :: l => stepsOf l

/-- `Consecutive t it l t' it'`: the steps `l` follow each other without gap from `(t, it)`
to `(t', it')`. -/
inductive Consecutive : K → ℕ → List (StepRec K) → K → ℕ → Prop
  | nil (t : K) (it : ℕ) : Consecutive t it [] t it
  | cons {t : K} {it : ℕ} {dt : K} {l : List (StepRec K)} {t' : K} {it' : ℕ} :
      Consecutive (t + dt) (it + 1) l t' it' → Consecutive t it (⟨t, it, dt⟩ :: l) t' it'

/-- "the step starts strictly before the end" -/
def BeforeEnd (p : Params K) (x : StepRec K) : Prop :=
  if p.useTEnd then x.t < p.tEnd else x.it < p.itEnd

/-- "the end condition is reached" -/
def EndReached (p : Params K) (t : K) (it : ℕ) : Prop :=
  if p.useTEnd then p.tEnd ≤ t else p.itEnd ≤ it

/-- "a stop is requested during call `n` of `one_time_step`": the clock has passed the
limit, or a stop signal has been delivered since the previous check. -/
def StopRequested (p : Params K) (e : Env K) (n : ℕ) : Prop :=
  (∃ lim, p.timeShouldStop = some lim ∧ lim < e.now n) ∨ e.signal n = true

/-- No stop is ever requested. -/
def Quiet (p : Params K) (e : Env K) : Prop := ∀ n, ¬ StopRequested p e n

end Verif.TimeLoop
