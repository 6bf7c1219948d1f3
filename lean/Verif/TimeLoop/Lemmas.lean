import Verif.TimeLoop.Spec
import Mathlib.Tactic.Tauto

/-! Helper lemmas for `Verif.TimeLoop.Props`. -/

namespace Verif.TimeLoop

set_option linter.unusedSectionVars false

variable {σ K : Type*} [Field K] [LinearOrder K]

/-- Does the world ask for a stop at call `n`? -/
def reqAt (p : Params K) (e : Env K) (n : ℕ) : Bool :=
  (match p.timeShouldStop with
    | none => false
    | some lim => decide (e.now n > lim)) || e.signal n

/-- The increment used by a step. -/
def dtUsed (p : Params K) (c : Calls σ K) (s : St σ K) : K :=
  if p.useCFL then c.incrementCFL s.sim s.deltat else s.deltat

theorem oneTimeStep_ok {p : Params K} {c : Calls σ K} {e : Env K} {s s' : St σ K}
    (h : oneTimeStep p c e s = .ok s') :
    s'.it = s.it + 1 ∧ s'.t = s.t + dtUsed p c s ∧ s'.deltat = dtUsed p c s ∧
    s'.calls = s.calls + 1 ∧
    s'.stopSignal = (s.stopSignal || e.signal s.calls) ∧
    s'.hasToStop = (s.hasToStop || s.stopSignal || reqAt p e s.calls) ∧
    s'.log = s.log ++ ((if p.forcingEnabled then [Ev.forcing s.t] else []) ++
      [Ev.output s.t s.it, Ev.compute s.t s.it (dtUsed p c s)]) ∧
    c.compute (c.output (if p.forcingEnabled then c.forcing s.sim s.t else s.sim) s.t s.it)
      s.t (dtUsed p c s) = .ok s'.sim := by
  unfold oneTimeStep at h
  simp only [cflUpdate, forcingUpdate, elapsedCheck, signalCheck] at h
  unfold dtUsed reqAt
  rcases s with ⟨it, t, dt, ss, hs, sim, calls, log⟩
  rcases p with ⟨a1, a2, a3, useCFL, fo, lim, a4⟩
  cases useCFL <;> cases fo <;> cases lim with
  | none =>
    by_cases h2 : (ss || e.signal calls) = true
    all_goals
      simp [h2] at h
      split at h
      · exact absurd h (by simp)
      · rename_i heq
        have h' := (Except.ok.inj h)
        subst h'
        simp_all
        try (cases hs <;> simp_all)
  | some l =>
    by_cases h1 : l < e.now calls <;> by_cases h2 : (ss || e.signal calls) = true
    all_goals
      simp [h1, h2] at h
      split at h
      · exact absurd h (by simp)
      · rename_i heq
        have h' := (Except.ok.inj h)
        subst h'
        simp_all
        try (cases hs <;> simp_all <;> tauto)

theorem stepsOf_append (a b : List (Ev K)) : stepsOf (a ++ b) = stepsOf a ++ stepsOf b := by
  induction a with
  | nil => rfl
  | cons x a ih => cases x <;> simp [stepsOf, ih]

theorem stepsOf_step {p : Params K} {c : Calls σ K} {e : Env K} {s s' : St σ K}
    (h : oneTimeStep p c e s = .ok s') :
    stepsOf s'.log = stepsOf s.log ++ [⟨s.t, s.it, dtUsed p c s⟩] := by
  obtain ⟨_, _, _, _, _, _, hl, _⟩ := oneTimeStep_ok h
  rw [hl]
  cases p.forcingEnabled <;> simp [stepsOf_append, stepsOf]

theorem Consecutive.sum_length {t t' : K} {it it' : ℕ} {l : List (StepRec K)}
    (h : Consecutive t it l t' it') :
    t' = t + (l.map StepRec.dt).sum ∧ it' = it + l.length := by
  induction h with
  | nil => simp
  | cons _ ih =>
    obtain ⟨h1, h2⟩ := ih
    constructor
    · simp [h1, add_assoc]
    · simp [h2]; omega

theorem loopCond_iff (p : Params K) (s : St σ K) :
    loopCond p s = true ↔
      (if p.useTEnd then s.t < p.tEnd else s.it < p.itEnd) ∧ s.hasToStop = false := by
  unfold loopCond
  cases p.useTEnd <;> simp

theorem reqAt_iff (p : Params K) (e : Env K) (n : ℕ) :
    reqAt p e n = true ↔ StopRequested p e n := by
  unfold reqAt StopRequested
  cases p.timeShouldStop <;> simp

end Verif.TimeLoop
