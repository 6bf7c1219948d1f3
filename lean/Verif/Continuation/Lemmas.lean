import Verif.Continuation.Spec
import Verif.Schemes.Props
import Verif.TimeLoop.Lemmas
import Mathlib.Tactic.LinearCombination

/-! Helper lemmas for C82. -/

namespace Verif.Continuation

open Verif Schemes

set_option linter.unusedSectionVars false

variable {ι Φ : Type*}

/-- The scheme only uses the array of the state, not the contents of the other arrays, nor the random shifts for the
other schemes. -/
theorem timeStepRK_state {sc : Scheme} (hsc : ¬ Random sc) (N : Bool → Arr ι → Arr ι) (dt : ℂ)
    (d d2 ps pa pb pa' pb' : Arr ι) {h h' : Heap ι} (hh : h .state = h' .state) :
    timeStepRK sc N dt d d2 ps pa pb h .state = timeStepRK sc N dt d d2 ps pa' pb' h' .state := by
  cases sc <;>
    simp_all [Random, timeStepRK, euler, eulerPhaseshift, eulerPhaseshiftRandom, rk2, rk2Trapezoid,
      rk2Phaseshift, rk2PhaseshiftRandom, rk2PhaseshiftExact, rk4, tendencies, stepEuler,
      stepLikeRK2, meanWithPhaseshift, mulShift, divInplace]

/-- What determines the rest of a run. -/
structure Core (ι Φ : Type*) where
  t : ℝ
  it : ℕ
  dt : ℝ
  u : Arr ι
  phys : Φ

def core (s : TimeLoop.St (Sim ι Φ) ℝ) : Core ι Φ := ⟨s.t, s.it, s.deltat, s.sim.ts.heap .state, s.sim.phys⟩

noncomputable def dtCore (S : Solver ι Φ) (useCFL : Bool) (c : Core ι Φ) : ℝ :=
  if useCFL then Cfl.hysteresis c.dt (S.dtCfl c.phys) else c.dt

noncomputable def stepCore (S : Solver ι Φ) (useCFL fe : Bool) (c : Core ι Φ) : Except String (Core ι Φ) :=
  let dt := dtCore S useCFL c
  let u := stepOf S fe c.t c.u dt
  if S.isNan u then .error "ValueError: nan" else .ok ⟨c.t + dt, c.it + 1, dt, u, S.toPhys u⟩

/-- The coefficients are right for their increment. -/
def CoefOK (S : Solver ι Φ) (useCFL : Bool) (dt0 : ℝ) (s : TimeLoop.St (Sim ι Φ) ℝ) : Prop :=
  s.sim.ts.coefs.useCFL = useCFL ∧ s.sim.ts.coefs.freq = S.freq ∧
  (useCFL = true → (s.sim.ts.coefs.dtOld = 0 ∨ (s.sim.ts.coefs.exact1 = expLin S.freq s.sim.ts.coefs.dtOld ∧
      s.sim.ts.coefs.exact2 = expLin S.freq (s.sim.ts.coefs.dtOld / 2)))) ∧
  (useCFL = false → s.sim.ts.coefs.exact1 = expLin S.freq dt0 ∧ s.sim.ts.coefs.exact2 = expLin S.freq (dt0 / 2) ∧
      s.deltat = dt0)

theorem get_ok {S : Solver ι Φ} {useCFL : Bool} {dt0 dt : ℝ} {s : TimeLoop.St (Sim ι Φ) ℝ}
    (h : CoefOK S useCFL dt0 s) (hdt : useCFL = true → dt ≠ 0) (hdt' : useCFL = false → dt = dt0) :
    (s.sim.ts.coefs.get dt).2.1 = expLin S.freq dt ∧ (s.sim.ts.coefs.get dt).2.2 = expLin S.freq (dt / 2) ∧
    (s.sim.ts.coefs.get dt).1.useCFL = useCFL ∧ (s.sim.ts.coefs.get dt).1.freq = S.freq ∧
    (s.sim.ts.coefs.get dt).1.exact1 = expLin S.freq dt ∧ (s.sim.ts.coefs.get dt).1.exact2 = expLin S.freq (dt / 2) ∧
    (useCFL = true → (s.sim.ts.coefs.get dt).1.dtOld = dt) := by
  obtain ⟨h1, h2, h3, h4⟩ := h
  cases useCFL with
  | false =>
    obtain ⟨k1, k2, _⟩ := h4 rfl
    have := hdt' rfl
    subst this
    simp [Coefs.get, h1, h2, k1, k2]
  | true =>
    have k := h3 rfl
    have hd0 := hdt rfl
    simp only [Coefs.get, h1, if_true]
    by_cases hd : s.sim.ts.coefs.dtOld = dt
    · rcases k with k | ⟨k, k'⟩
      · exact absurd (hd.symm.trans k) hd0
      · rw [hd] at k k'
        simp [hd, h1, h2, k, k']
    · simp only [ne_eq, hd, not_false_eq_true, if_true]
      have e1 : (s.sim.ts.coefs.compute dt).exact1 = expLin S.freq dt := by
        funext i; simp [Coefs.compute, expLin, h2]
      have e2 : (s.sim.ts.coefs.compute dt).exact2 = expLin S.freq (dt / 2) := by
        funext i; simp [Coefs.compute, expLin, h2]; congr 1; ring
      exact ⟨e1, e2, by simp [Coefs.compute, h1], by simp [Coefs.compute, h2], e1, e2, fun _ => rfl⟩

/-- `one_time_step` raises when the computation raises, and only then. -/
theorem oneTimeStep_cases {σ : Type*} (p : TimeLoop.Params ℝ) (c : TimeLoop.Calls σ ℝ) (e : TimeLoop.Env ℝ)
    (s : TimeLoop.St σ ℝ) :
    (∀ err, c.compute (c.output (if p.forcingEnabled then c.forcing s.sim s.t else s.sim) s.t s.it) s.t
      (TimeLoop.dtUsed p c s) = .error err → TimeLoop.oneTimeStep p c e s = .error err) ∧
    (∀ sm, c.compute (c.output (if p.forcingEnabled then c.forcing s.sim s.t else s.sim) s.t s.it) s.t
      (TimeLoop.dtUsed p c s) = .ok sm → ∃ s', TimeLoop.oneTimeStep p c e s = .ok s') := by
  unfold TimeLoop.oneTimeStep TimeLoop.dtUsed
  simp only [TimeLoop.cflUpdate, TimeLoop.forcingUpdate, TimeLoop.elapsedCheck, TimeLoop.signalCheck]
  rcases s with ⟨it, t, dt, ss, hs, sim, calls, log⟩
  rcases p with ⟨a1, a2, a3, useCFL, fo, lim, a4⟩
  cases useCFL <;> cases fo <;> cases lim with
  | none =>
    by_cases h2 : (ss || e.signal calls) = true
    all_goals
      simp [h2]
      constructor <;> intro x hx <;> simp [hx]
  | some l =>
    by_cases h1 : l < e.now calls <;> by_cases h2 : (ss || e.signal calls) = true
    all_goals
      simp [h1, h2]
      constructor <;> intro x hx <;> simp [hx]

/-- The loop of `Verif.TimeLoop` seen on the core. -/
theorem step_core {S : Solver ι Φ} (hsc : ¬ Random S.scheme) {p : TimeLoop.Params ℝ} {e : TimeLoop.Env ℝ}
    {sched : List (File Φ) → ℝ → ℕ → Bool} {dt0 : ℝ} {s : TimeLoop.St (Sim ι Φ) ℝ}
    (h : CoefOK S p.useCFL dt0 s) (hdt : p.useCFL = true → dtCore S p.useCFL (core s) ≠ 0) :
    (∀ err, stepCore S p.useCFL p.forcingEnabled (core s) = .error err →
      TimeLoop.oneTimeStep p (calls S p.forcingEnabled sched) e s = .error err) ∧
    (∀ c, stepCore S p.useCFL p.forcingEnabled (core s) = .ok c →
      ∃ s', TimeLoop.oneTimeStep p (calls S p.forcingEnabled sched) e s = .ok s' ∧ core s' = c ∧
        CoefOK S p.useCFL dt0 s' ∧
        s'.stopSignal = (s.stopSignal || e.signal s.calls) ∧
        s'.hasToStop = (s.hasToStop || s.stopSignal || TimeLoop.reqAt p e s.calls) ∧
        s'.sim.files = if sched s.sim.files s.t s.it then s.sim.files ++ [finalFile s] else s.sim.files) := by
  have hd : TimeLoop.dtUsed p (calls S p.forcingEnabled sched) s = dtCore S p.useCFL (core s) := by
    unfold TimeLoop.dtUsed dtCore
    rfl
  have hdt' : p.useCFL = false → dtCore S p.useCFL (core s) = dt0 := by
    intro hu
    have := (h.2.2.2 hu).2.2
    simp [dtCore, hu, core, this]
  obtain ⟨g1, g2, g3, g4, g5, g6, g7⟩ := get_ok h hdt hdt'
  -- the result of the computation
  have hu : ∀ sm : Sim ι Φ, sm.ts = s.sim.ts →
      (sm.force = S.force s.t (s.sim.ts.heap .state) ∨ p.forcingEnabled = false) →
      (oneStep S.scheme (S.tend (if p.forcingEnabled then sm.force else 0)) S.mask S.ps (S.rnd sm.draws).1
        (S.rnd sm.draws).2 sm.ts (dtCore S p.useCFL (core s))).heap .state
      = stepOf S p.forcingEnabled s.t (s.sim.ts.heap .state) (dtCore S p.useCFL (core s)) := by
    intro sm hts hf
    have hF : (if p.forcingEnabled then sm.force else 0)
        = if p.forcingEnabled then S.force s.t (s.sim.ts.heap .state) else 0 := by
      rcases hf with hf | hf <;> simp [hf]
    simp only [oneStep, stepOf, hts, hF, g1, g2]
    funext i
    simp only [dealias, set_same]
    rw [timeStepRK_state hsc _ _ _ _ _ _ _ 0 0 (h' := fun _ => s.sim.ts.heap .state) rfl]
  -- the simulation before the computation
  set sm : Sim ι Φ := (calls S p.forcingEnabled sched).output
    (if p.forcingEnabled then (calls S p.forcingEnabled sched).forcing s.sim s.t else s.sim) s.t s.it with hsm
  have m1 : sm.ts = s.sim.ts := by
    rw [hsm]; simp only [calls]; cases p.forcingEnabled <;> simp <;> split <;> rfl
  have m2 : sm.force = S.force s.t (s.sim.ts.heap .state) ∨ p.forcingEnabled = false := by
    rw [hsm]; simp only [calls]; cases p.forcingEnabled <;> simp <;> split <;> rfl
  have m3 : sm.files = if sched s.sim.files s.t s.it then s.sim.files ++ [finalFile s] else s.sim.files := by
    rw [hsm]; simp only [calls, finalFile]; cases p.forcingEnabled <;> simp <;> split <;> rfl
  have hu' := hu sm m1 m2
  have hcomp : (calls S p.forcingEnabled sched).compute sm s.t (dtCore S p.useCFL (core s))
      = if S.isNan (stepOf S p.forcingEnabled s.t (s.sim.ts.heap .state) (dtCore S p.useCFL (core s))) then
          .error "ValueError: nan"
        else .ok { sm with
          ts := oneStep S.scheme (S.tend (if p.forcingEnabled then sm.force else 0)) S.mask S.ps (S.rnd sm.draws).1
            (S.rnd sm.draws).2 sm.ts (dtCore S p.useCFL (core s))
          phys := S.toPhys (stepOf S p.forcingEnabled s.t (s.sim.ts.heap .state) (dtCore S p.useCFL (core s)))
          draws := sm.draws + 1 } := by
    simp only [calls]
    rw [hu']
  have o1 : ∀ err, (calls S p.forcingEnabled sched).compute sm s.t (dtCore S p.useCFL (core s)) = .error err →
      TimeLoop.oneTimeStep p (calls S p.forcingEnabled sched) e s = .error err := fun err he =>
    (oneTimeStep_cases p (calls S p.forcingEnabled sched) e s).1 err (by rw [hd]; exact he)
  have o2 : ∀ sm', (calls S p.forcingEnabled sched).compute sm s.t (dtCore S p.useCFL (core s)) = .ok sm' →
      ∃ s', TimeLoop.oneTimeStep p (calls S p.forcingEnabled sched) e s = .ok s' := fun sm' he =>
    (oneTimeStep_cases p (calls S p.forcingEnabled sched) e s).2 sm' (by rw [hd]; exact he)
  constructor
  · intro err he
    apply o1
    rw [hcomp]
    unfold stepCore at he
    by_cases hn : S.isNan (stepOf S p.forcingEnabled s.t (s.sim.ts.heap .state) (dtCore S p.useCFL (core s))) = true
    · rw [if_pos hn]
      simp only [core] at he hn
      simp only [hn, if_true] at he
      rw [Except.error.inj he]
    · simp only [core] at he hn
      simp [hn] at he
  · intro c hc
    unfold stepCore at hc
    by_cases hn : S.isNan (stepOf S p.forcingEnabled s.t (s.sim.ts.heap .state) (dtCore S p.useCFL (core s))) = true
    · simp only [core] at hc hn
      simp [hn] at hc
    · rw [if_neg hn] at hcomp
      obtain ⟨s', hs'⟩ := o2 _ hcomp
      refine ⟨s', hs', ?_⟩
      obtain ⟨r1, r2, r3, _, r5, r6, _, r8⟩ := TimeLoop.oneTimeStep_ok hs'
      rw [hd] at r2 r3 r8
      rw [← hsm, hcomp] at r8
      have r8' := (Except.ok.inj r8).symm
      have hc' : c = ⟨s.t + dtCore S p.useCFL (core s), s.it + 1, dtCore S p.useCFL (core s),
          stepOf S p.forcingEnabled s.t (s.sim.ts.heap .state) (dtCore S p.useCFL (core s)),
          S.toPhys (stepOf S p.forcingEnabled s.t (s.sim.ts.heap .state) (dtCore S p.useCFL (core s)))⟩ := by
        simp only [core] at hc hn
        simp only [hn] at hc
        exact (Except.ok.inj hc).symm
      refine ⟨?_, ?_, r5, r6, ?_⟩
      · rw [hc']
        simp only [core, r1, r2, r3, r8']
        simp only [core] at hu'
        rw [hu']
      · refine ⟨by rw [r8']; simp only [oneStep, m1]; exact g3, by rw [r8']; simp only [oneStep, m1]; exact g4, ?_, ?_⟩
        · intro huse
          right
          rw [r8']; simp only [oneStep, m1]
          rw [g7 huse]
          exact ⟨g5, g6⟩
        · intro huse
          rw [r8', r3]; simp only [oneStep, m1]
          rw [g5, g6, hdt' huse]
          exact ⟨rfl, rfl, rfl⟩
      · rw [r8']; exact m3

/-- Invariant of a run: right coefficients, positive increment. -/
def Inv (S : Solver ι Φ) (useCFL : Bool) (dt0 : ℝ) (s : TimeLoop.St (Sim ι Φ) ℝ) : Prop :=
  CoefOK S useCFL dt0 s ∧ (useCFL = true → 0 < s.deltat)

theorem hysteresis_pos {d m : ℝ} (hd : 0 < d) (hm : 0 < m) : 0 < Cfl.hysteresis d m := by
  unfold Cfl.hysteresis; split <;> assumption

theorem dtCore_pos {S : Solver ι Φ} {useCFL : Bool} {dt0 : ℝ} (hp : PosDt S useCFL dt0)
    {s : TimeLoop.St (Sim ι Φ) ℝ} (h : Inv S useCFL dt0 s) (hu : useCFL = true) : 0 < dtCore S useCFL (core s) := by
  unfold dtCore
  rw [if_pos hu]
  exact hysteresis_pos (h.2 hu) ((hp hu).2 _)

theorem launch_inv {S : Solver ι Φ} {useCFL : Bool} {dt0 : ℝ} (hp : PosDt S useCFL dt0) (g : Garbage ι) (t : ℝ)
    (it : ℕ) (u : Arr ι) : Inv S useCFL dt0 (launch S useCFL dt0 g t it u) := by
  refine ⟨⟨?_, ?_, ?_, ?_⟩, fun hu => (hp hu).1⟩
  · cases useCFL <;> simp [launch, TimeLoop.fresh, Coefs.init, Coefs.compute]
  · cases useCFL <;> simp [launch, TimeLoop.fresh, Coefs.init, Coefs.compute]
  · intro hu; left; subst hu; simp [launch, TimeLoop.fresh, Coefs.init]
  · intro hu
    subst hu
    refine ⟨?_, ?_, rfl⟩
    · funext i; simp [launch, TimeLoop.fresh, Coefs.init, Coefs.compute, expLin]
    · funext i; simp [launch, TimeLoop.fresh, Coefs.init, Coefs.compute, expLin]; congr 1; ring

theorem launch_core (S : Solver ι Φ) (useCFL : Bool) (dt0 : ℝ) (g : Garbage ι) (t : ℝ) (it : ℕ) (u : Arr ι) :
    core (launch S useCFL dt0 g t it u) = ⟨t, it, dt0, u, S.toPhys u⟩ := by
  simp [core, launch, TimeLoop.fresh]

/-- One step: exception or next state, with the invariant. -/
theorem step_inv {S : Solver ι Φ} (hsc : ¬ Random S.scheme) {p : TimeLoop.Params ℝ} (e : TimeLoop.Env ℝ)
    (sched : List (File Φ) → ℝ → ℕ → Bool) {dt0 : ℝ} (hp : PosDt S p.useCFL dt0) {s : TimeLoop.St (Sim ι Φ) ℝ}
    (h : Inv S p.useCFL dt0 s) :
    (∀ err, stepCore S p.useCFL p.forcingEnabled (core s) = .error err →
      TimeLoop.oneTimeStep p (calls S p.forcingEnabled sched) e s = .error err) ∧
    (∀ c, stepCore S p.useCFL p.forcingEnabled (core s) = .ok c →
      ∃ s', TimeLoop.oneTimeStep p (calls S p.forcingEnabled sched) e s = .ok s' ∧ core s' = c ∧
        Inv S p.useCFL dt0 s' ∧
        s'.stopSignal = (s.stopSignal || e.signal s.calls) ∧
        s'.hasToStop = (s.hasToStop || s.stopSignal || TimeLoop.reqAt p e s.calls) ∧
        s'.sim.files = if sched s.sim.files s.t s.it then s.sim.files ++ [finalFile s] else s.sim.files) := by
  obtain ⟨h1, h2⟩ := step_core hsc (e := e) (sched := sched) h.1 (fun hu => (dtCore_pos hp h hu).ne')
  refine ⟨h1, fun c hc => ?_⟩
  obtain ⟨s', k1, k2, k3, k4, k5, k6⟩ := h2 c hc
  refine ⟨s', k1, k2, ⟨k3, fun hu => ?_⟩, k4, k5, k6⟩
  obtain ⟨_, _, r3, _⟩ := TimeLoop.oneTimeStep_ok k1
  rw [r3]
  exact dtCore_pos hp h hu

/-- A run without stop request so far. -/
def Free (s : TimeLoop.St (Sim ι Φ) ℝ) : Prop := s.stopSignal = false ∧ s.hasToStop = false

theorem quiet_req {p : TimeLoop.Params ℝ} {e : TimeLoop.Env ℝ} (hq : TimeLoop.Quiet p e) (n : ℕ) :
    e.signal n = false ∧ TimeLoop.reqAt p e n = false := by
  have := hq n
  constructor
  · cases hs : e.signal n with
    | false => rfl
    | true => exact absurd (Or.inr hs) this
  · cases hs : TimeLoop.reqAt p e n with
    | false => rfl
    | true => exact absurd ((TimeLoop.reqAt_iff p e n).1 hs) this

theorem step_free {S : Solver ι Φ} {p : TimeLoop.Params ℝ} {e : TimeLoop.Env ℝ}
    {sched : List (File Φ) → ℝ → ℕ → Bool} {s s' : TimeLoop.St (Sim ι Φ) ℝ} (hq : TimeLoop.Quiet p e)
    (h : TimeLoop.oneTimeStep p (calls S p.forcingEnabled sched) e s = .ok s') (hf : Free s) : Free s' := by
  obtain ⟨_, _, _, _, r5, r6, _⟩ := TimeLoop.oneTimeStep_ok h
  obtain ⟨q1, q2⟩ := quiet_req hq s.calls
  exact ⟨by rw [r5, hf.1, q1]; rfl, by rw [r6, hf.1, hf.2, q2]; rfl⟩

/-- Two cores with the same future. -/
def SameNext (S : Solver ι Φ) (useCFL : Bool) (a b : Core ι Φ) : Prop :=
  a.t = b.t ∧ a.it = b.it ∧ a.u = b.u ∧ a.phys = b.phys ∧ dtCore S useCFL a = dtCore S useCFL b

theorem SameNext.stepCore_eq {S : Solver ι Φ} {useCFL fe : Bool} {a b : Core ι Φ} (h : SameNext S useCFL a b) :
    stepCore S useCFL fe a = stepCore S useCFL fe b := by
  obtain ⟨h1, h2, h3, _, h5⟩ := h
  simp only [stepCore, h1, h2, h3, h5]

theorem loopCond_free {p : TimeLoop.Params ℝ} {s s' : TimeLoop.St (Sim ι Φ) ℝ} (hf : Free s) (hf' : Free s')
    (ht : s.t = s'.t) (hi : s.it = s'.it) : TimeLoop.loopCond p s = TimeLoop.loopCond p s' := by
  simp [TimeLoop.loopCond, hf.2, hf'.2, ht, hi]

/-- Two runs without stop request which have the same future end in the same way. -/
theorem loop_same {S : Solver ι Φ} (hsc : ¬ Random S.scheme) {p : TimeLoop.Params ℝ} {e e' : TimeLoop.Env ℝ}
    (hq : TimeLoop.Quiet p e) (hq' : TimeLoop.Quiet p e') (sched sched' : List (File Φ) → ℝ → ℕ → Bool)
    {dt0 dt0' : ℝ} (hp : PosDt S p.useCFL dt0) (hp' : PosDt S p.useCFL dt0') (n : ℕ) :
    ∀ s s' : TimeLoop.St (Sim ι Φ) ℝ, Inv S p.useCFL dt0 s → Inv S p.useCFL dt0' s' → Free s → Free s' →
      SameNext S p.useCFL (core s) (core s') →
      outcome (TimeLoop.loop p (calls S p.forcingEnabled sched) e n s)
        = outcome (TimeLoop.loop p (calls S p.forcingEnabled sched') e' n s') := by
  have hend : ∀ s s' : TimeLoop.St (Sim ι Φ) ℝ, SameNext S p.useCFL (core s) (core s') →
      outcome (.done s) = outcome (.done s') := by
    intro s s' h
    obtain ⟨h1, h2, h3, h4, _⟩ := h
    simp only [core] at h1 h2 h3 h4
    simp only [outcome, h1, h2, h3, h4]
  induction n with
  | zero =>
    intro s s' _ _ hf hf' h
    have hc := loopCond_free (p := p) hf hf' h.1 h.2.1
    simp only [TimeLoop.loop, hc]
    split
    · rfl
    · exact hend s s' h
  | succ n ih =>
    intro s s' hi hi' hf hf' h
    have hc := loopCond_free (p := p) hf hf' h.1 h.2.1
    simp only [TimeLoop.loop, hc]
    split
    · obtain ⟨a1, a2⟩ := step_inv hsc e sched hp hi
      obtain ⟨b1, b2⟩ := step_inv hsc e' sched' hp' hi'
      rw [← h.stepCore_eq] at b1 b2
      cases hst : stepCore S p.useCFL p.forcingEnabled (core s) with
      | error err => rw [a1 err hst, b1 err hst]
      | ok c =>
        obtain ⟨q, k1, k2, k3, _⟩ := a2 c hst
        obtain ⟨q', k1', k2', k3', _⟩ := b2 c hst
        rw [k1, k1']
        simp only
        apply ih q q' k3 k3' (step_free hq k1 hf) (step_free hq' k1' hf')
        rw [k2, k2']
        exact ⟨rfl, rfl, rfl, rfl, rfl⟩
    · exact hend s s' h

/-- The good states along a run. -/
def GoodSt (S : Solver ι Φ) (Good : Arr ι → Prop) (s : TimeLoop.St (Sim ι Φ) ℝ) : Prop :=
  Good (s.sim.ts.heap .state) ∧ s.sim.phys = S.toPhys (s.sim.ts.heap .state)

theorem stepCore_ok {S : Solver ι Φ} {useCFL fe : Bool} {a c : Core ι Φ} (h : stepCore S useCFL fe a = .ok c) :
    c = ⟨a.t + dtCore S useCFL a, a.it + 1, dtCore S useCFL a, stepOf S fe a.t a.u (dtCore S useCFL a),
      S.toPhys (stepOf S fe a.t a.u (dtCore S useCFL a))⟩ := by
  unfold stepCore at h
  by_cases hn : S.isNan (stepOf S fe a.t a.u (dtCore S useCFL a)) = true
  · simp [hn] at h
  · simp only [hn] at h
    exact (Except.ok.inj h).symm

/-- Along a run with any stop requests: good states; a run with another later end and without stop request goes
through the same states. -/
theorem run_follow {S : Solver ι Φ} (hsc : ¬ Random S.scheme) {Good : Arr ι → Prop} {p1 p2 : TimeLoop.Params ℝ}
    (hG : Consistent S p1.forcingEnabled Good)
    (hu : p1.useCFL = p2.useCFL) (hfe : p1.forcingEnabled = p2.forcingEnabled) (hnb : NotBefore p1 p2)
    {e1 e2 : TimeLoop.Env ℝ} (hq : TimeLoop.Quiet p2 e2) (sched sched' : List (File Φ) → ℝ → ℕ → Bool)
    {dt0 : ℝ} (hp : PosDt S p1.useCFL dt0) {s0 s : TimeLoop.St (Sim ι Φ) ℝ}
    (hrun : Run p1 (calls S p1.forcingEnabled sched) e1 s0 s) (hi : Inv S p1.useCFL dt0 s0) (hg : GoodSt S Good s0)
    (q0 : TimeLoop.St (Sim ι Φ) ℝ) (hi' : Inv S p2.useCFL dt0 q0) (hf : Free q0) (hc : core q0 = core s0) :
    Inv S p1.useCFL dt0 s ∧ GoodSt S Good s ∧ s0.it ≤ s.it ∧
    ∃ q, Inv S p2.useCFL dt0 q ∧ Free q ∧ core q = core s ∧
      ∀ n, TimeLoop.loop p2 (calls S p2.forcingEnabled sched') e2 (s.it - s0.it + n) q0
        = TimeLoop.loop p2 (calls S p2.forcingEnabled sched') e2 n q := by
  induction hrun with
  | refl => exact ⟨hi, hg, le_rfl, q0, hi', hf, hc, by simp⟩
  | @step a b ha hl hab ih =>
    obtain ⟨ia, ga, la, q, iq, fq, cq, hloop⟩ := ih
    obtain ⟨x1, x2⟩ := step_inv hsc e1 sched hp ia
    obtain ⟨y1, y2⟩ := step_inv hsc e2 sched' (p := p2) (dt0 := dt0) (by rw [← hu]; exact hp) iq
    rw [cq, ← hu, ← hfe] at y2
    cases hst : stepCore S p1.useCFL p1.forcingEnabled (core a) with
    | error err => rw [x1 err hst] at hab; cases hab
    | ok c =>
      obtain ⟨b', k1, k2, k3, _⟩ := x2 c hst
      have hbb : b = b' := (Except.ok.inj (k1.symm.trans hab)).symm
      subst hbb
      obtain ⟨q', l1, l2, l3, _⟩ := y2 c hst
      have hcv := stepCore_ok hst
      have hit : b.it = a.it + 1 := by
        have := congrArg Core.it (k2.trans hcv)
        exact this
      have hcond : TimeLoop.loopCond p2 q = true := by
        rw [TimeLoop.loopCond_iff] at hl ⊢
        have ht : q.t = a.t := congrArg Core.t cq
        have hi : q.it = a.it := congrArg Core.it cq
        refine ⟨?_, fq.2⟩
        have h1 := hl.1
        rw [← hnb.1, ht, hi]
        by_cases hT : p1.useTEnd = true
        · rw [if_pos hT] at h1 ⊢; exact h1.trans_le hnb.2.1
        · rw [if_neg hT] at h1 ⊢; exact h1.trans_le hnb.2.2
      have hone : TimeLoop.oneTimeStep p2 (calls S p2.forcingEnabled sched') e2 q = .ok q' := by
        rw [← hfe]; exact l1
      refine ⟨k3, ⟨?_, ?_⟩, by omega, q', by rw [← hu]; exact l3, step_free hq hone fq, l2.trans k2.symm, ?_⟩
      · have hbu : b.sim.ts.heap .state = stepOf S p1.forcingEnabled a.t (a.sim.ts.heap .state)
            (dtCore S p1.useCFL (core a)) := congrArg Core.u (k2.trans hcv)
        rw [hbu]
        exact hG.step _ _ _ ga.1
      · have hbu : b.sim.ts.heap .state = stepOf S p1.forcingEnabled a.t (a.sim.ts.heap .state)
            (dtCore S p1.useCFL (core a)) := congrArg Core.u (k2.trans hcv)
        have hbp : b.sim.phys = S.toPhys (stepOf S p1.forcingEnabled a.t (a.sim.ts.heap .state)
            (dtCore S p1.useCFL (core a))) := congrArg Core.phys (k2.trans hcv)
        rw [hbu, hbp]
      · intro n
        rw [show b.it - s0.it + n = a.it - s0.it + (n + 1) by omega, hloop (n + 1)]
        simp only [TimeLoop.loop, hcond, if_true, hone]

/-- The files of a run are the states through which it has gone. -/
theorem run_files {S : Solver ι Φ} {p : TimeLoop.Params ℝ} {e : TimeLoop.Env ℝ}
    {sched : List (File Φ) → ℝ → ℕ → Bool} {s0 s : TimeLoop.St (Sim ι Φ) ℝ}
    (hrun : Run p (calls S p.forcingEnabled sched) e s0 s) (h0 : s0.sim.files = []) :
    ∀ f ∈ s.sim.files, ∃ a, Run p (calls S p.forcingEnabled sched) e s0 a ∧ f = finalFile a := by
  induction hrun with
  | refl => rw [h0]; simp
  | @step a b ha hl hab ih =>
    intro f hf
    obtain ⟨_, _, _, _, _, _, _, r8⟩ := TimeLoop.oneTimeStep_ok hab
    have : b.sim.files = if sched a.sim.files a.t a.it then a.sim.files ++ [finalFile a] else a.sim.files := by
      revert r8
      simp only [calls]
      cases p.forcingEnabled <;> simp only [if_true, Bool.false_eq_true, if_false] <;> split <;> split <;>
        intro r8 <;> first | (cases r8; done) | (have := (Except.ok.inj r8).symm; rw [this]; first | done | simp_all [finalFile])
    rw [this] at hf
    split at hf
    · rcases List.mem_append.1 hf with hf | hf
      · exact ih f hf
      · rw [List.mem_singleton] at hf; exact ⟨a, ha, hf⟩
    · exact ih f hf

/-- The loop on the core. -/
noncomputable def loopCore (S : Solver ι Φ) (p : TimeLoop.Params ℝ) : ℕ → Core ι Φ →
    Option (Except String (ℝ × ℕ × Arr ι × Φ))
  | 0, c => if (if p.useTEnd then c.t < p.tEnd else c.it < p.itEnd) then none else some (.ok (c.t, c.it, c.u, c.phys))
  | n + 1, c =>
    if (if p.useTEnd then c.t < p.tEnd else c.it < p.itEnd) then
      match stepCore S p.useCFL p.forcingEnabled c with
      | .error err => some (.error err)
      | .ok c' => loopCore S p n c'
    else some (.ok (c.t, c.it, c.u, c.phys))

theorem loop_core {S : Solver ι Φ} (hsc : ¬ Random S.scheme) {p : TimeLoop.Params ℝ} {e : TimeLoop.Env ℝ}
    (hq : TimeLoop.Quiet p e) (sched : List (File Φ) → ℝ → ℕ → Bool) {dt0 : ℝ} (hp : PosDt S p.useCFL dt0) (n : ℕ) :
    ∀ s : TimeLoop.St (Sim ι Φ) ℝ, Inv S p.useCFL dt0 s → Free s →
      outcome (TimeLoop.loop p (calls S p.forcingEnabled sched) e n s) = loopCore S p n (core s) := by
  have hcond : ∀ s : TimeLoop.St (Sim ι Φ) ℝ, Free s → (TimeLoop.loopCond p s = true ↔
      (if p.useTEnd then (core s).t < p.tEnd else (core s).it < p.itEnd)) := by
    intro s hf
    rw [TimeLoop.loopCond_iff]
    exact ⟨fun h => h.1, fun h => ⟨h, hf.2⟩⟩
  induction n with
  | zero =>
    intro s _ hf
    simp only [TimeLoop.loop, loopCore]
    by_cases h : TimeLoop.loopCond p s = true
    · rw [if_pos h, if_pos ((hcond s hf).1 h)]; rfl
    · rw [if_neg h, if_neg (fun h' => h ((hcond s hf).2 h'))]; rfl
  | succ n ih =>
    intro s hi hf
    simp only [TimeLoop.loop, loopCore]
    by_cases h : TimeLoop.loopCond p s = true
    · rw [if_pos h, if_pos ((hcond s hf).1 h)]
      obtain ⟨a1, a2⟩ := step_inv hsc e sched hp hi
      cases hst : stepCore S p.useCFL p.forcingEnabled (core s) with
      | error err => rw [a1 err hst]; rfl
      | ok c =>
        obtain ⟨q, k1, k2, k3, _⟩ := a2 c hst
        rw [k1]
        simp only
        rw [ih q k3 (step_free hq k1 hf), k2]
    · rw [if_neg h, if_neg (fun h' => h ((hcond s hf).2 h'))]; rfl

end Verif.Continuation
