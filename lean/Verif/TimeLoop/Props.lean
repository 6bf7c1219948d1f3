import Verif.TimeLoop.Spec
import Verif.TimeLoop.Lemmas
import Mathlib.Algebra.Order.Floor.Semiring
import Mathlib.Algebra.Order.BigOperators.Group.List
import Mathlib.Data.Rat.Floor

/-! # C01, C02: properties of the main time loop -/

namespace Verif.TimeLoop

set_option linter.unusedSectionVars false

variable {σ K : Type*} [Field K] [LinearOrder K]

/-! ### C01 -/

/-- **C01** Whatever the increments chosen along the run, the clock readings, the signals and
the solver: if the loop ends, the completed steps follow each other without gap from the
initial `(t, it)` to the final one, each of them started strictly before the end, `t` has
advanced by the sum of the increments and `it` by the number of steps; and the loop has ended
because the end condition is reached or because a stop has been requested. -/
theorem C01_loop_ends_at_first_end (p : Params K) (c : Calls σ K) (e : Env K) (fuel : ℕ)
    (s s' : St σ K) (h : loop p c e fuel s = .done s') :
    ∃ l : List (StepRec K),
      stepsOf s'.log = stepsOf s.log ++ l ∧
      Consecutive s.t s.it l s'.t s'.it ∧
      (∀ x ∈ l, BeforeEnd p x) ∧
      s'.t = s.t + (l.map StepRec.dt).sum ∧
      s'.it = s.it + l.length ∧
      (EndReached p s'.t s'.it ∨ s'.hasToStop = true) := by
  have key : ∃ l : List (StepRec K),
      stepsOf s'.log = stepsOf s.log ++ l ∧
      Consecutive s.t s.it l s'.t s'.it ∧
      (∀ x ∈ l, BeforeEnd p x) ∧
      (EndReached p s'.t s'.it ∨ s'.hasToStop = true) := by
    have fin : ∀ s : St σ K, ¬ loopCond p s = true →
        (EndReached p s.t s.it ∨ s.hasToStop = true) := by
      intro s hs
      rw [loopCond_iff] at hs
      unfold EndReached
      cases hh : s.hasToStop
      · left
        cases hu : p.useTEnd <;> simp_all
      · right; rfl
    induction fuel generalizing s with
    | zero =>
      unfold loop at h
      split at h
      · cases h
      · rename_i hc
        cases h
        exact ⟨[], by simp, .nil _ _, by simp, fin _ hc⟩
    | succ n ih =>
      unfold loop at h
      split at h
      · rename_i hc
        split at h
        · cases h
        · rename_i s1 hs1
          obtain ⟨l, h1, h2, h3, h4⟩ := ih s1 h
          obtain ⟨hit, ht, -, -, -, -, -, -⟩ := oneTimeStep_ok hs1
          refine ⟨⟨s.t, s.it, dtUsed p c s⟩ :: l, ?_, ?_, ?_, h4⟩
          · rw [h1, stepsOf_step hs1]; simp
          · refine .cons ?_
            rw [← hit, ← ht]; exact h2
          · intro x hx
            rcases List.mem_cons.1 hx with rfl | hx
            · rw [loopCond_iff] at hc
              unfold BeforeEnd
              exact hc.1
            · exact h3 x hx
      · rename_i hc
        cases h
        exact ⟨[], by simp, .nil _ _, by simp, fin _ hc⟩
  obtain ⟨l, h1, h2, h3, h4⟩ := key
  exact ⟨l, h1, h2, h3, h2.sum_length.1, h2.sum_length.2, h4⟩

/-- **C01** `is_simul_completed` reports exactly the end condition. -/
theorem C01_is_simul_completed (p : Params K) (s : St σ K) :
    isSimulCompleted p s = true ↔ EndReached p s.t s.it := by
  unfold isSimulCompleted EndReached
  cases p.useTEnd <;> simp

/-- **C01** (order of the calls in one step) One step computes the forcing (if enabled) for
time `t`, then lets the outputs see `(t, it)`, then computes; the events of earlier steps
stay. -/
theorem C01_events_of_one_step (p : Params K) (c : Calls σ K) (e : Env K) (s s' : St σ K)
    (h : oneTimeStep p c e s = .ok s') :
    s'.log = s.log ++ ((if p.forcingEnabled then [Ev.forcing s.t] else []) ++
      [Ev.output s.t s.it, Ev.compute s.t s.it s'.deltat]) := by
  obtain ⟨_, _, h3, _, _, _, hl, _⟩ := oneTimeStep_ok h
  rw [h3]; exact hl

/-- **C01** (termination) If every increment is at least `δ > 0`, the loop terminates. -/
theorem C01_terminates [IsStrictOrderedRing K] [Archimedean K]
    (p : Params K) (c : Calls σ K) (e : Env K) (s : St σ K) (δ : K) (hδ : 0 < δ)
    (hc : ∀ x d, δ ≤ c.incrementCFL x d) (hs : δ ≤ s.deltat) :
    ∃ fuel, loop p c e fuel s ≠ .outOfFuel := by
  cases hu : p.useTEnd with
  | false =>
    -- at most `itEnd - it` steps
    suffices h : ∀ n (s : St σ K), p.itEnd ≤ s.it + n → loop p c e n s ≠ .outOfFuel from
      ⟨p.itEnd, h _ s (by omega)⟩
    intro n
    induction n with
    | zero =>
      intro s hn
      have : ¬ loopCond p s = true := by
        rw [loopCond_iff]; simp [hu]; omega
      unfold loop
      simp [this]
    | succ n ih =>
      intro s hn
      unfold loop
      split
      · split
        · simp
        · rename_i s1 hs1
          have := (oneTimeStep_ok hs1).1
          exact ih s1 (by omega)
      · simp
  | true =>
    obtain ⟨n, hn⟩ := Archimedean.arch (p.tEnd - s.t) hδ
    refine ⟨n, ?_⟩
    have h : ∀ n (s : St σ K), δ ≤ s.deltat → p.tEnd - s.t ≤ n • δ →
        loop p c e n s ≠ .outOfFuel := by
      intro n
      induction n with
      | zero =>
        intro s _ hn
        have : ¬ loopCond p s = true := by
          rw [loopCond_iff]; simp [hu]
          intro h; simp at hn; exact absurd h (not_lt.2 hn)
        unfold loop
        simp [this]
      | succ n ih =>
        intro s hd hn
        unfold loop
        split
        · split
          · simp
          · rename_i s1 hs1
            obtain ⟨-, ht, hdt, -⟩ := oneTimeStep_ok hs1
            have hdu : δ ≤ dtUsed p c s := by
              unfold dtUsed; split
              · exact hc _ _
              · exact hd
            refine ih s1 (by rw [hdt]; exact hdu) ?_
            rw [ht]
            rw [succ_nsmul] at hn
            linarith
        · simp
    exact h n s hs hn

/-- **C01** (`USE_T_END = False`) Without stop request and without exception, exactly
`it_end - it` steps are executed (none if `it ≥ it_end` already). -/
theorem C01_number_of_steps_it_end (p : Params K) (c : Calls σ K) (e : Env K)
    (hq : Quiet p e) (hu : p.useTEnd = false) (s : St σ K)
    (h1 : s.hasToStop = false) (h2 : s.stopSignal = false)
    (hok : ∀ x t dt, ∃ y, c.compute x t dt = .ok y) :
    ∃ fuel s', loop p c e fuel s = .done s' ∧ s'.it = max s.it p.itEnd ∧
      (stepsOf s'.log).length = (stepsOf s.log).length + (p.itEnd - s.it) := by
  have step : ∀ s : St σ K, s.hasToStop = false → s.stopSignal = false →
      ∃ s1, oneTimeStep p c e s = .ok s1 ∧ s1.hasToStop = false ∧ s1.stopSignal = false := by
    intro s h1 h2
    have : ∃ s1, oneTimeStep p c e s = .ok s1 := by
      unfold oneTimeStep
      simp only
      split
      · rename_i heq
        obtain ⟨y, hy⟩ := hok _ _ _ |>.imp fun y hy => hy
        rw [hy] at heq; cases heq
      · exact ⟨_, rfl⟩
    obtain ⟨s1, hs1⟩ := this
    obtain ⟨-, -, -, -, hsig, hst, -, -⟩ := oneTimeStep_ok hs1
    have hr : reqAt p e s.calls = false := by
      have := hq s.calls
      rw [← reqAt_iff] at this
      simpa using this
    have hsg : e.signal s.calls = false := by
      have := hq s.calls
      unfold StopRequested at this
      simp only [not_or] at this
      simpa using this.2
    exact ⟨s1, hs1, by rw [hst, h1, h2, hr]; rfl, by rw [hsig, h2, hsg]; rfl⟩
  suffices h : ∀ n (s : St σ K), s.hasToStop = false → s.stopSignal = false →
      p.itEnd - s.it = n → ∃ s', loop p c e n s = .done s' ∧ s'.it = max s.it p.itEnd ∧
      (stepsOf s'.log).length = (stepsOf s.log).length + n by
    obtain ⟨s', a, b, d⟩ := h _ s h1 h2 rfl
    exact ⟨_, s', a, b, d⟩
  intro n
  induction n with
  | zero =>
    intro s _ _ hn
    refine ⟨s, ?_, by omega, by simp⟩
    have : ¬ loopCond p s = true := by rw [loopCond_iff]; simp [hu]; omega
    unfold loop; simp [this]
  | succ n ih =>
    intro s h1 h2 hn
    obtain ⟨s1, hs1, h1', h2'⟩ := step s h1 h2
    have hit := (oneTimeStep_ok hs1).1
    obtain ⟨s', a, b, d⟩ := ih s1 h1' h2' (by omega)
    refine ⟨s', ?_, by omega, ?_⟩
    · have : loopCond p s = true := by rw [loopCond_iff]; simp [hu, h1]; omega
      unfold loop
      simp only [this, if_true, hs1]
      exact a
    · rw [d, stepsOf_step hs1]; simp; omega

/-- **C01** (fixed increment, `USE_T_END = True`) Without CFL condition, stop request or
exception, the number of steps is `⌈(t_end - t)/deltat0⌉`. -/
theorem C01_number_of_steps_fixed_dt [IsStrictOrderedRing K] [FloorSemiring K]
    (p : Params K) (c : Calls σ K) (e : Env K) (hcfl : p.useCFL = false)
    (hq : Quiet p e) (hu : p.useTEnd = true) (s : St σ K) (hdt : 0 < s.deltat)
    (h1 : s.hasToStop = false) (h2 : s.stopSignal = false) (fuel : ℕ) (s' : St σ K)
    (h : loop p c e fuel s = .done s') :
    (stepsOf s'.log).length = (stepsOf s.log).length + ⌈(p.tEnd - s.t) / s.deltat⌉₊ ∧
    s'.t = s.t + ⌈(p.tEnd - s.t) / s.deltat⌉₊ * s.deltat := by
  induction fuel generalizing s with
  | zero =>
    unfold loop at h
    split at h
    · cases h
    · rename_i hc
      obtain rfl : s = s' := by cases h; rfl
      rw [loopCond_iff] at hc
      simp only [hu, if_true, h1, and_true, not_lt] at hc
      have : ⌈(p.tEnd - s.t) / s.deltat⌉₊ = 0 := by
        rw [Nat.ceil_eq_zero]
        exact div_nonpos_of_nonpos_of_nonneg (by linarith) hdt.le
      simp [this]
  | succ n ih =>
    unfold loop at h
    split at h
    · rename_i hc
      rw [loopCond_iff] at hc
      simp only [hu, if_true, h1, and_true] at hc
      split at h
      · cases h
      · rename_i s1 hs1
        obtain ⟨-, ht, hd, -, hsig, hst, -, -⟩ := oneTimeStep_ok hs1
        have hdu : dtUsed p c s = s.deltat := by simp [dtUsed, hcfl]
        have hr : reqAt p e s.calls = false := by
          have := hq s.calls
          rw [← reqAt_iff] at this
          simpa using this
        have hsg : e.signal s.calls = false := by
          have := hq s.calls
          unfold StopRequested at this
          simp only [not_or] at this
          simpa using this.2
        obtain ⟨ha, hb⟩ := ih s1 (by rw [hd, hdu]; exact hdt)
          (by rw [hst, h1, h2, hr]; rfl) (by rw [hsig, h2, hsg]; rfl) h
        rw [hd, hdu, ht, hdu] at ha hb
        have hq' : (p.tEnd - (s.t + s.deltat)) / s.deltat
            = (p.tEnd - s.t) / s.deltat - 1 := by
          field_simp; ring
        have hpos : 0 < (p.tEnd - s.t) / s.deltat := div_pos (by linarith) hdt
        have hceil : ⌈(p.tEnd - s.t) / s.deltat⌉₊
            = ⌈(p.tEnd - (s.t + s.deltat)) / s.deltat⌉₊ + 1 := by
          rw [hq', Nat.ceil_sub_one]
          have : 0 < ⌈(p.tEnd - s.t) / s.deltat⌉₊ := Nat.ceil_pos.2 hpos
          omega
        rw [hceil]
        constructor
        · rw [ha, stepsOf_step hs1]; simp; omega
        · rw [hb]; push_cast; ring
    · rename_i hc
      obtain rfl : s = s' := by cases h; rfl
      rw [loopCond_iff] at hc
      simp only [hu, if_true, h1, and_true, not_lt] at hc
      have : ⌈(p.tEnd - s.t) / s.deltat⌉₊ = 0 := by
        rw [Nat.ceil_eq_zero]
        exact div_nonpos_of_nonpos_of_nonneg (by linarith) hdt.le
      simp [this]

/-- **C01** `start` saves the initial field first (iff the simulation saves) and finalizes
last; in between are exactly the events of the loop. -/
theorem C01_start (p : Params K) (c : Calls σ K) (e : Env K) (fuel : ℕ) (s s' : St σ K)
    (h : start p c e fuel s = .done s') :
    ∃ s1 s2 : St σ K,
      s1.log = s.log ++ (if p.hasToSave then [Ev.saveInit s.t] else []) ∧
      s1.t = s.t ∧ s1.it = s.it ∧
      loop p c e fuel s1 = .done s2 ∧ s'.log = s2.log ++ [Ev.finalize s2.t] ∧
      s'.t = s2.t ∧ s'.it = s2.it := by
  unfold start at h
  simp only at h
  split at h
  · rename_i s2 hs2
    cases h
    refine ⟨_, s2, ?_, ?_, ?_, hs2, rfl, rfl, rfl⟩ <;> cases p.hasToSave <;> simp
  · rename_i r hr
    exact absurd h (hr s')

/-! ### C02 -/

/-- **C02** The loop started without pending stop request: if a stop is requested during
call `n`, at most `n + 1` steps are completed (the step in progress and no other one); and if
the loop ends before the end condition, then a stop was requested during its last step. -/
theorem C02_stop_after_current_step (p : Params K) (c : Calls σ K) (e : Env K) (fuel : ℕ)
    (s s' : St σ K) (h1 : s.hasToStop = false) (h2 : s.stopSignal = false)
    (h : loop p c e fuel s = .done s') :
    ∃ k, s'.calls = s.calls + k ∧
      (stepsOf s'.log).length = (stepsOf s.log).length + k ∧
      (∀ n, StopRequested p e (s.calls + n) → k ≤ n + 1) ∧
      (¬ EndReached p s'.t s'.it → ∃ n, k = n + 1 ∧ StopRequested p e (s.calls + n)) := by
  induction fuel generalizing s with
  | zero =>
    unfold loop at h
    split at h
    · cases h
    · rename_i hc
      cases h
      refine ⟨0, by simp, by simp, by simp, ?_⟩
      intro hne
      exfalso; apply hc
      rw [loopCond_iff]
      unfold EndReached at hne
      refine ⟨?_, h1⟩
      split <;> simp_all
  | succ m ih =>
    unfold loop at h
    split at h
    · split at h
      · cases h
      · rename_i s1 hs1
        obtain ⟨hit, ht, hd, hcalls, hsig, hst, -, -⟩ := oneTimeStep_ok hs1
        rw [h1, h2] at hst
        rw [h2] at hsig
        simp only [Bool.false_or] at hst hsig
        by_cases hr : reqAt p e s.calls = true
        · -- request during this step: no other step
          have hnc : ¬ loopCond p s1 = true := by
            rw [loopCond_iff, hst, hr]; simp
          have hs' : s' = s1 := by
            cases m <;> (unfold loop at h; simp [hnc] at h; exact h.symm)
          subst hs'
          refine ⟨1, by omega, by rw [stepsOf_step hs1]; simp, by intros; omega, ?_⟩
          intro _
          exact ⟨0, rfl, (reqAt_iff p e _).1 hr⟩
        · have hr' : reqAt p e s.calls = false := by simpa using hr
          have hsg : e.signal s.calls = false := by
            unfold reqAt at hr'
            simp at hr'
            exact hr'.2
          obtain ⟨k, a1, a2, a3, a4⟩ := ih s1 (by rw [hst, hr']) (by rw [hsig, hsg]) h
          rw [hcalls] at a1 a3 a4
          refine ⟨k + 1, by omega, by rw [a2, stepsOf_step hs1]; simp; omega, ?_, ?_⟩
          · intro n hn
            cases n with
            | zero => exact absurd ((reqAt_iff p e _).2 hn) hr
            | succ n =>
              have := a3 n (by rw [show s.calls + 1 + n = s.calls + (n + 1) by omega]; exact hn)
              omega
          · intro hne
            obtain ⟨n, hk, hn⟩ := a4 hne
            exact ⟨n + 1, by omega,
              by rw [show s.calls + (n + 1) = s.calls + 1 + n by omega]; exact hn⟩
    · rename_i hc
      cases h
      refine ⟨0, by simp, by simp, by simp, ?_⟩
      intro hne
      exfalso; apply hc
      rw [loopCond_iff]
      unfold EndReached at hne
      refine ⟨?_, h1⟩
      split <;> simp_all

/-- **C02** A step during which a stop is requested is a complete step: same events, same
physics, same `t` and `it` as without the request (only the stop flags differ). -/
theorem C02_request_does_not_change_the_step (p : Params K) (c : Calls σ K) (e e' : Env K)
    (s s1 : St σ K) (h : oneTimeStep p c e s = .ok s1) :
    ∃ s2, oneTimeStep p c e' s = .ok s2 ∧ s2.it = s1.it ∧ s2.t = s1.t ∧
      s2.deltat = s1.deltat ∧ s2.sim = s1.sim ∧ s2.log = s1.log := by
  obtain ⟨a1, a2, a3, a4, a5, a6, a7, a8⟩ := oneTimeStep_ok h
  have : ∃ s2, oneTimeStep p c e' s = .ok s2 := by
    rcases s with ⟨it, t, dt, ss, hs, sim, calls, log⟩
    rcases p with ⟨b1, b2, b3, useCFL, fo, lim, b4⟩
    unfold oneTimeStep
    simp only [cflUpdate, forcingUpdate, elapsedCheck, signalCheck]
    unfold dtUsed at a8
    cases useCFL <;> cases fo <;> cases lim with
    | none =>
      by_cases h2 : (ss || e'.signal calls) = true
      all_goals
        simp at a8
        simp [h2, a8]
    | some l =>
      by_cases h1 : l < e'.now calls <;> by_cases h2 : (ss || e'.signal calls) = true
      all_goals
        simp at a8
        simp [h1, h2, a8]
  obtain ⟨s2, h2⟩ := this
  obtain ⟨b1, b2, b3, b4, b5, b6, b7, b8⟩ := oneTimeStep_ok h2
  refine ⟨s2, h2, by rw [b1, a1], by rw [b2, a2], by rw [b3, a3], ?_, by rw [b7, a7]⟩
  rw [a8] at b8
  exact (Except.ok.inj b8).symm

/-- **C02** A pending stop request at the start of the loop: no step at all. -/
theorem C02_no_step_when_already_stopped (p : Params K) (c : Calls σ K) (e : Env K)
    (fuel : ℕ) (s : St σ K) (h : s.hasToStop = true) : loop p c e fuel s = .done s := by
  have : ¬ loopCond p s = true := by rw [loopCond_iff, h]; simp
  cases fuel <;> (unfold loop; simp [this])

/-- **C02** (MPI) All ranks take the same decisions whatever their own clocks and signals:
if they agree before a collective step they agree after it, and the ranks stop iff rank 0
has seen the limit or a signal. -/
theorem C02_mpi_ranks_agree {nproc : ℕ} (p : Params K) (newDt : K → K)
    (e : Fin (nproc + 1) → Env K) (n : ℕ) (s : Fin (nproc + 1) → RankSt K)
    (hag : ∀ r, (s r).it = (s 0).it ∧ (s r).t = (s 0).t ∧ (s r).deltat = (s 0).deltat ∧
      (s r).hasToStop = (s 0).hasToStop) (r : Fin (nproc + 1)) :
    let s' := mpiStep p newDt e n s
    (s' r).it = (s' 0).it ∧ (s' r).t = (s' 0).t ∧ (s' r).deltat = (s' 0).deltat ∧
      (s' r).hasToStop = (s' 0).hasToStop ∧
      ((s' r).hasToStop = true ↔ (s 0).hasToStop = true ∨ (s 0).stopSignal = true ∨
        StopRequested p (e 0) n) := by
  obtain ⟨h1, h2, h3, h4⟩ := hag r
  simp only [mpiStep]
  refine ⟨by rw [h1], by rw [h2, h3], by rw [h3], by rw [h4], ?_⟩
  rw [h4, ← reqAt_iff]
  unfold reqAt
  simp only [Bool.or_eq_true]
  tauto

/-! ### Non-vacuity -/

/-- a small adaptive solver: the state counts the computations, the increment alternates -/
private def exCalls : Calls ℕ ℚ where
  incrementCFL := fun x _ => if x % 2 = 0 then 1/2 else 1/4
  forcing := fun x _ => x
  output := fun x _ _ => x
  compute := fun x _ _ => .ok (x + 1)

private def exParams : Params ℚ :=
  { useTEnd := true, tEnd := 1, itEnd := 0, useCFL := true, forcingEnabled := true,
    timeShouldStop := some 100, hasToSave := true }

private def exEnv : Env ℚ := { now := fun n => n, signal := fun n => n == 1 }
private def exQuiet : Env ℚ := { now := fun _ => 0, signal := fun _ => false }

private def doneWith (r : Res (St ℕ ℚ)) (f : St ℕ ℚ → Bool) : Bool :=
  match r with
  | .done s => f s
  | _ => false

/-- the loop ends after three steps (1/2 + 1/4 + 1/2), with `t = 5/4 ≥ 1` -/
example : doneWith (loop exParams exCalls exQuiet 10 (fresh 0 0 0 (1/2)))
    (fun s => s.it == 3 && s.t == 5/4 && !s.hasToStop) = true := by decide +kernel

example : Quiet exParams exQuiet := by
  intro n; simp [StopRequested, exParams, exQuiet]

example : StopRequested exParams exEnv 1 := by right; rfl

/-- with the signal at call 1 the loop ends after two steps, before `t_end` -/
example : doneWith (loop exParams exCalls exEnv 10 (fresh 0 0 0 (1/2)))
    (fun s => s.it == 2 && decide (s.t < exParams.tEnd) && s.hasToStop) = true := by
  decide +kernel

example : ∀ x d, (1/4 : ℚ) ≤ exCalls.incrementCFL x d := by
  intro x d; simp only [exCalls]; split <;> norm_num

end Verif.TimeLoop
