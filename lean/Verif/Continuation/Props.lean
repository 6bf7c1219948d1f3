import Verif.Continuation.LemmasFourier

/-! # C82: a restarted simulation continues the simulation which wrote the file -/

namespace Verif.Continuation

open Verif Schemes

set_option linter.unusedSectionVars false

variable {ι Φ : Type*}

/-- C82: for every run (any solver, scheme, schedule of the saving, stop requests, end), every file written by the
run, at any iteration or at the end, contains a state through which the run has gone: its time, its iteration and the
physical fields of its spectral state. -/
theorem C82_files {S : Solver ι Φ} (hsc : ¬ Random S.scheme) {Good : Arr ι → Prop} {p : TimeLoop.Params ℝ}
    (hG : Consistent S p.forcingEnabled Good) {e : TimeLoop.Env ℝ} (sched : List (File Φ) → ℝ → ℕ → Bool)
    {dt0 : ℝ} (hp : PosDt S p.useCFL dt0) (g : Garbage ι) (t0 : ℝ) (it0 : ℕ) (u0 : Arr ι) (hu0 : Good u0)
    {s : TimeLoop.St (Sim ι Φ) ℝ}
    (hrun : Run p (calls S p.forcingEnabled sched) e (launch S p.useCFL dt0 g t0 it0 u0) s) (f : File Φ)
    (hf : f ∈ s.sim.files ∨ f = finalFile s) :
    ∃ a, Run p (calls S p.forcingEnabled sched) e (launch S p.useCFL dt0 g t0 it0 u0) a ∧
      f.t = a.t ∧ f.it = a.it ∧ f.phys = S.toPhys (a.sim.ts.heap .state) ∧ S.toSpect f.phys = a.sim.ts.heap .state := by
  have h : ∃ a, Run p (calls S p.forcingEnabled sched) e (launch S p.useCFL dt0 g t0 it0 u0) a ∧ f = finalFile a := by
    rcases hf with hf | hf
    · exact run_files hrun rfl f hf
    · exact ⟨s, hrun, hf⟩
  obtain ⟨a, ha, rfl⟩ := h
  let p2 : TimeLoop.Params ℝ := { p with timeShouldStop := none }
  have hq : TimeLoop.Quiet p2 ⟨fun _ => 0, fun _ => false⟩ := by
    intro n h
    rcases h with ⟨l, hl, _⟩ | h
    · cases hl
    · cases h
  have hi := launch_inv hp g t0 it0 u0
  have hgood : GoodSt S Good (launch S p.useCFL dt0 g t0 it0 u0) := by
    refine ⟨?_, ?_⟩ <;> simp [launch, TimeLoop.fresh, hu0]
  obtain ⟨_, ga, _, _⟩ := run_follow (p2 := p2) hsc hG rfl rfl ⟨rfl, le_rfl, le_rfl⟩ hq sched sched hp ha hi hgood
    (launch S p.useCFL dt0 g t0 it0 u0) hi ⟨rfl, rfl⟩ rfl
  refine ⟨a, ha, rfl, rfl, ga.2, ?_⟩
  show S.toSpect a.sim.phys = _
  rw [ga.2]
  exact hG.roundtrip _ ga.1

/-- The common part of the two theorems: with or without CFL condition, if the increment of the first step of the
restarted run is the increment of the uninterrupted run. -/
theorem restart_same {S : Solver ι Φ} (hsc : ¬ Random S.scheme) {Good : Arr ι → Prop} {p1 p2 : TimeLoop.Params ℝ}
    (hG : Consistent S p1.forcingEnabled Good)
    (hu : p1.useCFL = p2.useCFL) (hfe : p1.forcingEnabled = p2.forcingEnabled) (hnb : NotBefore p1 p2)
    {e1 e2 e3 : TimeLoop.Env ℝ} (hq2 : TimeLoop.Quiet p2 e2) (hq3 : TimeLoop.Quiet p2 e3)
    (sched1 sched2 sched3 : List (File Φ) → ℝ → ℕ → Bool) {dt0 : ℝ} (hp : PosDt S p1.useCFL dt0)
    (g g2 g3 : Garbage ι) (t0 : ℝ) (it0 : ℕ) (u0 : Arr ι) (hu0 : Good u0) {a : TimeLoop.St (Sim ι Φ) ℝ}
    (hrun : Run p1 (calls S p1.forcingEnabled sched1) e1 (launch S p1.useCFL dt0 g t0 it0 u0) a)
    (hdt : dtCore S p1.useCFL (core a) = dtCore S p1.useCFL ⟨a.t, a.it, dt0, a.sim.ts.heap .state, a.sim.phys⟩)
    (n : ℕ) :
    it0 ≤ a.it ∧
    outcome (TimeLoop.loop p2 (calls S p2.forcingEnabled sched2) e2 (a.it - it0 + n)
        (launch S p2.useCFL dt0 g2 t0 it0 u0))
      = outcome (TimeLoop.loop p2 (calls S p2.forcingEnabled sched3) e3 n
        (restart S p2.useCFL dt0 g3 (finalFile a))) := by
  have hp2 : PosDt S p2.useCFL dt0 := by rw [← hu]; exact hp
  have hgood : GoodSt S Good (launch S p1.useCFL dt0 g t0 it0 u0) := by
    refine ⟨?_, ?_⟩ <;> simp [launch, TimeLoop.fresh, hu0]
  obtain ⟨_, ga, la, q, iq, fq, cq, hloop⟩ := run_follow hsc hG hu hfe hnb hq2 sched1 sched2 hp hrun
    (launch_inv hp g t0 it0 u0) hgood (launch S p2.useCFL dt0 g2 t0 it0 u0) (launch_inv hp2 g2 t0 it0 u0) ⟨rfl, rfl⟩
    (by rw [launch_core, launch_core])
  have hl : (launch S p1.useCFL dt0 g t0 it0 u0).it = it0 := rfl
  rw [hl] at la hloop
  refine ⟨la, ?_⟩
  rw [hloop n]
  have hback : S.toSpect (finalFile a).phys = a.sim.ts.heap .state := by
    show S.toSpect a.sim.phys = _
    rw [ga.2]
    exact hG.roundtrip _ ga.1
  have hcr : core (restart S p2.useCFL dt0 g3 (finalFile a))
      = ⟨a.t, a.it, dt0, a.sim.ts.heap .state, a.sim.phys⟩ := by
    unfold restart
    rw [launch_core, hback, ← ga.2]
    rfl
  apply loop_same hsc hq2 hq3 sched2 sched3 hp2 hp2 n q _ iq (launch_inv hp2 _ _ _ _) fq ⟨rfl, rfl⟩
  have hcr' := hcr
  unfold restart at hcr'
  rw [cq, hcr']
  refine ⟨rfl, rfl, rfl, rfl, ?_⟩
  rw [← hu]
  exact hdt

/-- C82: with a fixed time step. A first run (any schedule of the saving, any stop requests, any end) writes files.
Then, from any of them, the simulation is restarted with an end which is not before. For every number of steps `n`,
the restarted run after `n` steps and the run which would not have been interrupted (after the same total number of
steps) are both unfinished, or both end at the same time, the same iteration, with the same spectral state and the
same physical fields, or raise the same exception; the uninitialised memory, the schedules of the saving and the
clock do not matter. -/
theorem C82_restart {S : Solver ι Φ} (hsc : ¬ Random S.scheme) {Good : Arr ι → Prop} {p1 p2 : TimeLoop.Params ℝ}
    (hG : Consistent S p1.forcingEnabled Good) (hu1 : p1.useCFL = false) (hu2 : p2.useCFL = false)
    (hfe : p1.forcingEnabled = p2.forcingEnabled) (hnb : NotBefore p1 p2)
    {e1 e2 e3 : TimeLoop.Env ℝ} (hq2 : TimeLoop.Quiet p2 e2) (hq3 : TimeLoop.Quiet p2 e3)
    (sched1 sched2 sched3 : List (File Φ) → ℝ → ℕ → Bool) (dt0 : ℝ)
    (g g2 g3 : Garbage ι) (t0 : ℝ) (it0 : ℕ) (u0 : Arr ι) (hu0 : Good u0) {s : TimeLoop.St (Sim ι Φ) ℝ}
    (hrun : Run p1 (calls S p1.forcingEnabled sched1) e1 (launch S p1.useCFL dt0 g t0 it0 u0) s) (f : File Φ)
    (hf : f ∈ s.sim.files ∨ f = finalFile s) (n : ℕ) :
    outcome (TimeLoop.loop p2 (calls S p2.forcingEnabled sched2) e2 (f.it - it0 + n)
        (launch S p2.useCFL dt0 g2 t0 it0 u0))
      = outcome (TimeLoop.loop p2 (calls S p2.forcingEnabled sched3) e3 n (restart S p2.useCFL dt0 g3 f)) := by
  have hp : PosDt S p1.useCFL dt0 := by intro h; rw [hu1] at h; cases h
  have h : ∃ a, Run p1 (calls S p1.forcingEnabled sched1) e1 (launch S p1.useCFL dt0 g t0 it0 u0) a ∧
      f = finalFile a := by
    rcases hf with hf | hf
    · exact run_files hrun rfl f hf
    · exact ⟨s, hrun, hf⟩
  obtain ⟨a, ha, rfl⟩ := h
  have hgood : GoodSt S Good (launch S p1.useCFL dt0 g t0 it0 u0) := by
    refine ⟨?_, ?_⟩ <;> simp [launch, TimeLoop.fresh, hu0]
  have hp2 : PosDt S p2.useCFL dt0 := by intro h; rw [hu2] at h; cases h
  obtain ⟨ia, _⟩ := run_follow hsc hG (hu1.trans hu2.symm) hfe hnb hq2 sched1 sched2 hp ha
    (launch_inv hp g t0 it0 u0) hgood (launch S p2.useCFL dt0 g2 t0 it0 u0) (launch_inv hp2 g2 t0 it0 u0) ⟨rfl, rfl⟩
    (by rw [launch_core, launch_core])
  have hd : a.deltat = dt0 := (ia.1.2.2.2 hu1).2.2
  exact (restart_same hsc hG (hu1.trans hu2.symm) hfe hnb hq2 hq3 sched1 sched2 sched3 hp g g2 g3 t0 it0 u0 hu0 ha
    (by simp [dtCore, hu1, core, hd]) n).2

/-- C82 (partial): with the CFL condition, the same is true if the increment obtained from `deltat0` with the saved
fields is the increment which the first run had at that moment. -/
theorem C82_restart_cfl_partial {S : Solver ι Φ} (hsc : ¬ Random S.scheme) {Good : Arr ι → Prop}
    {p1 p2 : TimeLoop.Params ℝ} (hG : Consistent S p1.forcingEnabled Good) (hu1 : p1.useCFL = true)
    (hu2 : p2.useCFL = true) (hfe : p1.forcingEnabled = p2.forcingEnabled) (hnb : NotBefore p1 p2)
    {e1 e2 e3 : TimeLoop.Env ℝ} (hq2 : TimeLoop.Quiet p2 e2) (hq3 : TimeLoop.Quiet p2 e3)
    (sched1 sched2 sched3 : List (File Φ) → ℝ → ℕ → Bool) {dt0 : ℝ} (hdt0 : 0 < dt0) (hpos : ∀ φ, 0 < S.dtCfl φ)
    (g g2 g3 : Garbage ι) (t0 : ℝ) (it0 : ℕ) (u0 : Arr ι) (hu0 : Good u0) {s : TimeLoop.St (Sim ι Φ) ℝ}
    (hrun : Run p1 (calls S p1.forcingEnabled sched1) e1 (launch S p1.useCFL dt0 g t0 it0 u0) s) (f : File Φ)
    (hf : f ∈ s.sim.files ∨ f = finalFile s)
    (hdt : ∀ a, Run p1 (calls S p1.forcingEnabled sched1) e1 (launch S p1.useCFL dt0 g t0 it0 u0) a → a.it = f.it →
      Cfl.hysteresis a.deltat (S.dtCfl f.phys) = Cfl.hysteresis dt0 (S.dtCfl f.phys)) (n : ℕ) :
    outcome (TimeLoop.loop p2 (calls S p2.forcingEnabled sched2) e2 (f.it - it0 + n)
        (launch S p2.useCFL dt0 g2 t0 it0 u0))
      = outcome (TimeLoop.loop p2 (calls S p2.forcingEnabled sched3) e3 n (restart S p2.useCFL dt0 g3 f)) := by
  have hp : PosDt S p1.useCFL dt0 := fun _ => ⟨hdt0, hpos⟩
  have h : ∃ a, Run p1 (calls S p1.forcingEnabled sched1) e1 (launch S p1.useCFL dt0 g t0 it0 u0) a ∧
      f = finalFile a := by
    rcases hf with hf | hf
    · exact run_files hrun rfl f hf
    · exact ⟨s, hrun, hf⟩
  obtain ⟨a, ha, rfl⟩ := h
  have := hdt a ha rfl
  exact (restart_same hsc hG (hu1.trans hu2.symm) hfe hnb hq2 hq3 sched1 sched2 sched3 hp g g2 g3 t0 it0 u0 hu0 ha
    (by simp only [dtCore, hu1, if_true, core]; exact this) n).2

/-- C82 (partial): in all cases the first increment of the restarted run differs from the increment of the
uninterrupted run by at most 4 % of the increment of the CFL condition. -/
theorem C82_cfl_close_partial (d dt0 m : ℝ) (hm : 0 < m) :
    |Cfl.hysteresis d m - Cfl.hysteresis dt0 m| ≤ 4 / 100 * m := by
  have key : ∀ x : ℝ, |Cfl.hysteresis x m - m| ≤ 2 / 100 * m := by
    intro x
    unfold Cfl.hysteresis
    split
    · simp; positivity
    · rename_i h
      rw [not_lt, div_le_iff₀ hm] at h
      exact h
  have h1 := abs_le.1 (key d)
  have h2 := abs_le.1 (key dt0)
  rw [abs_le]
  constructor <;> linarith [h1.1, h1.2, h2.1, h2.2]

/-! ### The finding for the CFL condition -/

/-- A field with one value which decreases slowly; the increment of the CFL condition is the inverse of the value. -/
noncomputable def drag : Solver Unit ℝ where
  scheme := .Euler
  freq := 0
  mask := fun _ => false
  ps := 1
  rnd := fun _ => (1, 1)
  tend := fun _ _ u => (-(1 / 202) : ℂ) • u
  force := fun _ _ => 0
  toPhys := fun u => (u ()).re
  toSpect := fun x _ => x
  isNan := fun _ => false
  dtCfl := fun x => min (Cfl.deltatCFL 1 100 (|x| / 1)) 100

theorem drag_consistent (fe : Bool) : Consistent drag fe fun u => (u ()).im = 0 where
  roundtrip := by
    intro u hu
    funext i
    have : u () = ((u ()).re : ℂ) := by
      apply Complex.ext <;> simp [hu]
    rw [show i = () from rfl]
    exact this.symm
  step := by
    intro t u dt hu
    simp only [stepOf, drag, timeStepRK, euler, tendencies, stepEuler, dealias, set_same, set_other, ne_eq,
      reduceCtorEq, not_false_eq_true, Bool.false_eq_true, if_false]
    have : expLin (0 : Arr Unit) dt = 1 := by funext i; simp [expLin]
    rw [this]
    simp [hu]

theorem drag_pos : PosDt drag true 1 := by
  intro _
  refine ⟨one_pos, fun φ => ?_⟩
  simp only [drag, Cfl.deltatCFL]
  split
  · rename_i h; exact lt_min (by positivity) (by norm_num)
  · norm_num

theorem drag_step (fe : Bool) (t : ℝ) (x dt : ℝ) :
    stepOf drag fe t (fun _ => (x : ℂ)) dt = fun _ => ((x * (1 - dt / 202) : ℝ) : ℂ) := by
  simp only [stepOf, drag, timeStepRK, euler, tendencies, stepEuler, dealias, set_same, set_other, ne_eq,
    reduceCtorEq, not_false_eq_true, Bool.false_eq_true, if_false]
  have : expLin (0 : Arr Unit) dt = 1 := by funext i; simp [expLin]
  rw [this]
  funext i
  simp
  ring

/-- The parameters of the examples: `it_end` iterations, with the CFL condition. -/
def cflParams (itEnd : ℕ) : TimeLoop.Params ℝ :=
  { useTEnd := false, tEnd := 0, itEnd := itEnd, useCFL := true, forcingEnabled := false, timeShouldStop := none,
    hasToSave := true }

/-- An environment without stop request. -/
def quietEnv : TimeLoop.Env ℝ := ⟨fun _ => 0, fun _ => false⟩

theorem quiet_env (n : ℕ) : TimeLoop.Quiet (cflParams n) quietEnv := by
  intro k h
  rcases h with ⟨l, hl, _⟩ | h
  · cases hl
  · cases h

theorem drag_first : stepCore drag true false ⟨0, 0, 1, fun _ => ((1 / 2 : ℝ) : ℂ), 1 / 2⟩
    = .ok ⟨2, 1, 2, fun _ => ((50 / 101 : ℝ) : ℂ), 50 / 101⟩ := by
  have hd : dtCore drag true ⟨0, 0, 1, fun _ => ((1 / 2 : ℝ) : ℂ), 1 / 2⟩ = 2 := by
    simp only [dtCore, if_true, drag, Cfl.deltatCFL, Cfl.hysteresis]
    norm_num [abs_of_pos]
  simp only [stepCore, hd, drag_step]
  norm_num [drag]

theorem drag_second : stepCore drag true false ⟨2, 1, 2, fun _ => ((50 / 101 : ℝ) : ℂ), 50 / 101⟩
    = .ok ⟨4, 2, 2, fun _ => ((5000 / 10201 : ℝ) : ℂ), 5000 / 10201⟩ := by
  have hd : dtCore drag true ⟨2, 1, 2, fun _ => ((50 / 101 : ℝ) : ℂ), 50 / 101⟩ = 2 := by
    simp only [dtCore, if_true, drag, Cfl.deltatCFL, Cfl.hysteresis]
    norm_num [abs_of_pos]
  simp only [stepCore, hd, drag_step]
  norm_num [drag]

theorem drag_second' : stepCore drag true false ⟨2, 1, 1, fun _ => ((50 / 101 : ℝ) : ℂ), 50 / 101⟩
    = .ok ⟨402 / 100, 2, 202 / 100, fun _ => ((50 / 101 * (1 - (202 / 100) / 202) : ℝ) : ℂ),
        50 / 101 * (1 - (202 / 100) / 202)⟩ := by
  have hd : dtCore drag true ⟨2, 1, 1, fun _ => ((50 / 101 : ℝ) : ℂ), 50 / 101⟩ = 202 / 100 := by
    simp only [dtCore, if_true, drag, Cfl.deltatCFL, Cfl.hysteresis]
    norm_num [abs_of_pos, abs_of_neg]
  simp only [stepCore, hd, drag_step]
  norm_num [drag]

/-- C82 (finding): with the CFL condition, the time step in use is not saved in the files, and a restarted run begins
with `deltat0`: because a computed time step which differs by less than 2 % from the time step in use is ignored, the
restarted run may take another time step than the uninterrupted run, and then all the following times and states
differ. Here the first run ends at the iteration 1 (time 2); asked to go to the iteration 2, it would be at the time
4; restarted from its last file, it is at the time 4.02. -/
theorem C82_cfl_violated : ∃ (S : Solver Unit ℝ) (Good : Arr Unit → Prop) (u0 : Arr Unit) (g : Garbage Unit)
    (sched : List (File ℝ) → ℝ → ℕ → Bool) (s1 : TimeLoop.St (Sim Unit ℝ) ℝ),
    Consistent S false Good ∧ Good u0 ∧ ¬ Random S.scheme ∧ (∀ φ, 0 < S.dtCfl φ) ∧
    TimeLoop.loop (cflParams 1) (calls S false sched) quietEnv 1 (launch S true 1 g 0 0 u0) = .done s1 ∧
    (finalFile s1).t = 2 ∧
    (∃ u φ, outcome (TimeLoop.loop (cflParams 2) (calls S false sched) quietEnv 2 (launch S true 1 g 0 0 u0))
      = some (.ok (4, 2, u, φ))) ∧
    ∃ u φ, outcome (TimeLoop.loop (cflParams 2) (calls S false sched) quietEnv 1 (restart S true 1 g (finalFile s1)))
      = some (.ok (402 / 100, 2, u, φ)) := by
  let u0 : Arr Unit := fun _ => ((1 / 2 : ℝ) : ℂ)
  let g : Garbage Unit := ⟨fun _ => 0, 0, 0, 0, 0⟩
  let sched : List (File ℝ) → ℝ → ℕ → Bool := fun _ _ _ => false
  have hsc : ¬ Random drag.scheme := fun h => h
  have hi := launch_inv drag_pos g 0 0 u0
  have hc0 : core (launch drag true 1 g 0 0 u0) = ⟨0, 0, 1, fun _ => ((1 / 2 : ℝ) : ℂ), 1 / 2⟩ := by
    rw [launch_core]; simp [u0, drag]
  obtain ⟨_, st⟩ := step_inv (p := cflParams 1) hsc quietEnv sched drag_pos hi
  obtain ⟨s1, h1, h2, _⟩ := st _ (by rw [hc0]; exact drag_first)
  have hend : TimeLoop.loop (cflParams 1) (calls drag false sched) quietEnv 1 (launch drag true 1 g 0 0 u0)
      = .done s1 := by
    have hone : TimeLoop.oneTimeStep (cflParams 1) (calls drag false sched) quietEnv (launch drag true 1 g 0 0 u0)
        = .ok s1 := h1
    have hit : s1.it = 1 := congrArg Core.it h2
    simp only [TimeLoop.loop]
    rw [if_pos (by rfl), hone]
    simp [TimeLoop.loopCond, cflParams, hit]
  have ht : s1.t = 2 := congrArg Core.t h2
  have hit : s1.it = 1 := congrArg Core.it h2
  have hph : s1.sim.phys = 50 / 101 := congrArg Core.phys h2
  have hrc : core (restart drag true 1 g (finalFile s1)) = ⟨2, 1, 1, fun _ => ((50 / 101 : ℝ) : ℂ), 50 / 101⟩ := by
    unfold restart
    rw [launch_core]
    simp only [finalFile, ht, hit, hph]
    simp [drag]
  refine ⟨drag, _, u0, g, sched, s1, drag_consistent false, by simp [u0], hsc, (drag_pos rfl).2, hend, ht, ?_, ?_⟩
  · refine ⟨fun _ => ((5000 / 10201 : ℝ) : ℂ), 5000 / 10201,
      (loop_core (p := cflParams 2) hsc (quiet_env 2) sched drag_pos 2 _ hi ⟨rfl, rfl⟩).trans ?_⟩
    rw [hc0]
    simp only [loopCore, cflParams, Bool.false_eq_true, if_false, Nat.ofNat_pos, if_true, drag_first, drag_second,
      Nat.one_lt_ofNat, lt_irrefl]
  · refine ⟨fun _ => ((50 / 101 * (1 - (202 / 100) / 202) : ℝ) : ℂ), 50 / 101 * (1 - (202 / 100) / 202),
      (loop_core (p := cflParams 2) hsc (quiet_env 2) sched drag_pos 1 _
      (launch_inv drag_pos g _ _ _) ⟨rfl, rfl⟩).trans ?_⟩
    have := hrc
    unfold restart at this
    rw [this]
    simp only [loopCore, cflParams, Bool.false_eq_true, if_false, if_true, drag_second', Nat.one_lt_ofNat, lt_irrefl]

/-- A case of the hypotheses of the theorem with the CFL condition: the file of the initial state, saved by the first
iteration of a run of 5 iterations. -/
example (n : ℕ) (g g2 g3 : Garbage Unit) (s : TimeLoop.St (Sim Unit ℝ) ℝ)
    (hs : Run (cflParams 5) (calls drag false fun _ _ it => it == 0) quietEnv
      (launch drag true 1 g 0 0 fun _ => ((1 / 2 : ℝ) : ℂ)) s) (f : File ℝ) (hf : f ∈ s.sim.files) (hit : f.it = 0) :
    outcome (TimeLoop.loop (cflParams 5) (calls drag false fun _ _ _ => false) quietEnv (f.it - 0 + n)
        (launch drag true 1 g2 0 0 fun _ => ((1 / 2 : ℝ) : ℂ)))
      = outcome (TimeLoop.loop (cflParams 5) (calls drag false fun _ _ _ => false) quietEnv n
        (restart drag true 1 g3 f)) := by
  refine C82_restart_cfl_partial (S := drag) (p1 := cflParams 5) (p2 := cflParams 5) (fun h => h)
    (drag_consistent false) rfl rfl rfl ⟨rfl, le_rfl, le_rfl⟩ (quiet_env 5) (quiet_env 5) _ _ _ one_pos
    (drag_pos rfl).2 g g2 g3 0 0 _ (by simp) hs f (Or.inl hf) ?_ n
  intro a ha hai
  rw [hit] at hai
  cases ha with
  | refl => rfl
  | step _ _ h =>
    have := (TimeLoop.oneTimeStep_ok h).1
    omega

/-! ### Real fields on a periodic grid -/

section Periodic

variable {D V Ψ : Type*} [Fintype D] [DecidableEq D] [DecidableEq (D → ℤ)]

/-- C82: for a pseudo-spectral solver on a periodic grid of any dimension and sizes, with truncated real states: what
is saved is enough to recover exactly the spectral state, for all the states of a run. The modes which are kept are
distinct on the grid and come with their opposites; the tendencies and the forcing, the frequencies and the phase
shift are those of real fields. The physical state may contain other variables. -/
theorem C82_periodic (n : D → ℕ) (hn : ∀ d, 0 < n d) (M : Finset (D → ℤ)) (hM : ∀ k ∈ M, -k ∈ M)
    (hdist : ∀ p ∈ M, ∀ q ∈ M, (∀ d, (n d : ℤ) ∣ p d - q d) → p = q) (S : Solver (V × (D → ℤ)) Ψ)
    (hsc : ¬ Random S.scheme) (fe : Bool) (hphys : ∀ u, S.toSpect (S.toPhys u) = modesOf n M (fieldsOf n M u))
    (hmask : ∀ v k, S.mask (v, k) = decide (k ∉ M)) (hfreq : Hermitian S.freq) (hps : Hermitian S.ps)
    (hforce : ∀ t u, Hermitian u → Hermitian (S.force t u))
    (htend : ∀ F b u, Hermitian F → Hermitian u → Hermitian (S.tend F b u)) :
    Consistent S fe fun u => Hermitian u ∧ ∀ v, ∀ k ∉ M, u (v, k) = 0 where
  roundtrip := fun u hu => by rw [hphys]; exact modesOf_fieldsOf n hn M hM hdist u hu.1 hu.2
  step := by
    intro t u dt hu
    have hF : Hermitian (if fe then S.force t u else 0) := by
      split
      · exact hforce t u hu.1
      · exact herm_zero
    have h2 : Hermitian (expLin S.freq ((dt : ℂ) / 2)) := by
      have := herm_exp hfreq (dt / 2)
      simpa using this
    have := timeStepRK_closed Hermitian herm_add herm_smul herm_mul herm_div hsc
      (S.tend (if fe then S.force t u else 0)) (fun b w hw => htend _ b w hF hw) dt (herm_exp hfreq dt) h2 hps u hu.1
    refine ⟨?_, ?_⟩
    · intro v k
      have hiff : -k ∈ M ↔ k ∈ M := ⟨fun h => by simpa using hM _ h, hM k⟩
      simp only [stepOf, dealias, set_same, hmask, decide_eq_true_eq, hiff]
      split
      · simp
      · exact this v k
    · intro v k hk
      simp [stepOf, dealias, hmask, hk]

end Periodic

/-! ### A case of the hypotheses: the Burgers equation on a grid of 8 points -/

/-- The kept modes. -/
noncomputable def burgersModes : Finset (Unit → ℤ) := (Finset.Icc (-2 : ℤ) 2).image fun k _ => k

theorem mem_burgersModes (k : Unit → ℤ) : k ∈ burgersModes ↔ -2 ≤ k () ∧ k () ≤ 2 := by
  simp only [burgersModes, Finset.mem_image, Finset.mem_Icc]
  constructor
  · rintro ⟨m, hm, rfl⟩; exact hm
  · intro h; exact ⟨k (), h, funext fun _ => rfl⟩

/-- `- u du/dx` computed on the grid, viscosity 1/10, RK4. -/
noncomputable def burgers : Solver (Unit × (Unit → ℤ)) (Unit → Fourier.Pt (fun _ : Unit => 8) → ℝ) where
  scheme := .RK4
  freq := fun q => (((q.2 () : ℝ) ^ 2 / 10 : ℝ) : ℂ)
  mask := fun q => decide (q.2 ∉ burgersModes)
  ps := 1
  rnd := fun _ => (1, 1)
  tend := fun _ _ u => modesOf (fun _ => 8) burgersModes fun v j =>
    -(fieldsOf (fun _ => 8) burgersModes u v j *
      fieldsOf (fun _ => 8) burgersModes (fun q => Complex.I * (q.2 () : ℂ) * u q) v j)
  force := fun _ _ => 0
  toPhys := fieldsOf (fun _ => 8) burgersModes
  toSpect := modesOf (fun _ => 8) burgersModes
  isNan := fun _ => false
  dtCfl := fun _ => 1

theorem burgers_consistent (fe : Bool) :
    Consistent burgers fe fun u => Hermitian u ∧ ∀ v, ∀ k ∉ burgersModes, u (v, k) = 0 := by
  have hM : ∀ k ∈ burgersModes, -k ∈ burgersModes := by
    intro k hk
    rw [mem_burgersModes] at hk ⊢
    simp only [Pi.neg_apply]
    omega
  refine C82_periodic (fun _ => 8) (fun _ => by norm_num) burgersModes hM ?_ burgers (fun h => h) fe (fun _ => rfl)
    (fun _ _ => rfl) ?_ ?_ (fun _ _ _ => herm_zero) ?_
  · intro p hp q hq h
    rw [mem_burgersModes] at hp hq
    have := h ()
    funext i
    simp only [Nat.cast_ofNat] at this
    show p () = q ()
    omega
  · intro v k
    simp only [burgers, Pi.neg_apply]
    push_cast
    simp
  · intro v k
    simp [burgers]
  · intro F b u _ _
    simp only [burgers]
    exact herm_modesOf _ _ hM _

/-- A run of 3 steps of 0.1, with a file at each iteration, restarted from any of its files to make 3 + m steps. -/
example (m n : ℕ) (g g2 g3 : Garbage (Unit × (Unit → ℤ)))
    (s : TimeLoop.St (Sim (Unit × (Unit → ℤ)) (Unit → Fourier.Pt (fun _ : Unit => 8) → ℝ)) ℝ)
    (hs : Run { cflParams 3 with useCFL := false } (calls burgers false fun _ _ _ => true) quietEnv
      (launch burgers false (1 / 10) g 0 0 fun q => if q.2 () = 1 ∨ q.2 () = -1 then 1 else 0) s)
    (f : File (Unit → Fourier.Pt (fun _ : Unit => 8) → ℝ)) (hf : f ∈ s.sim.files) :
    outcome (TimeLoop.loop { cflParams (3 + m) with useCFL := false } (calls burgers false fun _ _ _ => false) quietEnv
        (f.it - 0 + n) (launch burgers false (1 / 10) g2 0 0 fun q => if q.2 () = 1 ∨ q.2 () = -1 then 1 else 0))
      = outcome (TimeLoop.loop { cflParams (3 + m) with useCFL := false } (calls burgers false fun _ _ _ => true)
        quietEnv n (restart burgers false (1 / 10) g3 f)) := by
  refine C82_restart (S := burgers) (p1 := { cflParams 3 with useCFL := false }) (p2 := { cflParams (3 + m) with useCFL := false })
    (fun h => h) (burgers_consistent false) rfl rfl rfl ⟨rfl, le_rfl, by simp [cflParams]⟩ ?_ ?_ _ _ _ _ g g2 g3 0 0 _
    ⟨?_, ?_⟩ hs f (Or.inl hf) n
  · exact quiet_env (3 + m)
  · exact quiet_env (3 + m)
  · intro v k
    have : (-k () = 1 ∨ -k () = -1) ↔ (k () = 1 ∨ k () = -1) := by omega
    simp only [Pi.neg_apply, this]
    split <;> simp
  · intro v k hk
    rw [mem_burgersModes] at hk
    have : ¬ (k () = 1 ∨ k () = -1) := by omega
    simp [this]

end Verif.Continuation
