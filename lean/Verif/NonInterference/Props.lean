import Verif.NonInterference.Lemmas
import Verif.Forcing.Model

/-!
# C105: the outputs do not influence the simulation
-/

set_option linter.unusedSectionVars false

namespace Verif.NonInterference

variable {K : Type} [Field K] [LinearOrder K] {U F O₁ O₂ : Type}

/-- Two simulations with the same parameters, whose outputs are configured in two different ways
(results saved or not, other periods, other outputs), compute the same flow: same states, same times,
same time increments, same random numbers, for every number `n` of time steps. This holds although
the increment is computed once more and the forcing is computed in advance when there are results to
save. -/
theorem C105_start [IsStrictOrderedRing K] (S : Solver K U F) (A : Outputs K U F O₁)
    (B : Outputs K U F O₂) (p : Phys K U F) (oA : O₁) (oB : O₂) (i j : Bool) (signal : ℕ → Bool)
    (stopAt : K ⊕ ℕ) (n : ℕ) :
    flow (start S A signal stopAt n (postInit S A p oA i j))
      = flow (start S B signal stopAt n (postInit S B p oB i j)) := by
  unfold start
  rw [flow_endOfSimul, flow_endOfSimul]
  apply flow_rel (S := S)
  apply mainLoop_rel
  exact (first_rel S A p oA i j).trans (first_rel S B p oB i j).symm

/-- In the loop, as soon as one time step has been made, the two simulations are exactly in the same
state, with the same force and the same state of the random generator. -/
theorem C105_loop [IsStrictOrderedRing K] (S : Solver K U F) (A : Outputs K U F O₁)
    (B : Outputs K U F O₂) (p : Phys K U F) (oA : O₁) (oB : O₂) (i j : Bool) (signal : ℕ → Bool)
    (stopAt : K ⊕ ℕ) (n : ℕ)
    (hn : p.it < (mainLoop S A signal stopAt n (postInit S A p oA i j)).phys.it) :
    (mainLoop S A signal stopAt n (postInit S A p oA i j)).phys
      = (mainLoop S B signal stopAt n (postInit S B p oB i j)).phys := by
  have h := (first_rel S A p oA i j).trans (first_rel S B p oB i j).symm
  have hit : (initWith S A (postInit S A p oA i j)).phys.it = p.it := by
    rw [(first_rel S A p oA i j).it, cfl_it]
  unfold mainLoop at hn ⊢
  generalize initWith S A (postInit S A p oA i j) = a at h hit hn ⊢
  generalize initWith S B (postInit S B p oB i j) = b at h ⊢
  have ha : (if A.save = true then { a with out := A.saveFields a.out a.phys } else a).phys
      = a.phys := by split <;> rfl
  have hb : (if B.save = true then { b with out := B.saveFields b.out b.phys } else b).phys
      = b.phys := by split <;> rfl
  simp only at hn ⊢
  generalize (if A.save = true then { a with out := A.saveFields a.out a.phys } else a) = a'
    at ha hn ⊢
  generalize (if B.save = true then { b with out := B.saveFields b.out b.phys } else b) = b'
    at hb ⊢
  rw [← ha, ← hb] at h
  rw [← ha] at hit
  cases n with
  | zero => simp only [loop] at hn; omega
  | succ n =>
    simp only [loop, goesOn_rel h] at hn ⊢
    split
    · exact loop_eq S A B signal stopAt n _ _ (oneStep_phys S A B signal a' b' h)
    · rename_i hg
      rw [if_neg hg] at hn
      omega

/-- A script which gives the state to a simulation constructed without it (`init_fields.type`
"in_script"), or whose forcing is not ready, and starts it: the flow does not depend on the outputs. -/
theorem C105_in_script [IsStrictOrderedRing K] (S : Solver K U F) (A : Outputs K U F O₁)
    (B : Outputs K U F O₂) (p : Phys K U F) (oA : O₁) (oB : O₂) (i j : Bool) (signal : ℕ → Bool)
    (stopAt : K ⊕ ℕ) (n : ℕ) (f : U → U) (h : (i && (!S.forced || j)) = false) :
    flow (start S A signal stopAt n (changeState f (postInit S A p oA i j)))
      = flow (start S B signal stopAt n (changeState f (postInit S B p oB i j))) := by
  unfold start
  rw [flow_endOfSimul, flow_endOfSimul]
  apply flow_rel (S := S)
  apply mainLoop_rel
  simp only [postInit, h, Bool.false_eq_true, if_false, changeState]
  exact (initWith_rel S A _ oA).trans (initWith_rel S B _ oB).symm

/-- Successive calls of `start` with later ends: the flow does not depend on the outputs when the
time increment is fixed, or when the force does not depend on it. What is missing is the case of the
adaptive increment with a normalised force, for which the property is false
(`C105_continued_violated`). -/
theorem C105_continued_partial [IsStrictOrderedRing K] (S : Solver K U F) (A : Outputs K U F O₁)
    (B : Outputs K U F O₂) (p : Phys K U F) (oA : O₁) (oB : O₂) (i j : Bool) (signal : ℕ → Bool)
    (ends : List ((K ⊕ ℕ) × ℕ))
    (h : S.useCfl = false ∨ ∀ t d d' u f, S.maker t d u f = S.maker t d' u f) (hne : ends ≠ []) :
    flow (starts S A signal ends (postInit S A p oA i j))
      = flow (starts S B signal ends (postInit S B p oB i j)) := by
  have key : ∀ (l : List ((K ⊕ ℕ) × ℕ)) (a : Sim K U F O₁) (b : Sim K U F O₂),
      Rel S (initWith S A a).phys (initWith S B b).phys → l ≠ [] →
      flow (starts S A signal l a) = flow (starts S B signal l b) := by
    intro l
    induction l with
    | nil => intro a b _ hl; exact absurd rfl hl
    | cons x l ih =>
      obtain ⟨e, n⟩ := x
      intro a b hab _
      have hrel : Rel S (start S A signal e n a).phys (start S B signal e n b).phys :=
        ((endOfSimul_rel S A _ h).trans (mainLoop_rel S A B signal e n a b hab)).trans
          (endOfSimul_rel S B _ h).symm
      cases l with
      | nil => exact flow_rel hrel
      | cons y l =>
        apply ih
        · rw [initWith_of_ready S A _ (start_ready S A signal e n a),
            initWith_of_ready S B _ (start_ready S B signal e n b)]
          exact hrel
        · simp
  exact key ends _ _ ((first_rel S A p oA i j).trans (first_rel S B p oB i j).symm) hne

/-- With the preprocessing: the flow does not depend on the outputs when the construction of the
forcing object depends on nothing else than the parameters (no random numbers). Missing: the random
forcings, for which the property is false (`C105_preprocess_violated`). -/
theorem C105_preprocess_partial [IsStrictOrderedRing K] (S : Solver K U F)
    (P : Preprocess K U F) (A : Outputs K U F O₁)
    (B : Outputs K U F O₂) (p : Phys K U F) (oA : O₁) (oB : O₂) (i j : Bool) (signal : ℕ → Bool)
    (stopAt : K ⊕ ℕ) (n : ℕ) (h : ∀ f f', P.reinit f = P.reinit f')
    (hi : (i && (!S.forced || j)) = true) :
    flow (start (P.solver p.u) A signal stopAt n (preprocess P (postInit S A p oA i j)))
      = flow (start (P.solver p.u) B signal stopAt n (preprocess P (postInit S B p oB i j))) := by
  unfold start
  rw [flow_endOfSimul, flow_endOfSimul]
  apply flow_rel (S := P.solver p.u)
  apply mainLoop_rel
  have hu : (postInit S A p oA i j).phys.u = (postInit S B p oB i j).phys.u := by
    simp only [postInit, hi, if_true]
    exact ((initWith_rel S A p oA).trans (initWith_rel S B p oB).symm).u
  have rA : (preprocess P (postInit S A p oA i j)).ready = true := by
    simp only [preprocess, postInit, hi, if_true]; exact initWith_ready S A _
  have rB : (preprocess P (postInit S B p oB i j)).ready = true := by
    simp only [preprocess, postInit, hi, if_true]; exact initWith_ready S B _
  rw [initWith_of_ready _ A _ rA, initWith_of_ready _ B _ rB]
  have e : (preprocess P (postInit S A p oA i j)).phys
      = (preprocess P (postInit S B p oB i j)).phys := by
    simp only [preprocess, hu, h (postInit S A p oA i j).phys.forcing
      (postInit S B p oB i j).phys.forcing]
  rw [e]
  exact Rel.refl _ _

/-! ### Witnesses and findings -/

/-- A solver with the adaptive increment `1 / u` and a force `u / dt` (normalised with the
increment). -/
def demo (useCfl : Bool) : Solver ℚ ℚ ℚ where
  useCfl := useCfl
  limit u := 1 / u
  forced := true
  maker _ dt u _ := u / dt
  scheme _ dt u f := u + dt * f + dt

/-- Outputs which save the state and the time at each time step. -/
def saving : Outputs ℚ ℚ ℚ (List (ℚ × ℚ)) where
  save := true
  create _ := []
  each o p := o ++ [(p.t, p.u)]
  saveFields o p := o ++ [(p.t, p.u)]

/-- No result is saved. -/
def quiet : Outputs ℚ ℚ ℚ Unit where
  save := false
  create _ := ()
  each o _ := o
  saveFields o _ := o

/-- The simulation just before `output.post_init`. -/
def fresh : Phys ℚ ℚ ℚ := ⟨1, 0, 0, 1 / 10, false, none, 0⟩

/-- The runs of the example are not trivial: three time steps with three different increments, and
results in the files. -/
example : flow (start (demo true) saving (fun _ => false) (.inr 3) 10
      (postInit (demo true) saving fresh [] true true))
    = flow (start (demo true) quiet (fun _ => false) (.inr 3) 10
      (postInit (demo true) quiet fresh () true true)) ∧
    (start (demo true) quiet (fun _ => false) (.inr 3) 10
      (postInit (demo true) quiet fresh () true true)).phys.it = 3 ∧
    1 < (start (demo true) quiet (fun _ => false) (.inr 3) 10
      (postInit (demo true) quiet fresh () true true)).phys.u ∧
    (start (demo true) saving (fun _ => false) (.inr 3) 10
      (postInit (demo true) saving fresh [] true true)).out.length = 6 :=
  ⟨C105_start _ _ _ _ _ _ _ _ _ _ _, by decide +kernel, by decide +kernel, by decide +kernel⟩

/-- The hypotheses of `C105_continued_partial` hold for the same solver with a fixed increment. -/
example : flow (starts (demo false) saving (fun _ => false) [(.inr 3, 10), (.inr 5, 10)]
      (postInit (demo false) saving fresh [] true true))
    = flow (starts (demo false) quiet (fun _ => false) [(.inr 3, 10), (.inr 5, 10)]
      (postInit (demo false) quiet fresh () true true)) :=
  C105_continued_partial _ _ _ _ _ _ _ _ _ _ (.inl rfl) (by simp)

/-- The hypothesis of `C105_loop`: at least one time step. -/
example : (mainLoop (demo true) saving (fun _ => false) (.inr 3) 10
      (postInit (demo true) saving fresh [] true true)).phys.forcing
    = (mainLoop (demo true) quiet (fun _ => false) (.inr 3) 10
      (postInit (demo true) quiet fresh () true true)).phys.forcing :=
  congrArg Phys.forcing (C105_loop _ _ _ _ _ _ _ _ _ _ _ (by decide +kernel))

/-- The hypothesis of `C105_in_script`: the state is not initialised by the construction. -/
example : flow (start (demo true) saving (fun _ => false) (.inr 2) 10
      (changeState (· + 1) (postInit (demo true) saving fresh [] false true)))
    = flow (start (demo true) quiet (fun _ => false) (.inr 2) 10
      (changeState (· + 1) (postInit (demo true) quiet fresh () false true))) :=
  C105_in_script _ _ _ _ _ _ _ _ _ _ _ _ rfl

/-- The hypotheses of `C105_preprocess_partial`: a forcing without random numbers. -/
example : flow (start (demo true) saving (fun _ => false) (.inr 2) 10
      (preprocess ⟨(· / 2), fun _ => demo true, 1 / 10, fun _ => 0⟩
        (postInit (demo true) saving fresh [] true true)))
    = flow (start (demo true) quiet (fun _ => false) (.inr 2) 10
      (preprocess ⟨(· / 2), fun _ => demo true, 1 / 10, fun _ => 0⟩
        (postInit (demo true) quiet fresh () true true))) :=
  C105_preprocess_partial (demo true) ⟨(· / 2), fun _ => demo true, 1 / 10, fun _ => 0⟩
    saving quiet fresh [] () true true _ _ _ (fun _ _ => rfl) rfl

/-- FINDING: a script calls `start` a second time with a later end. With `USE_CFL` and a force
normalised with the time increment, the flow depends on `HAS_TO_SAVE`: at the end of the first run the
force is computed for the outputs only if results are saved, with the old increment, and it is not
computed again when the run goes on with a new increment. -/
theorem C105_continued_violated :
    ∃ (S : Solver ℚ ℚ ℚ) (A : Outputs ℚ ℚ ℚ (List (ℚ × ℚ))) (B : Outputs ℚ ℚ ℚ Unit),
      flow (starts S A (fun _ => false) [(.inr 1, 10), (.inr 2, 10)]
          (postInit S A fresh [] true true))
        ≠ flow (starts S B (fun _ => false) [(.inr 1, 10), (.inr 2, 10)]
          (postInit S B fresh () true true)) :=
  ⟨demo true, saving, quiet, by decide +kernel⟩

/-- FINDING: a script changes the state of a simulation whose state has been initialised (for example
by adding a perturbation) before it is started. The flow depends on `HAS_TO_SAVE`: when results are
saved, the force has already been computed during the construction, with the state before the change,
and the first time step uses it. -/
theorem C105_changed_state_violated :
    ∃ (S : Solver ℚ ℚ ℚ) (A : Outputs ℚ ℚ ℚ (List (ℚ × ℚ))) (B : Outputs ℚ ℚ ℚ Unit),
      flow (start S A (fun _ => false) (.inr 1) 10
          (changeState (· + 1) (postInit S A fresh [] true true)))
        ≠ flow (start S B (fun _ => false) (.inr 1) 10
          (changeState (· + 1) (postInit S B fresh () true true))) :=
  ⟨demo false, saving, quiet, by decide +kernel⟩

/-- The time-correlated random forcing is constructed twice when the preprocessing is enabled
(`sim.forcing.__init__` in `set_forcing_rate`). If results are saved, the second construction reads
the seeds in the file `_forcing_state.txt` written by the first one: the forcing is the same. -/
theorem C105_forcing_constructed_twice {G R : Type} (r : Forcing.Rng G R) (t t' : ℝ) (g g' : G)
    (a b : Forcing.Tcr G R) (ha : Forcing.tcrInit r true .missing t g = .ok a)
    (hb : Forcing.tcrInit r true a.file t' g' = .ok b) :
    b.f0 = a.f0 ∧ b.f1 = a.f1 ∧ b.seed0 = a.seed0 ∧ b.seed1 = a.seed1 ∧ b.tlc = a.tlc := by
  simp only [Forcing.tcrInit, Except.ok.injEq] at ha
  subst ha
  simp only [Forcing.saveState, if_true, Forcing.tcrInit, Except.ok.injEq] at hb
  subst hb
  exact ⟨rfl, rfl, rfl, rfl, rfl⟩

/-- A random generator: the state is a number, the raw forcing is the state. -/
def counter : Forcing.Rng ℕ ℕ where
  seed n := 10 * n
  randint g := (g, g + 1)
  raw g := (g, g + 1)

/-- FINDING: with the preprocessing and the time-correlated random forcing, the force depends on
`HAS_TO_SAVE`, for the same seed of the random generator: without results to save there is no file
with the seeds, so the second construction of the forcing draws other seeds. -/
theorem C105_preprocess_violated :
    ∃ (r : Forcing.Rng ℕ ℕ) (g : ℕ) (a a' b b' : Forcing.Tcr ℕ ℕ),
      Forcing.tcrInit r true .missing 0 g = .ok a ∧
      Forcing.tcrInit r true a.file 0 a.g = .ok a' ∧
      Forcing.tcrInit r false .missing 0 g = .ok b ∧
      Forcing.tcrInit r false b.file 0 b.g = .ok b' ∧
      (b.f0, b.f1) = (a.f0, a.f1) ∧ (b'.f0, b'.f1) ≠ (a'.f0, a'.f1) := by
  refine ⟨counter, 5, _, _, _, _, rfl, rfl, rfl, rfl, rfl, ?_⟩
  decide

end Verif.NonInterference
