import Verif.NonInterference.Spec
import Mathlib.Tactic.Ring

/-! # Lemmas for C105 -/

set_option linter.unusedSectionVars false

namespace Verif.NonInterference

variable {K : Type} [Field K] [LinearOrder K] {U F O₁ O₂ : Type}

theorem hysteresis_idem [IsStrictOrderedRing K] (d m : K) :
    Cfl.hysteresis (Cfl.hysteresis d m) m = Cfl.hysteresis d m := by
  unfold Cfl.hysteresis
  by_cases h : |d - m| / m > 2 / 100
  · simp [h]
  · simp [h]

theorem cfl_idem [IsStrictOrderedRing K] (S : Solver K U F) (p : Phys K U F) :
    cfl S (cfl S p) = cfl S p := by
  unfold cfl
  by_cases h : S.useCfl <;> simp [h, hysteresis_idem]

theorem compute_of (S : Solver K U F) (p : Phys K U F) (h : (S.forced && due p) = true) :
    compute S p = { p with last := some p.t, forcing := S.maker p.t p.dt p.u p.forcing } := by
  unfold compute; rw [if_pos h]

theorem compute_not (S : Solver K U F) (p : Phys K U F) (h : (S.forced && due p) = false) :
    compute S p = p := by
  unfold compute; rw [if_neg (by simp [h])]

theorem due_at (p : Phys K U F) (h : p.last = some p.t) : due p = false := by
  unfold due; rw [h]; simp

theorem compute_idem (S : Solver K U F) (p : Phys K U F) :
    compute S (compute S p) = compute S p := by
  by_cases h : (S.forced && due p) = true
  · apply compute_not
    rw [compute_of S p h, due_at _ rfl, Bool.and_false]
  · rw [Bool.not_eq_true] at h
    rw [compute_not S p h, compute_not S p h]

theorem compute_u (S : Solver K U F) (p : Phys K U F) : (compute S p).u = p.u := by
  unfold compute; split <;> rfl
theorem compute_t (S : Solver K U F) (p : Phys K U F) : (compute S p).t = p.t := by
  unfold compute; split <;> rfl
theorem compute_it (S : Solver K U F) (p : Phys K U F) : (compute S p).it = p.it := by
  unfold compute; split <;> rfl
theorem compute_dt (S : Solver K U F) (p : Phys K U F) : (compute S p).dt = p.dt := by
  unfold compute; split <;> rfl
theorem compute_stop (S : Solver K U F) (p : Phys K U F) : (compute S p).stop = p.stop := by
  unfold compute; split <;> rfl

theorem cfl_u (S : Solver K U F) (p : Phys K U F) : (cfl S p).u = p.u := by
  unfold cfl; split <;> rfl
theorem cfl_t (S : Solver K U F) (p : Phys K U F) : (cfl S p).t = p.t := by
  unfold cfl; split <;> rfl
theorem cfl_it (S : Solver K U F) (p : Phys K U F) : (cfl S p).it = p.it := by
  unfold cfl; split <;> rfl
theorem cfl_stop (S : Solver K U F) (p : Phys K U F) : (cfl S p).stop = p.stop := by
  unfold cfl; split <;> rfl

/-- When the increment is already the one of the state, the call changes nothing, before or after the
computation of the forcing. -/
theorem cfl_compute [IsStrictOrderedRing K] (S : Solver K U F) (p : Phys K U F)
    (h : cfl S p = p) : cfl S (compute S p) = compute S p := by
  by_cases hc : S.useCfl
  · have h2 : Cfl.hysteresis p.dt (S.limit p.u) = p.dt := by
      have := congrArg Phys.dt h
      simpa [cfl, hc] using this
    unfold cfl
    simp only [hc, if_true, compute_dt, compute_u, h2]
    unfold compute
    split <;> rfl
  · simp [cfl, hc]

/-- Two simulations which are going to do the same things. -/
def Rel (S : Solver K U F) (a : Phys K U F) (b : Phys K U F) : Prop :=
  compute S (cfl S a) = compute S (cfl S b) ∧ a.dt = b.dt

theorem Rel.refl (S : Solver K U F) (a : Phys K U F) : Rel S a a := ⟨rfl, rfl⟩

theorem Rel.symm {S : Solver K U F} {a b : Phys K U F} (h : Rel S a b) : Rel S b a :=
  ⟨h.1.symm, h.2.symm⟩

theorem Rel.trans {S : Solver K U F} {a b c : Phys K U F} (h : Rel S a b) (h' : Rel S b c) :
    Rel S a c := ⟨h.1.trans h'.1, h.2.trans h'.2⟩

theorem Rel.u {S : Solver K U F} {a b : Phys K U F} (h : Rel S a b) : a.u = b.u := by
  have := congrArg Phys.u h.1; simpa only [compute_u, cfl_u] using this
theorem Rel.t {S : Solver K U F} {a b : Phys K U F} (h : Rel S a b) : a.t = b.t := by
  have := congrArg Phys.t h.1; simpa only [compute_t, cfl_t] using this
theorem Rel.it {S : Solver K U F} {a b : Phys K U F} (h : Rel S a b) : a.it = b.it := by
  have := congrArg Phys.it h.1; simpa only [compute_it, cfl_it] using this
theorem Rel.stop {S : Solver K U F} {a b : Phys K U F} (h : Rel S a b) : a.stop = b.stop := by
  have := congrArg Phys.stop h.1; simpa only [compute_stop, cfl_stop] using this

/-- Computing the forcing in advance, when the increment is the one of the state. -/
theorem rel_ahead [IsStrictOrderedRing K] (S : Solver K U F) (p : Phys K U F) (h : cfl S p = p) :
    Rel S (compute S p) p :=
  ⟨by rw [cfl_compute S p h, h, compute_idem], compute_dt S p⟩

/-- Computing the forcing in advance, when it does not depend on the increment. -/
theorem rel_ahead_free (S : Solver K U F) (p : Phys K U F)
    (h : ∀ t d d' u f, S.maker t d u f = S.maker t d' u f) : Rel S (compute S p) p := by
  refine ⟨?_, compute_dt S p⟩
  by_cases hd : (S.forced && due p) = true
  · have e : ∀ q : Phys K U F, (cfl S q).last = q.last := by intro q; unfold cfl; split <;> rfl
    have e' : ∀ q : Phys K U F, due (cfl S q) = due q := by
      intro q; unfold due; rw [e, cfl_t]
    rw [compute_of S (cfl S p) (by rw [e', hd]), compute_not, compute_of S p hd]
    · unfold cfl
      split
      · simp only [Phys.mk.injEq, true_and]
        exact h _ _ _ _ _
      · rfl
    · rw [e', compute_of S p hd, due_at _ rfl, Bool.and_false]
  · rw [Bool.not_eq_true] at hd
    rw [compute_not S p hd]

theorem oneStep_phys (S : Solver K U F) (A : Outputs K U F O₁) (B : Outputs K U F O₂)
    (sg : ℕ → Bool) (a : Sim K U F O₁) (b : Sim K U F O₂) (h : Rel S a.phys b.phys) :
    (oneStep S A sg a).phys = (oneStep S B sg b).phys := by
  simp only [oneStep, h.1]

theorem goesOn_rel {S : Solver K U F} {a b : Phys K U F} (h : Rel S a b) (e : K ⊕ ℕ) :
    goesOn e a = goesOn e b := by
  unfold goesOn
  rw [h.t, h.it, h.stop]

theorem loop_rel (S : Solver K U F) (A : Outputs K U F O₁) (B : Outputs K U F O₂)
    (sg : ℕ → Bool) (e : K ⊕ ℕ) (n : ℕ) : ∀ (a : Sim K U F O₁) (b : Sim K U F O₂),
    Rel S a.phys b.phys → Rel S (loop S A sg e n a).phys (loop S B sg e n b).phys := by
  induction n with
  | zero => intro a b h; exact h
  | succ n ih =>
    intro a b h
    simp only [loop, goesOn_rel h]
    split
    · apply ih
      rw [oneStep_phys S A B sg a b h]
      exact Rel.refl S _
    · exact h

/-- Once a step has been made, nothing is different, the forcing included. -/
theorem loop_eq (S : Solver K U F) (A : Outputs K U F O₁) (B : Outputs K U F O₂)
    (sg : ℕ → Bool) (e : K ⊕ ℕ) (n : ℕ) : ∀ (a : Sim K U F O₁) (b : Sim K U F O₂),
    a.phys = b.phys → (loop S A sg e n a).phys = (loop S B sg e n b).phys := by
  induction n with
  | zero => intro a b h; exact h
  | succ n ih =>
    intro a b h
    simp only [loop, h]
    split
    · apply ih
      exact oneStep_phys S A B sg a b (h ▸ Rel.refl S _)
    · exact h

theorem initWith_rel [IsStrictOrderedRing K] (S : Solver K U F) (A : Outputs K U F O₁)
    (p : Phys K U F) (o : O₁) : Rel S (initWith S A ⟨p, o, false⟩).phys (cfl S p) := by
  simp only [initWith, Bool.false_eq_true, if_false]
  by_cases h : A.save
  · simp only [h, if_true]
    exact rel_ahead S _ (cfl_idem S p)
  · simp only [h, Bool.false_eq_true, if_false]
    exact Rel.refl S _

theorem initWith_ready (S : Solver K U F) (A : Outputs K U F O₁) (s : Sim K U F O₁) :
    (initWith S A s).ready = true := by
  unfold initWith; split <;> simp_all

theorem initWith_of_ready (S : Solver K U F) (A : Outputs K U F O₁) (s : Sim K U F O₁)
    (h : s.ready = true) : initWith S A s = s := by
  simp [initWith, h]

/-- The loop of the constructed simulation starts from a state which is equivalent to the state after
the first computation of the increment. -/
theorem first_rel [IsStrictOrderedRing K] (S : Solver K U F) (A : Outputs K U F O₁)
    (p : Phys K U F) (o : O₁) (i j : Bool) :
    Rel S (initWith S A (postInit S A p o i j)).phys (cfl S p) := by
  unfold postInit
  split
  · rw [initWith_of_ready S A _ (initWith_ready S A _)]
    exact initWith_rel S A p o
  · exact initWith_rel S A p o

theorem mainLoop_rel (S : Solver K U F) (A : Outputs K U F O₁) (B : Outputs K U F O₂)
    (sg : ℕ → Bool) (e : K ⊕ ℕ) (n : ℕ) (a : Sim K U F O₁) (b : Sim K U F O₂)
    (h : Rel S (initWith S A a).phys (initWith S B b).phys) :
    Rel S (mainLoop S A sg e n a).phys (mainLoop S B sg e n b).phys := by
  unfold mainLoop
  apply loop_rel
  split <;> split <;> exact h

theorem loop_ready (S : Solver K U F) (A : Outputs K U F O₁) (sg : ℕ → Bool) (e : K ⊕ ℕ) (n : ℕ) :
    ∀ s : Sim K U F O₁, (loop S A sg e n s).ready = s.ready := by
  induction n with
  | zero => intro s; rfl
  | succ n ih =>
    intro s
    simp only [loop]
    split
    · rw [ih]; rfl
    · rfl

theorem start_ready (S : Solver K U F) (A : Outputs K U F O₁) (sg : ℕ → Bool) (e : K ⊕ ℕ) (n : ℕ)
    (s : Sim K U F O₁) : (start S A sg e n s).ready = true := by
  have h : (mainLoop S A sg e n s).ready = true := by
    unfold mainLoop
    rw [loop_ready]
    split <;> exact initWith_ready S A s
  unfold start endOfSimul
  split <;> exact h

theorem flow_endOfSimul (S : Solver K U F) (A : Outputs K U F O₁) (s : Sim K U F O₁) :
    flow (endOfSimul S A s) = flow s := by
  unfold endOfSimul flow
  split <;> simp [compute_u, compute_t, compute_it, compute_dt, compute_stop]

theorem flow_rel {S : Solver K U F} {a : Sim K U F O₁} {b : Sim K U F O₂}
    (h : Rel S a.phys b.phys) : flow a = flow b := by
  unfold flow
  rw [h.u, h.t, h.it, h.2, h.stop]

theorem endOfSimul_rel (S : Solver K U F) (A : Outputs K U F O₁) (s : Sim K U F O₁)
    (h : S.useCfl = false ∨ ∀ t d d' u f, S.maker t d u f = S.maker t d' u f) :
    Rel S (endOfSimul S A s).phys s.phys := by
  unfold endOfSimul
  split
  · rcases h with h | h
    · refine ⟨?_, compute_dt S _⟩
      simp [cfl, h, compute_idem]
    · exact rel_ahead_free S _ h
  · exact Rel.refl S _

end Verif.NonInterference
