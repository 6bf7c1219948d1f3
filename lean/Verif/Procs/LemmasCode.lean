import Verif.Procs.Lemmas
import Verif.Procs.Code
import Mathlib.Data.List.OfFn
import Mathlib.Tactic.Linarith
import Mathlib.Tactic.FieldSimp

/-!
# Lemmas: rules for the operations, and what blocks
-/

set_option linter.unusedSectionVars false

namespace Verif.Procs

open Function (update)

variable {n : ℕ} {S α β σ : Type} [Inhabited S] {I : S → Prop}

theorem SafeI.bcast (r : Fin n) (v : Fin n → Val) : SafeI (S := S) I (fun a => a = fun _ => v r) fun i => Prog.bcast r (v i) := by
  refine SafeI.coll (.bcast r) v _ ?_
  refine SafeI.ret _ ?_
  funext i
  simp [answers, Kind.needs]

theorem SafeI.allgather (v : Fin n → Val) :
    SafeI (S := S) I (fun a => a = fun _ => (List.finRange n).map v) fun i => Prog.allgather (v i) := by
  refine SafeI.coll .allgather v _ ?_
  refine SafeI.ret _ ?_
  funext i
  simp [answers, Kind.needs]

theorem SafeI.allreduce (op : List Val → Val) (v : Fin n → Val) :
    SafeI (S := S) I (fun a => a = fun _ => op ((List.finRange n).map v)) fun i => Prog.allreduce op (v i) := by
  refine SafeI.coll .allreduce v _ ?_
  refine SafeI.ret _ ?_
  funext i
  simp [answers, Kind.needs]

/-- Accesses of all processes, in any order: each one sees any file system which satisfies `I`. -/
theorem SafeI.accs {Post : (Fin n → α) → Prop} (f : Fin n → S → S) (k : Fin n → S → Prog n S α)
    (h : ∀ s : Fin n → S, (∀ i, I (s i)) → SafeI I Post fun i => k i (s i)) : SafeI I Post fun i => .acc (f i) (k i) := by
  classical
  have main : ∀ (T : Finset (Fin n)) (s : Fin n → S), (∀ i, i ∉ T → I (s i)) →
      SafeI I Post fun i => if i ∈ T then .acc (f i) (k i) else k i (s i) := by
    intro T
    induction T using Finset.induction_on with
    | empty =>
      intro s hs
      simpa using h s fun i => hs i (by simp)
    | insert a T ha ih =>
      intro s hs
      refine SafeI.acc a (f := f a) (k := k a) (by simp) ?_
      intro s' hs'
      have := ih (update s a s') (by
        intro i hi
        by_cases hia : i = a
        · subst hia; simpa using hs'
        · simpa [hia] using hs i (by simp [hia, hi]))
      convert this using 1
      funext i
      by_cases hi : i = a
      · subst hi; simp [ha]
      · simp [hi]
  simpa using main Finset.univ (fun _ => default) (by simp)

/-- One access of one process; the others go on. -/
theorem SafeI.acc0 {Post : (Fin n → α) → Prop} (r : Fin n) (f : S → S) (k : S → Prog n S α) (p : Fin n → Prog n S α)
    (h : ∀ s, I s → SafeI I Post fun i => if i = r then k s else p i) :
    SafeI I Post fun i => if i = r then .acc f k else p i := by
  refine SafeI.acc r (f := f) (k := k) (by simp) ?_
  intro s hs
  convert h s hs using 1
  funext i
  by_cases hi : i = r
  · subst hi; simp
  · simp [hi]

/-- One message. -/
theorem SafeI.oneMsg {Post : (Fin n → α) → Prop} (p : Fin n → Prog n S α) (i j : Fin n) (t : ℕ) (v : Val) (x : α) (y : Val → α)
    (z : Fin n → α) (hij : i ≠ j) (hi : p i = .send j t v (.ret x)) (hj : p j = .recv i t fun v => .ret (y v))
    (hz : ∀ l, l ≠ i → l ≠ j → p l = .ret (z l)) (h : Post fun l => if l = i then x else if l = j then y v else z l) :
    SafeI I Post p := by
  refine SafeI.msg i j hi hj ?_
  have e : update (update p i (.ret x)) j (.ret (y v)) = fun l => .ret (if l = i then x else if l = j then y v else z l) := by
    funext l
    by_cases h1 : l = i
    · subst h1; simp [hij]
    · by_cases h2 : l = j
      · subst h2; simp [h1]
      · simp [h1, h2, hz l h1 h2]
  rw [e]
  exact SafeI.ret _ h

theorem SafeI.collectOne [NeZero n] (owner : Fin n) (tag : ℕ) (v : Fin n → Val) :
    SafeI (S := S) I (fun a => a = fun i => if i = 0 then v owner else .unit) fun i => collectOne i owner tag (v i) := by
  by_cases ho : owner = 0
  · subst ho
    have e : (fun i => Verif.Procs.collectOne (S := S) i (0 : Fin n) tag (v i)) = fun i => .ret (if i = 0 then v 0 else .unit) := by
      funext i
      by_cases hi : i = 0 <;> simp [Verif.Procs.collectOne, hi]
    rw [e]
    exact SafeI.ret _ rfl
  · refine SafeI.oneMsg _ owner 0 tag (v owner) .unit id (fun _ => .unit) ho ?_ ?_ ?_ ?_
    · simp [Verif.Procs.collectOne, ho]
    · simp only [Verif.Procs.collectOne, ne_eq, ho, not_false_eq_true, if_true, Ne.symm ho, if_false, id]
    · intro l h1 h2
      simp [Verif.Procs.collectOne, ho, h1, h2]
    · funext l
      by_cases h2 : l = 0
      · subst h2
        simp [Ne.symm ho]
      · simp [h2]

theorem SafeI.distributeOne [NeZero n] (owner : Fin n) (tag : ℕ) (v : Fin n → Val) :
    SafeI (S := S) I (fun a => a owner = v 0) fun i => distributeOne i owner tag (v i) := by
  by_cases ho : owner = 0
  · subst ho
    have e : (fun i => Verif.Procs.distributeOne (S := S) i (0 : Fin n) tag (v i))
        = fun i => .ret (if i = 0 then v 0 else .unit) := by
      funext i
      by_cases hi : i = 0 <;> simp [Verif.Procs.distributeOne, hi]
    rw [e]
    exact SafeI.ret _ (by simp)
  · refine SafeI.oneMsg _ 0 owner tag (v 0) .unit id (fun _ => .unit) (Ne.symm ho) ?_ ?_ ?_ ?_
    · simp [Verif.Procs.distributeOne, ho]
    · simp only [Verif.Procs.distributeOne, ne_eq, ho, not_false_eq_true, if_true, if_false, id]
    · intro l h1 h2
      simp [Verif.Procs.distributeOne, ho, h1, h2]
    · simp [ho]

/-- Where a mode is: the memory and then the first process which has it. -/
def located (holds : Fin n → K3 → Bool) (loc : Fin n → K3 → List ℚ) (k : K3) : Option (Fin n × List ℚ) :=
  ((List.finRange n).find? fun j => holds j k).map fun r => (r, loc r k)

theorem SafeI.whereIs (holds : Fin n → K3 → Bool) (loc : Fin n → K3 → List ℚ) (k : K3) (cache : List (K3 × Fin n × List ℚ)) :
    SafeI (S := S) I (fun a => ∀ i, a i = match cache.lookup k with
      | some r => (some r, cache)
      | none => match located holds loc k with
        | none => (none, cache)
        | some r => (some r, (k, r) :: cache)) fun i => whereIs holds loc i k cache := by
  cases hc : cache.lookup k with
  | some r =>
    simp only [Verif.Procs.whereIs, hc]
    exact SafeI.ret _ fun _ => rfl
  | none =>
    simp only [Verif.Procs.whereIs, hc]
    refine (SafeI.allgather fun i => .bool (holds i k)).bind ?_
    rintro _ rfl
    have hf : ((List.finRange n).find? fun i => ((((List.finRange n).map fun i => Val.bool (holds i k))[i.val]?).getD .unit).toB)
        = (List.finRange n).find? fun j => holds j k := by
      congr 1
      funext i
      simp [Val.toB]
    simp only [hf]
    cases hr : (List.finRange n).find? fun j => holds j k with
    | none =>
      simp only [located, hr, Option.map_none]
      exact SafeI.ret _ fun _ => rfl
    | some r =>
      simp only [located, hr, Option.map_some]
      refine (SafeI.bcast r fun i => if i = r then .arr (loc i k) else .unit).bind ?_
      rintro _ rfl
      refine SafeI.ret _ ?_
      intro i
      simp [Val.toArr]

/-! ### Blocking -/

/-- A process which waits for the data of a process which has ended never ends. -/
theorem stuck {p : Fin n → Prog n S α} {fs : S} {i r : Fin n} (c : Kind n) (hr : Ended (p r)) (hi : ∃ v k, p i = .coll c v k)
    (hn : c.needs i r = true) : NeverCompletes p fs := by
  obtain ⟨v, k, hi⟩ := hi
  have inv : ∀ a x, a = start fs p → Reach a x → x.p r = p r ∧ x.log r = [] ∧
      ((x.p i = .coll c v k ∧ x.log i = []) ∨ (x.p i = .wait c k ∧ (x.log i).length = 1)) := by
    intro a x e hx
    induction hx with
    | refl =>
      subst e
      exact ⟨rfl, rfl, .inl ⟨hi, rfl⟩⟩
    | step b d _ hs ih =>
      obtain ⟨h1, h2, h3⟩ := ih
      cases hs with
      | acc gs q log j f k' h =>
        dsimp only at h1 h2 h3 ⊢
        have hjr : r ≠ j := by rintro rfl; rw [h1] at h; rw [h] at hr; exact hr
        have hji : i ≠ j := by rintro rfl; rcases h3 with h3 | h3 <;> simp [h3.1] at h
        rw [Function.update_of_ne hjr, Function.update_of_ne hji]
        exact ⟨h1, h2, h3⟩
      | enter gs q log j c' v' k' h =>
        dsimp only at h1 h2 h3 ⊢
        have hjr : r ≠ j := by rintro rfl; rw [h1] at h; rw [h] at hr; exact hr
        rw [Function.update_of_ne hjr, Function.update_of_ne hjr]
        refine ⟨h1, h2, ?_⟩
        by_cases hji : i = j
        · subst hji
          rcases h3 with h3 | h3
          · rw [h3.1] at h
            injection h with e1 e2 e3
            subst e1 e2 e3
            refine .inr ⟨by simp, by simp [h3.2]⟩
          · simp [h3.1] at h
        · rw [Function.update_of_ne hji, Function.update_of_ne hji]
          exact h3
      | leave gs q log j c' k' ans h hrdy =>
        dsimp only at h1 h2 h3 ⊢
        have hjr : r ≠ j := by rintro rfl; rw [h1] at h; rw [h] at hr; exact hr
        have hji : i ≠ j := by
          rintro rfl
          rcases h3 with h3 | h3
          · simp [h3.1] at h
          · rw [h3.1] at h
            injection h with e1 e2
            subst e1
            have := hrdy r
            simp [hn, h2] at this
        rw [Function.update_of_ne hjr, Function.update_of_ne hji]
        exact ⟨h1, h2, h3⟩
      | msg gs q log j l t v' k1 k2 hj hl =>
        dsimp only at h1 h2 h3 ⊢
        have hjr : r ≠ j := by rintro rfl; rw [h1] at hj; rw [hj] at hr; exact hr
        have hlr : r ≠ l := by rintro rfl; rw [h1] at hl; rw [hl] at hr; exact hr
        have hji : i ≠ j := by rintro rfl; rcases h3 with h3 | h3 <;> simp [h3.1] at hj
        have hli : i ≠ l := by rintro rfl; rcases h3 with h3 | h3 <;> simp [h3.1] at hl
        rw [Function.update_of_ne hlr, Function.update_of_ne hjr, Function.update_of_ne hli, Function.update_of_ne hji]
        exact ⟨h1, h2, h3⟩
  intro x hx
  refine ⟨i, ?_⟩
  rcases (inv _ x rfl hx).2.2 with h | h <;> simp [h.1, Ended]

end Verif.Procs
