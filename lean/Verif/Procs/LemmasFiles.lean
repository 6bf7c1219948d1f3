import Verif.Procs.LemmasCode

/-!
# The files at the end of a run where only one process changes them
-/

set_option linter.unusedSectionVars false

namespace Verif.Procs

open Function

variable {n : ℕ} {S α : Type}

/-- When process `r` ends, its result and the files satisfy `Q`, if only this process changes the files. -/
def Alone (Q : α → S → Prop) (r : Fin n) : Prog n S α → S → Prop
  | .ret a, s => Q a s
  | .err _, _ => True
  | .acc f k, s => Alone Q r (k s) (f s)
  | .coll c v k, s => ∀ ans, (c.needs r r = true → ans r = some v) → Alone Q r (k ans) s
  | .wait _ _, _ => False
  | .send _ _ _ k, s => Alone Q r k s
  | .recv _ _ k, s => ∀ v, Alone Q r (k v) s

/-- The process does not change the files. -/
def ReadOnly : Prog n S α → Prop
  | .ret _ => True
  | .err _ => True
  | .acc f k => f = id ∧ ∀ s, ReadOnly (k s)
  | .coll _ _ k => ∀ a, ReadOnly (k a)
  | .wait _ k => ∀ a, ReadOnly (k a)
  | .send _ _ _ k => ReadOnly k
  | .recv _ _ k => ∀ v, ReadOnly (k v)

/-- What is known of process `r` during the run. -/
def AloneAt (Q : α → S → Prop) (r : Fin n) (q : Prog n S α) (l : List (Kind n × Val)) (s : S) : Prop :=
  Alone Q r q s ∨ ∃ k0 k v, q = .wait k0 k ∧ l.getLast? = some (k0, v) ∧
    ∀ ans, (k0.needs r r = true → ans r = some v) → Alone Q r (k ans) s

theorem AloneAt.step {Q : α → S → Prop} {r : Fin n} {c d : Config n S α} (h : Step c d)
    (ho : ∀ i, i ≠ r → ReadOnly (c.p i)) (ha : AloneAt Q r (c.p r) (c.log r) c.fs) :
    (∀ i, i ≠ r → ReadOnly (d.p i)) ∧ AloneAt Q r (d.p r) (d.log r) d.fs := by
  have upd : ∀ (p : Fin n → Prog n S α) (i : Fin n) (q : Prog n S α), (∀ i, i ≠ r → ReadOnly (p i)) →
      (i ≠ r → ReadOnly q) → ∀ j, j ≠ r → ReadOnly (update p i q j) := by
    intro p i q hp hq j hjr
    by_cases hj : j = i
    · subst hj; simpa using hq hjr
    · simpa [hj] using hp j hjr
  cases h with
  | acc fs p log i f k h =>
    dsimp only at ho ha ⊢
    by_cases hi : i = r
    · subst hi
      refine ⟨upd p i _ ho fun h => absurd rfl h, ?_⟩
      rw [h] at ha
      rcases ha with ha | ⟨_, _, _, h', _⟩
      · rw [update_self]; exact .inl ha
      · cases h'
    · have h1 := ho i hi
      rw [h] at h1
      refine ⟨upd p i _ ho fun _ => h1.2 fs, ?_⟩
      rw [update_of_ne (Ne.symm hi), h1.1]
      exact ha
  | enter fs p log i c v k h =>
    dsimp only at ho ha ⊢
    by_cases hi : i = r
    · subst hi
      refine ⟨upd p i _ ho fun h => absurd rfl h, ?_⟩
      rw [h] at ha
      rcases ha with ha | ⟨_, _, _, h', _⟩
      · rw [update_self, update_self]; exact .inr ⟨c, k, v, rfl, by simp, ha⟩
      · cases h'
    · have h1 := ho i hi
      rw [h] at h1
      refine ⟨upd p i _ ho fun _ => h1, ?_⟩
      rw [update_of_ne (Ne.symm hi), update_of_ne (Ne.symm hi)]
      exact ha
  | leave fs p log i c k ans h hr =>
    dsimp only at ho ha ⊢
    by_cases hi : i = r
    · subst hi
      refine ⟨upd p i _ ho fun h => absurd rfl h, ?_⟩
      rw [h] at ha
      rcases ha with ha | ⟨k0, k', v, h', hl, hk⟩
      · exact ha.elim
      · cases h'
        rw [update_self]
        refine .inl (hk ans fun hn => ?_)
        have := hr i
        rw [if_pos hn] at this
        obtain ⟨w, hw, e⟩ := this
        rw [List.getLast?_eq_getElem?] at hl
        rw [hl] at hw
        cases hw
        exact e
    · have h1 := ho i hi
      rw [h] at h1
      refine ⟨upd p i _ ho fun _ => h1 ans, ?_⟩
      rw [update_of_ne (Ne.symm hi)]
      exact ha
  | msg fs p log i j t v k k' hi hj =>
    dsimp only at ho ha ⊢
    have hij : i ≠ j := by rintro rfl; rw [hi] at hj; cases hj
    have h1 : i ≠ r → ReadOnly k := fun h => by have := ho i h; rw [hi] at this; exact this
    have h2 : j ≠ r → ReadOnly (k' v) := fun h => by have := ho j h; rw [hj] at this; exact this v
    refine ⟨upd _ j _ (upd p i _ ho h1) h2, ?_⟩
    by_cases hir : i = r
    · subst hir
      rw [update_of_ne hij, update_self]
      rw [hi] at ha
      rcases ha with ha | ⟨_, _, _, h', _⟩
      · exact .inl ha
      · cases h'
    · by_cases hjr : j = r
      · subst hjr
        rw [update_self]
        rw [hj] at ha
        rcases ha with ha | ⟨_, _, _, h', _⟩
        · exact .inl (ha v)
        · cases h'
      · rw [update_of_ne (Ne.symm hjr), update_of_ne (Ne.symm hir)]
        exact ha

/-- The result of process `r` and the files at the end of a run where only this process changes the files. -/
theorem Alone.finished {Q : α → S → Prop} {r : Fin n} {p : Fin n → Prog n S α} {fs : S}
    (ho : ∀ i, i ≠ r → ReadOnly (p i)) (ha : Alone Q r (p r) fs) {c : Config n S α} {a : Fin n → α}
    (hr : Reach (start fs p) c) (hf : Finished c a) : Q (a r) c.fs := by
  have key : ∀ c, Reach (start fs p) c →
      (∀ i, i ≠ r → ReadOnly (c.p i)) ∧ AloneAt Q r (c.p r) (c.log r) c.fs := by
    intro c hc
    generalize hs : start fs p = s0 at hc
    induction hc with
    | refl => subst hs; exact ⟨ho, .inl ha⟩
    | step b c _ hs' ih => exact AloneAt.step hs' ih.1 ih.2
  have h2 := (key c hr).2
  rw [hf r] at h2
  rcases h2 with h | ⟨_, _, _, h', _⟩
  · exact h
  · cases h'

theorem Alone.imp {Q Q' : α → S → Prop} {r : Fin n} (h : ∀ a s, Q a s → Q' a s) {q : Prog n S α} :
    ∀ {s : S}, Alone Q r q s → Alone Q' r q s := by
  induction q with
  | ret a => intro s; exact h a s
  | err => intro s _; trivial
  | acc f k ih => intro s; exact ih s
  | coll c v k ih => intro s hs ans ha; exact ih ans (hs ans ha)
  | wait => intro s hs; exact hs
  | send d t v k ih => intro s; exact ih
  | recv d t k ih => intro s hs v; exact ih v (hs v)

theorem Alone.bind {β : Type} {Q : β → S → Prop} {r : Fin n} {q : Prog n S α} {g : α → Prog n S β} :
    ∀ {s : S}, Alone (fun a s => Alone Q r (g a) s) r q s → Alone Q r (q.bind g) s := by
  induction q with
  | ret a => intro s h; exact h
  | err => intro s _; trivial
  | acc f k ih => intro s; exact ih s
  | coll c v k ih => intro s hs ans ha; exact ih ans (hs ans ha)
  | wait => intro s hs; exact hs
  | send d t v k ih => intro s; exact ih
  | recv d t k ih => intro s hs v; exact ih v (hs v)

theorem ReadOnly.bind {β : Type} {q : Prog n S α} {g : α → Prog n S β} (hq : ReadOnly q) (hg : ∀ a, ReadOnly (g a)) :
    ReadOnly (q.bind g) := by
  induction q with
  | ret a => exact hg a
  | err => trivial
  | acc f k ih => exact ⟨hq.1, fun s => ih s (hq.2 s)⟩
  | coll c v k ih => exact fun a => ih a (hq a)
  | wait c k ih => exact fun a => ih a (hq a)
  | send d t v k ih => exact ih hq
  | recv d t k ih => exact fun v => ih v (hq v)

theorem ReadOnly.loop {β σ : Type} (l : List β) (body : β → σ → Prog n S σ) (h : ∀ x s, ReadOnly (body x s)) (s : σ) :
    ReadOnly (Prog.loop l body s) := by
  induction l generalizing s with
  | nil => trivial
  | cons x l ih => exact (h x s).bind ih

theorem Alone.gatherFields [NeZero n] (nf : ℕ) (me r : Fin n) (field : ℕ → List ℚ) (Q : List (List Val) → S → Prop) (s : S)
    (hQ : ∀ l, Q l s) : Alone Q r (gatherFields nf me field) s := by
  have main : ∀ (vs : List ℕ) (l0 : List (List Val)), Alone Q r (Prog.loop vs (fun v acc =>
      (.coll (.gather 0) (.arr (field v)) fun a =>
        .ret (acc ++ [if me = 0 then (List.finRange n).map fun i => (a i).getD .unit else []]))) l0) s := by
    intro vs
    induction vs with
    | nil => intro l0; exact hQ l0
    | cons v vs ih => intro l0 ans _; exact ih _
  exact main _ _

theorem ReadOnly.gatherFields [NeZero n] (nf : ℕ) (me : Fin n) (field : ℕ → List ℚ) :
    ReadOnly (gatherFields nf me field : Prog n S (List (List Val))) :=
  by
  unfold Procs.gatherFields
  refine ReadOnly.loop _ _ ?_ _
  intro v l a
  trivial

end Verif.Procs
