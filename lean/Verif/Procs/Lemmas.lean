import Verif.Procs.Spec
import Mathlib.Data.Finset.Basic
import Mathlib.Data.Fintype.Basic

/-!
# Lemmas: a run which completes in one order completes in all orders

`LStep` is the step relation without the file system (an access can see any file system). Two different moves which are
possible at the same time concern different processes and commute (`diamond`). `Good` says that a run completes for one choice
of the order of the moves; it is preserved by every step (`Good.step`), and implies that there is no infinite execution
(`Good.accessible`).
-/

set_option linter.unusedSectionVars false

namespace Verif.Procs

open Function (update)

variable {n : ℕ} {S α β σ : Type}

/-- Programs and operations entered. -/
abbrev PL (n : ℕ) (S α : Type) := (Fin n → Prog n S α) × (Fin n → List (Kind n × Val))

/-- The moves. -/
inductive Move (n : ℕ)
  | acc (i : Fin n)
  | enter (i : Fin n)
  | leave (i : Fin n)
  | msg (i j : Fin n)
  deriving DecidableEq

/-- A move; `s` is the file system seen by an access. -/
inductive LStep : Move n → S → PL n S α → PL n S α → Prop
  | acc (s : S) (x : PL n S α) (i f k) (h : x.1 i = .acc f k) : LStep (.acc i) s x (update x.1 i (k s), x.2)
  | enter (s : S) (x : PL n S α) (i c v k) (h : x.1 i = .coll c v k) :
      LStep (.enter i) s x (update x.1 i (.wait c k), update x.2 i (x.2 i ++ [(c, v)]))
  | leave (s : S) (x : PL n S α) (i c k ans) (h : x.1 i = .wait c k) (hr : Ready x.2 i c ans) :
      LStep (.leave i) s x (update x.1 i (k ans), x.2)
  | msg (s : S) (x : PL n S α) (i j t v k k') (hi : x.1 i = .send j t v k) (hj : x.1 j = .recv i t k') :
      LStep (.msg i j) s x (update (update x.1 i k) j (k' v), x.2)

theorem Ready.unique {log : Fin n → List (Kind n × Val)} {i c a b} (ha : Ready log i c a) (hb : Ready log i c b) : a = b := by
  funext j
  have h1 := ha j
  have h2 := hb j
  by_cases hn : c.needs i j
  · simp only [hn, if_true] at h1 h2
    obtain ⟨v, e1, e2⟩ := h1
    obtain ⟨w, e3, e4⟩ := h2
    rw [e1] at e3
    simp only [Option.some.injEq, Prod.mk.injEq, true_and] at e3
    rw [e2, e4, e3]
  · simp only [hn] at h1 h2
    simp_all

theorem LStep.det {m : Move n} {s : S} {x y z : PL n S α} (h : LStep m s x y) (h' : LStep m s x z) : y = z := by
  cases h with
  | acc s x i f k h =>
    cases h' with
    | acc _ _ _ f' k' h' =>
      rw [h] at h'
      injection h' with h1 h2
      subst h2
      rfl
  | enter s x i c v k h =>
    cases h' with
    | enter _ _ _ c' v' k' h' =>
      rw [h] at h'
      injection h' with h1 h2 h3
      subst h1 h2 h3
      rfl
  | leave s x i c k ans h hr =>
    cases h' with
    | leave _ _ _ c' k' ans' h' hr' =>
      rw [h] at h'
      injection h' with h1 h2
      subst h1 h2
      rw [hr.unique hr']
  | msg s x i j t v k k1 hi hj =>
    cases h' with
    | msg _ _ _ _ t' v' k' k1' hi' hj' =>
      rw [hi] at hi'
      rw [hj] at hj'
      injection hi' with h1 h2 h3 h4
      injection hj' with h5 h6 h7
      subst h3 h4 h7
      rfl

/-- A move which is possible is possible whatever the file system. -/
theorem LStep.other {m : Move n} {s : S} {x y : PL n S α} (h : LStep m s x y) (s' : S) : ∃ z, LStep m s' x z := by
  cases h with
  | acc s x i f k h => exact ⟨_, .acc s' x i f k h⟩
  | enter s x i c v k h => exact ⟨_, .enter s' x i c v k h⟩
  | leave s x i c k ans h hr => exact ⟨_, .leave s' x i c k ans h hr⟩
  | msg s x i j t v k k1 hi hj => exact ⟨_, .msg s' x i j t v k k1 hi hj⟩

/-- Entering an operation keeps what the other processes receive. -/
theorem Ready.enter {log : Fin n → List (Kind n × Val)} {i j : Fin n} (hij : i ≠ j) {c ans e} (h : Ready log i c ans) :
    Ready (update log j (log j ++ [e])) i c ans := by
  intro l
  have hl := h l
  rw [Function.update_of_ne hij]
  by_cases hn : c.needs i l
  · simp only [hn, if_true] at hl ⊢
    obtain ⟨v, e1, e2⟩ := hl
    refine ⟨v, ?_, e2⟩
    by_cases hj : l = j
    · subst hj
      rw [Function.update_self]
      have hlt := (List.getElem?_eq_some_iff.1 e1).1
      rw [List.getElem?_append_left hlt]
      exact e1
    · rw [Function.update_of_ne hj]
      exact e1
  · simp only [hn] at hl ⊢
    exact hl

/-- Two different moves commute. -/
theorem diamond {m m' : Move n} (hm : m ≠ m') {s s' : S} {x y z : PL n S α} (h : LStep m s x y) (h' : LStep m' s' x z) :
    ∃ w, LStep m s z w ∧ LStep m' s' y w := by
  have key : ∀ (p : Fin n → Prog n S α) (i j : Fin n) (a b : Prog n S α), i ≠ j →
      update (update p j b) i a = update (update p i a) j b := fun p i j a b hij => Function.update_comm hij.symm _ _ _
  have key2 : ∀ (p : Fin n → List (Kind n × Val)) (i j : Fin n) (a b : List (Kind n × Val)), i ≠ j →
      update (update p j b) i a = update (update p i a) j b := fun p i j a b hij => Function.update_comm hij.symm _ _ _
  cases h with
  | acc s x i f k h =>
    cases h' with
    | acc _ _ j f' k' h' =>
      have hij : i ≠ j := fun e => hm (by rw [e])
      exact ⟨_, .acc s _ i f k (by simp [hij, h]), by
        have := LStep.acc s' (update x.1 i (k s), x.2) j f' k' (by simp [Ne.symm hij, h'])
        rw [← key _ _ _ _ _ hij] at this
        exact this⟩
    | enter _ _ j c v k' h' =>
      have hij : i ≠ j := by rintro rfl; rw [h] at h'; cases h'
      exact ⟨_, .acc s _ i f k (by simp [hij, h]), by
        have := LStep.enter s' (update x.1 i (k s), x.2) j c v k' (by simp [Ne.symm hij, h'])
        rw [← key _ _ _ _ _ hij] at this
        exact this⟩
    | leave _ _ j c k' ans h' hr =>
      have hij : i ≠ j := by rintro rfl; rw [h] at h'; cases h'
      exact ⟨_, .acc s _ i f k (by simp [hij, h]), by
        have := LStep.leave s' (update x.1 i (k s), x.2) j c k' ans (by simp [Ne.symm hij, h']) hr
        rw [← key _ _ _ _ _ hij] at this
        exact this⟩
    | msg _ _ j l t v k1 k2 h1 h2 =>
      have hij : i ≠ j := by rintro rfl; rw [h] at h1; cases h1
      have hil : i ≠ l := by rintro rfl; rw [h] at h2; cases h2
      exact ⟨_, .acc s _ i f k (by simp [hij, hil, h]), by
        have := LStep.msg s' (update x.1 i (k s), x.2) j l t v k1 k2 (by simp [Ne.symm hij, h1]) (by simp [Ne.symm hil, h2])
        dsimp only at this ⊢
        rw [← key _ _ _ _ _ hij, ← key _ _ _ _ _ hil] at this
        exact this⟩
  | enter s x i c v k h =>
    cases h' with
    | acc _ _ j f' k' h' =>
      have hij : i ≠ j := by rintro rfl; rw [h] at h'; cases h'
      exact ⟨_, .enter s _ i c v k (by simp [hij, h]), by
        have := LStep.acc s' (update x.1 i (.wait c k), update x.2 i (x.2 i ++ [(c, v)])) j f' k' (by simp [Ne.symm hij, h'])
        rw [← key _ _ _ _ _ hij] at this
        exact this⟩
    | enter _ _ j c' v' k' h' =>
      have hij : i ≠ j := fun e => hm (by rw [e])
      exact ⟨_, .enter s _ i c v k (by simp [hij, h]), by
        have := LStep.enter s' (update x.1 i (.wait c k), update x.2 i (x.2 i ++ [(c, v)])) j c' v' k'
          (by simp [Ne.symm hij, h'])
        dsimp only at this ⊢
        rw [Function.update_of_ne hij.symm] at this
        rw [Function.update_of_ne hij, key _ _ _ _ _ hij, key2 _ _ _ _ _ hij]
        exact this⟩
    | leave _ _ j c' k' ans h' hr =>
      have hij : i ≠ j := by rintro rfl; rw [h] at h'; cases h'
      exact ⟨_, .enter s _ i c v k (by simp [hij, h]), by
        have := LStep.leave s' (update x.1 i (.wait c k), update x.2 i (x.2 i ++ [(c, v)])) j c' k' ans
          (by simp [Ne.symm hij, h']) (hr.enter hij.symm)
        rw [← key _ _ _ _ _ hij] at this
        exact this⟩
    | msg _ _ j l t v' k1 k2 h1 h2 =>
      have hij : i ≠ j := by rintro rfl; rw [h] at h1; cases h1
      have hil : i ≠ l := by rintro rfl; rw [h] at h2; cases h2
      exact ⟨_, .enter s _ i c v k (by simp [hij, hil, h]), by
        have := LStep.msg s' (update x.1 i (.wait c k), update x.2 i (x.2 i ++ [(c, v)])) j l t v' k1 k2
          (by simp [Ne.symm hij, h1]) (by simp [Ne.symm hil, h2])
        dsimp only at this ⊢
        rw [← key _ _ _ _ _ hij, ← key _ _ _ _ _ hil] at this
        exact this⟩
  | leave s x i c k ans h hr =>
    cases h' with
    | acc _ _ j f' k' h' =>
      have hij : i ≠ j := by rintro rfl; rw [h] at h'; cases h'
      exact ⟨_, .leave s _ i c k ans (by simp [hij, h]) hr, by
        have := LStep.acc s' (update x.1 i (k ans), x.2) j f' k' (by simp [Ne.symm hij, h'])
        rw [← key _ _ _ _ _ hij] at this
        exact this⟩
    | enter _ _ j c' v' k' h' =>
      have hij : i ≠ j := by rintro rfl; rw [h] at h'; cases h'
      exact ⟨_, .leave s _ i c k ans (by simp [hij, h]) (hr.enter hij), by
        have := LStep.enter s' (update x.1 i (k ans), x.2) j c' v' k' (by simp [Ne.symm hij, h'])
        rw [← key _ _ _ _ _ hij] at this
        exact this⟩
    | leave _ _ j c' k' ans' h' hr' =>
      have hij : i ≠ j := fun e => hm (by rw [e])
      exact ⟨_, .leave s _ i c k ans (by simp [hij, h]) hr, by
        have := LStep.leave s' (update x.1 i (k ans), x.2) j c' k' ans' (by simp [Ne.symm hij, h']) hr'
        rw [← key _ _ _ _ _ hij] at this
        exact this⟩
    | msg _ _ j l t v k1 k2 h1 h2 =>
      have hij : i ≠ j := by rintro rfl; rw [h] at h1; cases h1
      have hil : i ≠ l := by rintro rfl; rw [h] at h2; cases h2
      exact ⟨_, .leave s _ i c k ans (by simp [hij, hil, h]) hr, by
        have := LStep.msg s' (update x.1 i (k ans), x.2) j l t v k1 k2 (by simp [Ne.symm hij, h1])
          (by simp [Ne.symm hil, h2])
        dsimp only at this ⊢
        rw [← key _ _ _ _ _ hij, ← key _ _ _ _ _ hil] at this
        exact this⟩
  | msg s x i j t v k k1 hi hj =>
    cases h' with
    | acc _ _ l f' k' h' =>
      have hil : i ≠ l := by rintro rfl; rw [hi] at h'; cases h'
      have hjl : j ≠ l := by rintro rfl; rw [hj] at h'; cases h'
      refine ⟨_, .msg s _ i j t v k k1 (by simp [hil, hi]) (by simp [hjl, hj]), ?_⟩
      have := LStep.acc s' (update (update x.1 i k) j (k1 v), x.2) l f' k' (by simp [Ne.symm hil, Ne.symm hjl, h'])
      dsimp only at this ⊢
      rw [← key _ _ _ _ _ hjl, ← key _ _ _ _ _ hil] at this
      exact this
    | enter _ _ l c' v' k' h' =>
      have hil : i ≠ l := by rintro rfl; rw [hi] at h'; cases h'
      have hjl : j ≠ l := by rintro rfl; rw [hj] at h'; cases h'
      refine ⟨_, .msg s _ i j t v k k1 (by simp [hil, hi]) (by simp [hjl, hj]), ?_⟩
      have := LStep.enter s' (update (update x.1 i k) j (k1 v), x.2) l c' v' k' (by simp [Ne.symm hil, Ne.symm hjl, h'])
      dsimp only at this ⊢
      rw [← key _ _ _ _ _ hjl, ← key _ _ _ _ _ hil] at this
      exact this
    | leave _ _ l c' k' ans' h' hr' =>
      have hil : i ≠ l := by rintro rfl; rw [hi] at h'; cases h'
      have hjl : j ≠ l := by rintro rfl; rw [hj] at h'; cases h'
      refine ⟨_, .msg s _ i j t v k k1 (by simp [hil, hi]) (by simp [hjl, hj]), ?_⟩
      have := LStep.leave s' (update (update x.1 i k) j (k1 v), x.2) l c' k' ans' (by simp [Ne.symm hil, Ne.symm hjl, h'])
        hr'
      dsimp only at this ⊢
      rw [← key _ _ _ _ _ hjl, ← key _ _ _ _ _ hil] at this
      exact this
    | msg _ _ l r t' v' k2 k3 h1 h2 =>
      have hil : i ≠ l := by
        rintro rfl
        rw [hi] at h1
        injection h1 with e
        exact hm (by rw [e])
      have hjr : j ≠ r := by
        rintro rfl
        rw [hj] at h2
        injection h2 with e
        exact hm (by rw [e])
      have hir : i ≠ r := by rintro rfl; rw [hi] at h2; cases h2
      have hjl : j ≠ l := by rintro rfl; rw [hj] at h1; cases h1
      refine ⟨_, .msg s _ i j t v k k1 (by simp [hil, hir, hi]) (by simp [hjl, hjr, hj]), ?_⟩
      have := LStep.msg s' (update (update x.1 i k) j (k1 v), x.2) l r t' v' k2 k3 (by simp [Ne.symm hil, Ne.symm hjl, h1])
        (by simp [Ne.symm hir, Ne.symm hjr, h2])
      dsimp only at this ⊢
      rw [← key _ _ _ _ _ hjl, ← key _ _ _ _ _ hil, ← key _ _ _ _ _ hjr, ← key _ _ _ _ _ hir] at this
      exact this

/-- The processes have entered the same number of operations. -/
def Balanced (log : Fin n → List (Kind n × Val)) : Prop := ∀ i j, (log i).length = (log j).length

/-- The run completes for one choice of the order of the moves, whatever the files contain. -/
inductive Good [Inhabited S] (I : S → Prop) (Post : (Fin n → α) → Prop) : PL n S α → Prop
  | done (x : PL n S α) (a) (h : ∀ i, x.1 i = .ret (a i)) (hp : Post a) (hb : Balanced x.2) : Good I Post x
  | move (x : PL n S α) (m : Move n) (he : ∃ s y, LStep m s x y) (h : ∀ s y, I s → LStep m s x y → Good I Post y) : Good I Post x

variable [Inhabited S] {I : S → Prop}

/-- Every step keeps it. -/
theorem Good.step {Post : (Fin n → α) → Prop} {x : PL n S α} (h : Good I Post x) {m s z} (hI : I s) (hs : LStep m s x z) :
    Good I Post z := by
  induction h generalizing m s z with
  | done x a h hp hb => cases hs <;> simp_all
  | move x m0 he h ih =>
    by_cases hm : m0 = m
    · subst hm
      exact h s z hI hs
    · obtain ⟨s0, y0, h0⟩ := he
      obtain ⟨w, hw, _⟩ := diamond hm h0 hs
      refine .move z m0 ⟨s0, w, hw⟩ ?_
      intro s1 w1 hI1 h1
      obtain ⟨y1, hy1⟩ := h0.other s1
      obtain ⟨w2, h2, h3⟩ := diamond hm hy1 hs
      rw [h1.det h2]
      exact ih s1 y1 hI1 hy1 hI h3

/-- There is no infinite execution. -/
theorem Good.accessible {Post : (Fin n → α) → Prop} {x : PL n S α} (h : Good I Post x) :
    Acc (fun y x => ∃ m s, I s ∧ LStep m s x y) x := by
  induction h with
  | done x a h hp hb =>
    refine ⟨_, ?_⟩
    rintro y ⟨m, s, -, hs⟩
    cases hs <;> simp_all
  | move x m he h ih =>
    by_cases hne : ∃ s, I s
    swap
    · exact ⟨_, fun _ ⟨_, s, hs, _⟩ => absurd ⟨s, hs⟩ hne⟩
    obtain ⟨s0, hs0⟩ := hne
    obtain ⟨s1, y1, h1⟩ := he
    obtain ⟨y0, h0⟩ := h1.other s0
    have main : ∀ y0 : PL n S α, Acc (fun y x => ∃ m s, I s ∧ LStep m s x y) y0 → ∀ x : PL n S α, LStep m s0 x y0 →
        (∀ s y, I s → LStep m s x y → Acc (fun y x => ∃ m s, I s ∧ LStep m s x y) y) → Acc (fun y x => ∃ m s, I s ∧ LStep m s x y) x := by
      intro y0 hy
      induction hy with
      | intro y0 _ ih =>
        intro x hx hall
        refine ⟨_, ?_⟩
        rintro z ⟨m', s', hI', hz⟩
        by_cases hm : m = m'
        · subst hm
          exact hall s' z hI' hz
        · obtain ⟨w, hw1, hw2⟩ := diamond hm hx hz
          refine ih w ⟨m', s', hI', hw2⟩ z hw1 ?_
          intro s1 y1 hI1 h1
          obtain ⟨y2, h2⟩ := hx.other s1
          obtain ⟨w2, h3, h4⟩ := diamond hm h2 hz
          rw [h1.det h3]
          exact (hall s1 y2 hI1 h2).inv ⟨m', s', hI', h4⟩
    exact main y0 (ih s0 y0 hs0 h0) x h0 ih

/-! ### From the moves to the steps -/

omit [Inhabited S] in
theorem LStep.of_step {c d : Config n S α} (h : Step c d) : ∃ m, LStep m c.fs (c.p, c.log) (d.p, d.log) := by
  cases h with
  | acc fs p log i f k h => exact ⟨_, .acc fs (p, log) i f k h⟩
  | enter fs p log i c v k h => exact ⟨_, .enter fs (p, log) i c v k h⟩
  | leave fs p log i c k ans h hr => exact ⟨_, .leave fs (p, log) i c k ans h hr⟩
  | msg fs p log i j t v k k' hi hj => exact ⟨_, .msg fs (p, log) i j t v k k' hi hj⟩

omit [Inhabited S] in
theorem LStep.to_step {m : Move n} {s : S} {c : Config n S α} {y} (h : LStep m s (c.p, c.log) y) : ∃ d, Step c d := by
  obtain ⟨fs, p, log⟩ := c
  cases h with
  | acc _ _ i f k h => exact ⟨_, .acc fs p log i f k h⟩
  | enter _ _ i c v k h => exact ⟨_, .enter fs p log i c v k h⟩
  | leave _ _ i c k ans h hr => exact ⟨_, .leave fs p log i c k ans h hr⟩
  | msg _ _ i j t v k k' hi hj => exact ⟨_, .msg fs p log i j t v k k' hi hj⟩

/-- The accesses of a program keep `I`. -/
def Keeps (I : S → Prop) : Prog n S α → Prop
  | .ret _ => True
  | .err _ => True
  | .acc f k => ∀ s, I s → I (f s) ∧ Keeps I (k s)
  | .coll _ _ k => ∀ a, Keeps I (k a)
  | .wait _ k => ∀ a, Keeps I (k a)
  | .send _ _ _ k => Keeps I k
  | .recv _ _ k => ∀ v, Keeps I (k v)

theorem Keeps.step {c d : Config n S α} (h : Step c d) (hI : I c.fs) (hk : ∀ i, Keeps I (c.p i)) :
    I d.fs ∧ ∀ i, Keeps I (d.p i) := by
  have upd : ∀ (p : Fin n → Prog n S α) (i : Fin n) (q : Prog n S α), (∀ i, Keeps I (p i)) → Keeps I q →
      ∀ j, Keeps I (update p i q j) := by
    intro p i q hp hq j
    by_cases hj : j = i
    · subst hj; simpa using hq
    · simpa [hj] using hp j
  cases h with
  | acc fs p log i f k h =>
    have h1 := hk i
    dsimp only at h1 hI hk ⊢
    rw [h] at h1
    exact ⟨(h1 fs hI).1, upd p i _ hk (h1 fs hI).2⟩
  | enter fs p log i c v k h =>
    have h1 := hk i
    dsimp only at h1 hI hk ⊢
    rw [h] at h1
    exact ⟨hI, upd p i _ hk h1⟩
  | leave fs p log i c k ans h hr =>
    have h1 := hk i
    dsimp only at h1 hI hk ⊢
    rw [h] at h1
    exact ⟨hI, upd p i _ hk (h1 ans)⟩
  | msg fs p log i j t v k k' hi hj =>
    have h1 := hk i
    have h2 := hk j
    dsimp only at h1 h2 hI hk ⊢
    rw [hi] at h1
    rw [hj] at h2
    exact ⟨hI, upd _ j _ (upd p i _ hk h1) (h2 v)⟩

theorem Good.reach {Post : (Fin n → α) → Prop} {a c : Config n S α} (hr : Reach a c) (hI : I a.fs)
    (hk : ∀ i, Keeps I (a.p i)) (h : Good I Post (a.p, a.log)) :
    Good I Post (c.p, c.log) ∧ I c.fs ∧ ∀ i, Keeps I (c.p i) := by
  induction hr with
  | refl => exact ⟨h, hI, hk⟩
  | step b c _ hs ih =>
    obtain ⟨m, hl⟩ := LStep.of_step hs
    exact ⟨ih.1.step ih.2.1 hl, Keeps.step hs ih.2.1 ih.2.2⟩

/-- A program which is safe for all processes as long as the file system satisfies `I`: the run completes and leaves the processes with
the same number of operations. -/
def SafeI (I : S → Prop) (Post : (Fin n → α) → Prop) (p : Fin n → Prog n S α) : Prop :=
  ∀ log, Balanced log → Good I Post (p, log)

/-- Safe for all file systems. -/
abbrev Safe (Post : (Fin n → α) → Prop) (p : Fin n → Prog n S α) : Prop := SafeI (fun _ => True) Post p

theorem SafeI.completes {Post : (Fin n → α) → Prop} {p : Fin n → Prog n S α} (h : SafeI I Post p) (hk : ∀ i, Keeps I (p i))
    (fs : S) (hI : I fs) : CompletesFrom p fs Post := by
  have hg : Good I Post ((start fs p).p, (start fs p).log) := h _ fun _ _ => rfl
  constructor
  · have hacc := hg.accessible
    have : ∀ x : PL n S α, Acc (fun y x => ∃ m s, I s ∧ LStep m s x y) x → ∀ c : Config n S α, (c.p, c.log) = x → I c.fs →
        (∀ i, Keeps I (c.p i)) → Acc (fun c' c => Step c c') c := by
      intro x hx
      induction hx with
      | intro x _ ih =>
        intro c hc hI hk
        refine ⟨_, ?_⟩
        intro d hd
        obtain ⟨m, hl⟩ := LStep.of_step hd
        rw [hc] at hl
        obtain ⟨h1, h2⟩ := Keeps.step hd hI hk
        exact ih _ ⟨m, c.fs, hI, hl⟩ d rfl h1 h2
    exact this _ hacc _ rfl hI hk
  · intro c hr
    have hc := (hg.reach hr hI hk).1
    cases hc with
    | done _ a h hp hb => exact .inr ⟨a, h, hp⟩
    | move _ m he _ =>
      obtain ⟨s, y, hl⟩ := he
      exact .inl hl.to_step

theorem keeps_true (q : Prog n S α) : Keeps (fun _ => True) q := by
  induction q with
  | ret => trivial
  | err => trivial
  | acc f k ih => exact fun s _ => ⟨trivial, ih s⟩
  | coll c v k ih => exact ih
  | wait c k ih => exact ih
  | send d t v k ih => exact ih
  | recv s t k ih => exact ih

theorem Safe.completes {Post : (Fin n → α) → Prop} {p : Fin n → Prog n S α} (h : Safe Post p) : Completes p Post :=
  fun fs => SafeI.completes h (fun i => keeps_true (p i)) fs trivial

/-! ### Composition -/

theorem SafeI.ret {Post : (Fin n → α) → Prop} (a : Fin n → α) (h : Post a) : SafeI I Post fun i => .ret (a i) :=
  fun _ hb => .done _ a (fun _ => rfl) h hb

theorem Good.weaken {Post Post' : (Fin n → α) → Prop} {x : PL n S α} (h : Good I Post x) (hp : ∀ a, Post a → Post' a) :
    Good I Post' x := by
  induction h with
  | done x a h h1 hb => exact .done x a h (hp a h1) hb
  | move x m he _ ih => exact .move x m he ih

theorem SafeI.weaken {Post Post' : (Fin n → α) → Prop} {p : Fin n → Prog n S α} (h : SafeI I Post p)
    (hp : ∀ a, Post a → Post' a) : SafeI I Post' p := fun log hb => (h log hb).weaken hp

omit [Inhabited S] in
theorem LStep.bind {m : Move n} {s : S} {x y : PL n S α} (h : LStep m s x y) (g : Fin n → α → Prog n S β) :
    LStep m s ((fun i => (x.1 i).bind (g i), x.2) : PL n S β) (fun i => (y.1 i).bind (g i), y.2) := by
  have upd : ∀ (p : Fin n → Prog n S α) (i : Fin n) (a : Prog n S α),
      (fun l => (update p i a l).bind (g l)) = update (fun l => (p l).bind (g l)) i (a.bind (g i)) := by
    intro p i a
    funext l
    by_cases hl : l = i
    · subst hl; simp
    · simp [hl]
  cases h with
  | acc s x i f k h =>
    dsimp only
    rw [upd]
    exact .acc s _ i f (fun s => (k s).bind (g i)) (by simp [h, Prog.bind])
  | enter s x i c v k h =>
    dsimp only
    rw [upd]
    exact .enter s _ i c v (fun a => (k a).bind (g i)) (by simp [h, Prog.bind])
  | leave s x i c k ans h hr =>
    dsimp only
    rw [upd]
    exact .leave s (fun i => (x.1 i).bind (g i), x.2) i c (fun a => (k a).bind (g i)) ans (by simp [h, Prog.bind]) hr
  | msg s x i j t v k k' hi hj =>
    dsimp only
    rw [upd, upd]
    exact .msg s _ i j t v (k.bind (g i)) (fun v => (k' v).bind (g j)) (by simp [hi, Prog.bind]) (by simp [hj, Prog.bind])

theorem Good.bind {Post : (Fin n → α) → Prop} {Post' : (Fin n → β) → Prop} {x : PL n S α} (h : Good I Post x)
    (g : Fin n → α → Prog n S β) (hg : ∀ a, Post a → SafeI I Post' fun i => g i (a i)) :
    Good I Post' (fun i => (x.1 i).bind (g i), x.2) := by
  induction h with
  | done x a h hp hb =>
    have := hg a hp x.2 hb
    have e : (fun i => (x.1 i).bind (g i)) = fun i => g i (a i) := by
      funext i
      rw [h i]
      rfl
    rw [e]
    exact this
  | move x m he _ ih =>
    obtain ⟨s0, y0, h0⟩ := he
    refine .move _ m ⟨s0, _, h0.bind g⟩ ?_
    intro s y hI hy
    obtain ⟨y1, h1⟩ := h0.other s
    rw [hy.det (h1.bind g)]
    exact ih s y1 hI h1

theorem SafeI.bind {Post : (Fin n → α) → Prop} {Post' : (Fin n → β) → Prop} {p : Fin n → Prog n S α} (h : SafeI I Post p)
    {g : Fin n → α → Prog n S β} (hg : ∀ a, Post a → SafeI I Post' fun i => g i (a i)) :
    SafeI I Post' fun i => (p i).bind (g i) := fun log hb => (h log hb).bind g hg

theorem SafeI.acc {Post : (Fin n → α) → Prop} {p : Fin n → Prog n S α} (i : Fin n) {f k} (h : p i = .acc f k)
    (hk : ∀ s, I s → SafeI I Post (update p i (k s))) : SafeI I Post p := by
  intro log hb
  refine .move _ (.acc i) ⟨default, _, .acc default (p, log) i f k h⟩ ?_
  intro s y hI hy
  rw [hy.det (.acc s (p, log) i f k h)]
  exact hk s hI log hb

theorem SafeI.msg {Post : (Fin n → α) → Prop} {p : Fin n → Prog n S α} (i j : Fin n) {t v k k'} (hi : p i = .send j t v k)
    (hj : p j = .recv i t k') (hk : SafeI I Post (update (update p i k) j (k' v))) : SafeI I Post p := by
  intro log hb
  refine .move _ (.msg i j) ⟨default, _, .msg default (p, log) i j t v k k' hi hj⟩ ?_
  intro s y _ hy
  rw [hy.det (.msg s (p, log) i j t v k k' hi hj)]
  exact hk log hb

/-- What process `i` receives when the contributions are `v`. -/
def answers (c : Kind n) (v : Fin n → Val) (i : Fin n) : Fin n → Option Val := fun j => if c.needs i j then some (v j) else none

theorem SafeI.coll {Post : (Fin n → α) → Prop} (c : Kind n) (v : Fin n → Val) (k : Fin n → (Fin n → Option Val) → Prog n S α)
    (h : SafeI I Post fun i => k i (answers c v i)) : SafeI I Post fun i => .coll c (v i) (k i) := by
  classical
  intro log hb
  -- all processes have entered; those of `T` have not left
  have leave : ∀ T : Finset (Fin n), Good I Post ((fun i => if i ∈ T then .wait c (k i) else k i (answers c v i),
      fun i => log i ++ [(c, v i)]) : PL n S α) := by
    intro T
    induction T using Finset.induction_on with
    | empty =>
      simp only [Finset.notMem_empty, if_false]
      exact h _ fun i j => by simp [hb i j]
    | insert a T ha ih =>
      have hr : Ready (fun i => log i ++ [(c, v i)]) a c (answers c v a) := by
        intro j
        by_cases hn : c.needs a j
        · simp only [hn, if_true, answers]
          refine ⟨v j, ?_, rfl⟩
          simp [hb a j]
        · simp [hn, answers]
      have hs := fun s : S => LStep.leave s ((fun i => if i ∈ insert a T then .wait c (k i) else k i (answers c v i),
        fun i => log i ++ [(c, v i)]) : PL n S α) a c (k a) (answers c v a) (by simp) hr
      have e : update (fun i => if i ∈ insert a T then Prog.wait c (k i) else k i (answers c v i)) a (k a (answers c v a))
          = fun i => if i ∈ T then .wait c (k i) else k i (answers c v i) := by
        funext i
        by_cases hi : i = a
        · subst hi; simp [ha]
        · simp [hi]
      refine .move _ (.leave a) ⟨default, _, hs default⟩ ?_
      intro s y _ hy
      rw [hy.det (hs s)]
      dsimp only
      rw [e]
      exact ih
  have enter : ∀ T : Finset (Fin n), Good I Post ((fun i => if i ∈ T then .coll c (v i) (k i) else .wait c (k i),
      fun i => if i ∈ T then log i else log i ++ [(c, v i)]) : PL n S α) := by
    intro T
    induction T using Finset.induction_on with
    | empty =>
      simpa using leave Finset.univ
    | insert a T ha ih =>
      have hs := fun s : S => LStep.enter s ((fun i => if i ∈ insert a T then .coll c (v i) (k i) else .wait c (k i),
        fun i => if i ∈ insert a T then log i else log i ++ [(c, v i)]) : PL n S α) a c (v a) (k a) (by simp)
      have e : update (fun i => if i ∈ insert a T then Prog.coll c (v i) (k i) else .wait c (k i)) a (.wait c (k a))
          = fun i => if i ∈ T then .coll c (v i) (k i) else .wait c (k i) := by
        funext i
        by_cases hi : i = a
        · subst hi; simp [ha]
        · simp [hi]
      have e2 : update (fun i => if i ∈ insert a T then log i else log i ++ [(c, v i)]) a
          ((if a ∈ insert a T then log a else log a ++ [(c, v a)]) ++ [(c, v a)])
          = fun i => if i ∈ T then log i else log i ++ [(c, v i)] := by
        funext i
        by_cases hi : i = a
        · subst hi; simp [ha]
        · simp [hi]
      refine .move _ (.enter a) ⟨default, _, hs default⟩ ?_
      intro s y _ hy
      rw [hy.det (hs s)]
      dsimp only
      rw [e, e2]
      exact ih
  simpa using enter Finset.univ

/-- All processes run the same loop. -/
theorem SafeI.loop (Inv : List β → (Fin n → σ) → Prop) (l : List β) (body : Fin n → β → σ → Prog n S σ)
    (hstep : ∀ done x rest s, l = done ++ x :: rest → Inv done s →
      SafeI I (fun s' => Inv (done ++ [x]) s') fun i => body i x (s i))
    (s : Fin n → σ) (h0 : Inv [] s) : SafeI I (Inv l) fun i => Prog.loop l (body i) (s i) := by
  have main : ∀ rest done s, l = done ++ rest → Inv done s → SafeI I (Inv l) fun i => Prog.loop rest (body i) (s i) := by
    intro rest
    induction rest with
    | nil =>
      intro done s e hi
      simp only [List.append_nil] at e
      subst e
      exact .ret s hi
    | cons x rest ih =>
      intro done s e hi
      simp only [Prog.loop]
      refine (hstep done x rest s e hi).bind ?_
      intro s' hs'
      exact ih (done ++ [x]) s' (by simp [e]) hs'
  exact main l [] s rfl h0

end Verif.Procs
