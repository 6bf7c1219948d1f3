import Verif.RunDirs.Spec
import Verif.PhysFiles.Lemmas
import Mathlib.Data.List.Nodup
import Mathlib.Data.Finset.Card
import Mathlib.Data.Finset.Image

namespace Verif.RunDirs

open PhysFiles (Str digs digs_inj)

/-! ### C20 -/

@[simp] theorem set_same {A B : Type*} [DecidableEq A] (f : A → B) (a : A) (b : B) :
    set f a b a = b := by simp [set]

theorem set_ne {A B : Type*} [DecidableEq A] (f : A → B) {a x : A} (b : B) (h : x ≠ a) :
    set f a b x = f x := by simp [set, h]

/-- Invariant of C20. -/
def Owned {N : Type*} (w : World N) : Prop :=
  (∀ i n, w.proc i = .done n → w.dir n = some (.proc i)) ∧
  (∀ i n, w.dir n = some (.proc i) → w.proc i = .done n)

theorem owned_step {N : Type*} [DecidableEq N] {a b : World N} (h : Owned a) (hs : Step a b) :
    Owned b := by
  obtain ⟨h1, h2⟩ := h
  have key : ∀ (w : World N) (i : ℕ) (p : Phase N), (∀ n, w.proc i ≠ .done n) →
      (∀ n, p ≠ .done n) → (∀ i n, w.proc i = .done n → w.dir n = some (.proc i)) →
      (∀ i n, w.dir n = some (.proc i) → w.proc i = .done n) →
      Owned ⟨w.dir, set w.proc i p⟩ := by
    intro w i p hw hp k1 k2
    refine ⟨fun j n hj => ?_, fun j n hj => ?_⟩
    · by_cases hji : j = i
      · subst hji; simp only [set_same] at hj; exact absurd hj (hp n)
      · simp only [set_ne _ _ hji] at hj; exact k1 j n hj
    · by_cases hji : j = i
      · subst hji; exact absurd (k2 j n hj) (hw n)
      · simp only [set_ne _ _ hji]; exact k2 j n hj
  cases hs with
  | testExists i n n' hp _ => exact key a i _ (by simp [hp]) (by simp) h1 h2
  | testFree i n hp _ => exact key a i _ (by simp [hp]) (by simp) h1 h2
  | mkFails i n n' hp _ => exact key a i _ (by simp [hp]) (by simp) h1 h2
  | mkError i n n' hp => exact key a i _ (by simp [hp]) (by simp) h1 h2
  | mkOk i n hp hd =>
    refine ⟨fun j m hj => ?_, fun j m hj => ?_⟩
    · by_cases hji : j = i
      · subst hji
        simp only [set_same, Phase.done.injEq] at hj
        subst hj; simp
      · simp only [set_ne _ _ hji] at hj
        have := h1 j m hj
        by_cases hmn : m = n
        · subst hmn; rw [hd] at this; simp at this
        · simpa [set_ne _ _ hmn] using this
    · by_cases hmn : m = n
      · subst hmn
        simp only [set_same, Option.some.injEq, Owner.proc.injEq] at hj
        subst hj; simp
      · simp only [set_ne _ _ hmn] at hj
        have := h2 j m hj
        by_cases hji : j = i
        · subst hji; rw [hp] at this; simp at this
        · simpa [set_ne _ _ hji] using this
  | env n hd =>
    refine ⟨fun j m hj => ?_, fun j m hj => ?_⟩
    · have := h1 j m hj
      by_cases hmn : m = n
      · subst hmn; rw [hd] at this; simp at this
      · simpa [set_ne _ _ hmn] using this
    · by_cases hmn : m = n
      · subst hmn; simp at hj
      · simp only [set_ne _ _ hmn] at hj; exact h2 j m hj

theorem dir_step {N : Type*} [DecidableEq N] {a b : World N} (hs : Step a b) (n : N)
    (h : a.dir n ≠ none) : b.dir n = a.dir n := by
  cases hs with
  | testExists i n n' hp _ => rfl
  | testFree i n hp _ => rfl
  | mkFails i n n' hp _ => rfl
  | mkError i n n' hp => rfl
  | mkOk i m hp hd =>
    have : n ≠ m := by rintro rfl; exact h hd
    exact set_ne _ _ this
  | env m hd =>
    have : n ≠ m := by rintro rfl; exact h hd
    exact set_ne _ _ this

theorem initPathRun_spec {N : Type*} (ex : N → Bool) (names : ℕ → N) (fuel k : ℕ) (n : N)
    (h : initPathRun ex names fuel k = some n) :
    ∃ j, k ≤ j ∧ n = names j ∧ ex n = false ∧ ∀ i, k ≤ i → i < j → ex (names i) = true := by
  induction fuel generalizing k with
  | zero => simp [initPathRun] at h
  | succ fuel ih =>
    simp only [initPathRun] at h
    by_cases hk : ex (names k) = true
    · rw [if_pos hk] at h
      obtain ⟨j, h1, h2, h3, h4⟩ := ih (k + 1) h
      refine ⟨j, by omega, h2, h3, fun i hi hij => ?_⟩
      rcases Nat.eq_or_lt_of_le hi with rfl | hlt
      · exact hk
      · exact h4 i hlt hij
    · rw [if_neg hk] at h
      cases h
      exact ⟨k, le_rfl, rfl, by simpa using hk, fun i hi hik => absurd hi (by omega)⟩

theorem initPathRun_none {N : Type*} (ex : N → Bool) (names : ℕ → N) (fuel k : ℕ)
    (h : initPathRun ex names fuel k = none) : ∀ i, k ≤ i → i < k + fuel → ex (names i) = true := by
  induction fuel generalizing k with
  | zero => intro i h1 h2; omega
  | succ fuel ih =>
    simp only [initPathRun] at h
    by_cases hk : ex (names k) = true
    · rw [if_pos hk] at h
      intro i h1 h2
      rcases Nat.eq_or_lt_of_le h1 with rfl | hlt
      · exact hk
      · exact ih (k + 1) h i hlt (by omega)
    · rw [if_neg hk] at h; simp at h

/-- Pigeonhole: an injective sequence leaves a finite list. -/
theorem exists_fresh {N : Type*} [DecidableEq N] (l : List N) (f : ℕ → N)
    (hf : Function.Injective f) : ∃ i, i ≤ l.length ∧ f i ∉ l := by
  by_contra hcon
  push Not at hcon
  have hsub : (Finset.range (l.length + 1)).image f ⊆ l.toFinset := by
    intro x hx
    obtain ⟨i, hi, rfl⟩ := Finset.mem_image.1 hx
    exact List.mem_toFinset.2 (hcon i (by simpa [Nat.lt_succ_iff] using hi))
  have h1 := Finset.card_le_card hsub
  rw [Finset.card_image_of_injective _ hf, Finset.card_range] at h1
  have h2 := l.toFinset_card_le
  omega

/-! ### C21 -/

theorem freshPath_eq {C : Type*} (fs : Fs C) (base : Path) (name : Str) (fuel i : ℕ) :
    freshPath fs base name fuel i = initPathRun (hasDir fs) (suffixed base name) fuel i := by
  induction fuel generalizing i with
  | zero => rfl
  | succ fuel ih => simp only [freshPath, initPathRun, ih]

theorem suffixed_inj (base : Path) (name : Str) : Function.Injective (suffixed base name) := by
  intro i j h
  unfold suffixed at h
  split_ifs at h with h1 h2 h2
  · omega
  · have := List.append_cancel_left h
    simp only [List.cons.injEq, and_true] at this
    have := congrArg List.length this
    simp at this
  · have := List.append_cancel_left h
    simp only [List.cons.injEq, and_true] at this
    have := congrArg List.length this
    simp at this
  · have := List.append_cancel_left h
    simp only [List.cons.injEq, and_true] at this
    have := List.append_cancel_left this
    simp only [List.cons.injEq, true_and] at this
    exact digs_inj this

theorem hasDir_iff {C : Type*} (fs : Fs C) (p : Path) : hasDir fs p = true ↔ p ∈ fs.map Prod.fst := by
  simp [hasDir]

theorem content_none {C : Type*} (fs : Fs C) (p : Path) :
    content fs p = none ↔ hasDir fs p = false := by
  rw [← Bool.not_eq_true, hasDir_iff]
  unfold content
  induction fs with
  | nil => simp
  | cons e fs ih =>
    obtain ⟨a, c⟩ := e
    by_cases hp : p = a
    · subst hp; simp
    · have : (p == a) = false := by simpa using hp
      rw [List.lookup_cons, this]
      simp only [ih, List.map_cons, List.mem_cons, not_or]
      simp [hp]

theorem freshPath_total {C : Type*} (fs : Fs C) (base : Path) (name : Str) :
    ∃ i, freshPath fs base name (fs.length + 1) 0 = some (suffixed base name i) ∧
      hasDir fs (suffixed base name i) = false ∧
      ∀ j, j < i → hasDir fs (suffixed base name j) = true := by
  rw [freshPath_eq]
  rcases Option.eq_none_or_eq_some (initPathRun (hasDir fs) (suffixed base name)
    (fs.length + 1) 0) with hc | ⟨n, hc⟩
  · exfalso
    obtain ⟨i, hi, hn⟩ := exists_fresh (fs.map Prod.fst) _ (suffixed_inj base name)
    have := initPathRun_none _ _ _ _ hc i (by omega) (by simp at hi; omega)
    exact hn ((hasDir_iff _ _).1 this)
  · obtain ⟨j, _, rfl, h3, h4⟩ := initPathRun_spec _ _ _ _ _ hc
    exact ⟨j, hc, h3, fun i hi => h4 i (by omega) hi⟩

theorem lookup_filter_ne {C : Type*} (fs : Fs C) (src p : Path) :
    content (fs.filter fun e => e.1 != src) p = if p = src then none else content fs p := by
  unfold content
  induction fs with
  | nil => simp
  | cons e fs ih =>
    obtain ⟨a, c⟩ := e
    by_cases ha : a = src
    · subst ha
      simp only [bne_self_eq_false, Bool.false_eq_true, not_false_eq_true, List.filter_cons_of_neg,
        ih, List.lookup_cons]
      by_cases hp : p = a
      · simp [hp]
      · have : (p == a) = false := by simpa using hp
        simp [hp, this]
    · have h1 : (a != src) = true := by simpa using ha
      simp only [h1, List.filter_cons_of_pos, List.lookup_cons, ih]
      by_cases hp : p = a
      · subst hp; simp [ha]
      · have : (p == a) = false := by simpa using hp
        simp [this]

theorem moveDir_spec {C : Type*} (fs fs' : Fs C) (src dst : Path)
    (h : moveDir fs src dst = .ok fs') :
    ∃ c real, content fs src = some c ∧ hasDir fs real = false ∧ real ≠ src ∧
      (hasDir fs dst = false → real = dst) ∧
      (hasDir fs dst = true → real = dst ++ src.getLast?.toList) ∧
      ∀ p, content fs' p = if p = real then some c else if p = src then none else content fs p := by
  unfold moveDir at h
  rcases Option.eq_none_or_eq_some (content fs src) with hc | ⟨c, hc⟩
  · simp [hc] at h
  · simp only [hc] at h
    generalize hreal : (if hasDir fs dst = true then dst ++ src.getLast?.toList else dst) = real at h
    by_cases hr : hasDir fs real = true
    · simp [hr] at h
    · simp only [hr] at h
      cases h
      refine ⟨c, real, hc, by simpa using hr, ?_, ?_, ?_, ?_⟩
      · rintro rfl
        have := (content_none fs real).2 (by simpa using hr)
        rw [this] at hc; simp at hc
      · intro hd; simpa [hd] using hreal.symm
      · intro hd; simpa [hd] using hreal.symm
      · intro p
        rw [← lookup_filter_ne]
        unfold content
        rw [List.lookup_cons]
        by_cases hp : p = real
        · simp [hp]
        · have : (p == real) = false := by simpa using hp
          simp [this, hp]

/-! ### C22 -/

theorem lockRun_snoc (evs : List Ev) (e : Ev) : lockRun (evs ++ [e]) = lockStep (lockRun evs) e := by
  simp [lockRun]

theorem serial_prefix {evs : List Ev} {e : Ev} (h : Serial (evs ++ [e])) : Serial evs :=
  fun pre hp => h pre (hp.trans (List.prefix_append _ _))

theorem serial_self {evs : List Ev} (h : Serial evs) : ∀ i j, (lockRun evs).proc i ≠ .idle →
    (lockRun evs).proc j ≠ .idle → i = j := h evs (List.prefix_refl _)

end Verif.RunDirs
