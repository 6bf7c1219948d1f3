import Verif.MeanValues.Spec
import Verif.PhysFiles.Lemmas
import Verif.StdOut.Lemmas
import Mathlib.Tactic.FieldSimp
import Mathlib.Tactic.Linarith
import Mathlib.Tactic.Positivity
import Mathlib.Algebra.BigOperators.Field
import Mathlib.Algebra.Order.BigOperators.Group.Finset

set_option linter.unusedSectionVars false

namespace Verif.MeanValues

open Verif.PhysFiles (Str closest closest_spec)
open Verif.StdOut (startsWith afterLast)

variable {D Q R C : Type}

/-! ## names -/

theorem cut_first {c : Char} {a b x y : List Char} (ha : c ∉ a) (hb : c ∉ b) (h : a ++ c :: x = b ++ c :: y) :
    a = b ∧ x = y := by
  induction a generalizing b with
  | nil =>
    cases b with
    | nil => simpa using h
    | cons d b => simp at h hb; exact absurd h.1 hb.1
  | cons d a ih =>
    cases b with
    | nil => simp at h ha; exact absurd h.1.symm ha.1
    | cons e b =>
      simp only [List.cons_append, List.cons.injEq] at h
      obtain ⟨h1, h2⟩ := ih (fun hc => ha (List.mem_cons_of_mem _ hc)) (fun hc => hb (List.mem_cons_of_mem _ hc)) h.2
      exact ⟨by rw [h.1, h1], h2⟩

theorem fileName_inj (M : Maker D Q R C) (hT : Texts M) (a a' b b' : Q) (c c' : Option C)
    (h : fileName M a b c = fileName M a' b' c') : a = a' ∧ b = b' ∧ c.map M.hash = c'.map M.hash := by
  unfold fileName at h
  have e1 : "_tmax".toList = '_' :: "tmax".toList := rfl
  have e2 : "_customize".toList = '_' :: "customize".toList := rfl
  simp only [List.append_assoc, List.append_cancel_left_eq] at h
  rw [e1] at h
  obtain ⟨h1, h2⟩ := cut_first (hT.under a) (hT.under a') h
  replace h2 := List.append_cancel_left (as := "tmax".toList) h2
  refine ⟨hT.inj _ _ h1, ?_⟩
  have hj : '_' ∉ ".json".toList := by decide
  cases c with
  | none =>
    cases c' with
    | none =>
      simp only [List.nil_append, List.append_cancel_right_eq] at h2
      exact ⟨hT.inj _ _ h2, rfl⟩
    | some g =>
      exfalso
      have : '_' ∈ M.fmt b ++ ([] ++ ".json".toList) := by
        rw [h2, e2]; simp
      simp only [List.nil_append, List.mem_append] at this
      exact this.elim (hT.under b) hj
  | some f =>
    cases c' with
    | none =>
      exfalso
      have : '_' ∈ M.fmt b' ++ ([] ++ ".json".toList) := by
        rw [← h2, e2]; simp
      simp only [List.nil_append, List.mem_append] at this
      exact this.elim (hT.under b') hj
    | some g =>
      simp only [e2, List.append_assoc, List.cons_append] at h2
      obtain ⟨h3, h4⟩ := cut_first (hT.under b) (hT.under b') h2
      simp only [List.append_cancel_left_eq, List.append_cancel_right_eq] at h4
      exact ⟨hT.inj _ _ h3, by simp [h4]⟩

/-! ## the invariant of the cache -/

/-- Every file of the cache contains the present result. -/
def Inv [LE Q] (M : Maker D Q R C) (s : St D) : Prop :=
  ∀ a b c txt, s.files (fileName M a b c) = some txt →
    (∃ l, M.last s.data = .ok l ∧ a ≤ l ∧ b ≤ l) ∧ ∃ r, M.loads txt = some r ∧ computeAll M s.data a b c = .ok r

theorem computeAll_congr (M : Maker D Q R C) (hh : ∀ f g, M.hash f = M.hash g → M.custom f = M.custom g) (d : D)
    (a b : Q) (c c' : Option C) (h : c.map M.hash = c'.map M.hash) : computeAll M d a b c = computeAll M d a b c' := by
  cases c with
  | none =>
    cases c' with
    | none => rfl
    | some g => simp at h
  | some f =>
    cases c' with
    | none => simp at h
    | some g =>
      have := hh f g (by simpa using h)
      simp only [computeAll, this]

theorem store_inv [LE Q] (M : Maker D Q R C) (hT : Texts M)
    (hh : ∀ f g, M.hash f = M.hash g → M.custom f = M.custom g) (hs : ∀ r, ∃ txt, M.dumps r = .ok txt)
    (s : St D) (a b : Q) (c : Option C) (hi : Inv M s) (hl : ∃ l, M.last s.data = .ok l ∧ a ≤ l ∧ b ≤ l) :
    Inv M (store M none s a b c).1 ∧ (store M none s a b c).1.data = s.data ∧
      (store M none s a b c).2 = computeAll M s.data a b c := by
  unfold store
  cases hc : computeAll M s.data a b c with
  | error e => exact ⟨hi, rfl, rfl⟩
  | ok r =>
    obtain ⟨txt, ht⟩ := hs r
    simp only [ht]
    refine ⟨?_, rfl, trivial⟩
    intro a' b' c' t h
    simp only [St.write] at h ⊢
    by_cases hn : fileName M a' b' c' = fileName M a b c
    · rw [if_pos hn] at h
      obtain ⟨rfl, rfl, h3⟩ := fileName_inj M hT _ _ _ _ _ _ hn
      simp only [Option.some.injEq] at h
      subst h
      exact ⟨hl, r, hT.json _ _ ht, by rw [computeAll_congr M hh _ _ _ _ _ h3, hc]⟩
    · rw [if_neg hn] at h
      exact hi a' b' c' t h

theorem get_inv [LE Q] [Add Q] [Sub Q] (M : Maker D Q R C) (hT : Texts M)
    (hh : ∀ f g, M.hash f = M.hash g → M.custom f = M.custom g) (hs : ∀ r, ∃ txt, M.dumps r = .ok txt)
    (s : St D) (x : Args Q C) (hi : Inv M s)
    (hl : ∀ a b, range M s.data x.tmin x.tmax = .ok (a, b) → ∃ l, M.last s.data = .ok l ∧ a ≤ l ∧ b ≤ l) :
    Inv M (get M none s x).1 ∧ (get M none s x).1.data = s.data ∧ (get M none s x).2 = Wanted M s.data x := by
  unfold get Wanted
  cases hr : range M s.data x.tmin x.tmax with
  | error e => exact ⟨hi, rfl, rfl⟩
  | ok p =>
    obtain ⟨a, b⟩ := p
    dsimp only
    have h1 := store_inv M hT hh hs s a b x.customize hi (hl a b hr)
    by_cases hu : x.useCache = true
    · rw [if_pos hu]
      cases hf : s.files (fileName M a b x.customize) with
      | none => exact h1
      | some txt =>
        obtain ⟨-, r, h2, h3⟩ := hi a b x.customize txt hf
        exact ⟨hi, rfl, by simp [h2, h3]⟩
    · rw [if_neg hu]; exact h1

theorem grow_inv [Preorder Q] (M : Maker D Q R C) (Ext : D → D → Prop) (hG : Grows M Ext) (s : St D) (d' : D)
    (he : Ext s.data d') (hi : Inv M s) : Inv M ⟨d', s.files⟩ := by
  intro a b c txt h
  obtain ⟨⟨l, h1, h2, h3⟩, r, h4, h5⟩ := hi a b c txt h
  obtain ⟨l', h6, h7⟩ := hG.last _ _ _ he h1
  refine ⟨⟨l', h6, le_trans h2 h7, le_trans h3 h7⟩, r, h4, ?_⟩
  rw [← h5]
  unfold computeAll
  dsimp only
  rw [hG.compute _ _ _ _ _ he h1 h2 h3]
  cases M.compute s.data a b with
  | error e => rfl
  | ok r' =>
    cases c with
    | none => rfl
    | some f => exact hG.custom _ _ _ _ he

theorem run_inv [Preorder Q] [Add Q] [Sub Q] (M : Maker D Q R C) (Ext : D → D → Prop) (hG : Grows M Ext) (hT : Texts M)
    (hh : ∀ f g, M.hash f = M.hash g → M.custom f = M.custom g) (hs : ∀ r, ∃ txt, M.dumps r = .ok txt)
    (h : List (Ev D Q C)) : ∀ s : St D, Inv M s → Careful M Ext s.data h →
      Inv M (h.foldl (stepEv M) s) ∧ (h.foldl (stepEv M) s).data = dataAfter s.data h := by
  induction h with
  | nil => intro s hi _; exact ⟨hi, rfl⟩
  | cons e h ih =>
    intro s hi hc
    cases e with
    | grow d' =>
      have := ih ⟨d', s.files⟩ (grow_inv M Ext hG s d' hc.1 hi) hc.2
      simpa [List.foldl_cons, stepEv, dataAfter] using this
    | call x =>
      obtain ⟨h1, h2, -⟩ := get_inv M hT hh hs s x hi hc.1
      have := ih (get M none s x).1 h1 (by rw [h2]; exact hc.2)
      rw [h2] at this
      simpa [List.foldl_cons, stepEv, dataAfter] using this
    | killed m x => exact absurd hc (by simp [Careful])

/-! ## the closest records of a file which grows -/

section
variable {K : Type} [Field K] [LinearOrder K] [IsStrictOrderedRing K] [FloorRing K]

theorem closest_append (times new : List K) (t l : K) (hl : times.getLast? = some l) (ht : t ≤ l)
    (hnew : ∀ y ∈ new, l < y) : closest (times ++ new) t = closest times t := by
  have hne : times ≠ [] := by rintro rfl; simp at hl
  obtain ⟨x, h1, h2, h3⟩ := closest_spec times t hne
  obtain ⟨x', h1', h2', h3'⟩ := closest_spec (times ++ new) t (by simp [hne])
  have hxl : |x - t| ≤ |l - t| := h2 l (List.mem_of_getLast? hl)
  have hlt : closest times t < times.length := by
    rcases List.getElem?_eq_some_iff.mp h1 with ⟨h, -⟩; exact h
  have hnewfar : ∀ y ∈ new, |x - t| < |y - t| := by
    intro y hy
    have h := hnew y hy
    refine lt_of_le_of_lt hxl ?_
    rw [abs_of_nonneg (by linarith), abs_of_nonneg (by linarith)]
    linarith
  rcases Nat.lt_trichotomy (closest (times ++ new) t) (closest times t) with h | h | h
  · exfalso
    have hb : times[closest (times ++ new) t]? = some x' := by
      rw [List.getElem?_append_left (by omega)] at h1'; exact h1'
    have := h3 _ _ h hb
    have h5 := h2' x (List.mem_append_left _ (List.mem_of_getElem? h1))
    exact absurd this (not_lt.mpr h5)
  · exact h
  · exfalso
    have hb : (times ++ new)[closest times t]? = some x := by
      rw [List.getElem?_append_left hlt]; exact h1
    have h4 := h3' _ _ h hb
    have h5 : |x - t| ≤ |x' - t| := by
      rcases List.mem_append.mp (List.mem_of_getElem? h1') with hm | hm
      · exact h2 x' hm
      · exact (hnewfar x' hm).le
    exact absurd h4 (not_lt.mpr h5)

theorem average_append (times new vals newv : List K) (hlen : vals.length = times.length) (a b l : K)
    (hl : times.getLast? = some l) (ha : a ≤ l) (hb : b ≤ l) (hnew : ∀ y ∈ new, l < y) :
    average (times ++ new) (vals ++ newv) a (some b) = average times vals a (some b) := by
  have hne : times ≠ [] := by rintro rfl; simp at hl
  have hlt : closest times b < times.length := by
    obtain ⟨x, h1, -⟩ := closest_spec times b hne
    rcases List.getElem?_eq_some_iff.mp h1 with ⟨h, -⟩; exact h
  have : records (times ++ new) (vals ++ newv) a (some b) = records times vals a (some b) := by
    unfold records
    dsimp only
    rw [closest_append times new a l hl ha hnew, closest_append times new b l hl hb hnew,
      List.take_append_of_le_length (by omega)]
  unfold average
  rw [this]

end

end Verif.MeanValues
