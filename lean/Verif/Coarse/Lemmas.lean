import Verif.Coarse.Model
import Verif.Coarse.Spec

/-! # Helper lemmas for `Coarse` -/

namespace Verif.Coarse
open Verif.Modes

theorem assign_fun {S I J I' J' A : Type*} [DecidableEq J] {nd : I → Option J}
    {ns : I' → Option J'} (inp : J' → A) {ws : List (I × I')} (out : J → A)
    (R : S → Prop) (d : S → I) (e : S → I') (jd : S → J) (je : S → J')
    (hmem : ∀ w, w ∈ ws ↔ ∃ s, R s ∧ w = (d s, e s))
    (hd : ∀ s, R s → nd (d s) = some (jd s)) (he : ∀ s, R s → ns (e s) = some (je s))
    (inj : ∀ s s', R s → R s' → jd s = jd s' → s = s') :
    ∃ o, assign nd ns inp ws out = .ok o ∧ (∀ s, R s → o (jd s) = inp (je s)) ∧
      (∀ x, (∀ s, R s → jd s ≠ x) → o x = out x) := by
  obtain ⟨o, ho, h1, h2⟩ := assign_spec nd ns inp ws out (by
    intro w hw
    obtain ⟨s, hs, rfl⟩ := (hmem w).1 hw
    exact ⟨⟨_, hd s hs⟩, _, he s hs⟩)
  refine ⟨o, ho, ?_, ?_⟩
  · intro s hs
    refine h2 _ _ ⟨_, (hmem _).2 ⟨s, hs, rfl⟩, hd s hs⟩ ?_
    intro w hw hwd s' hs'
    obtain ⟨q, hq, rfl⟩ := (hmem w).1 hw
    simp only at hwd hs'
    rw [hd q hq] at hwd
    rw [he q hq] at hs'
    have := inj q s hq hs (Option.some.inj hwd)
    subst this
    rw [Option.some.inj hs']
  · intro x hx
    refine h1 _ ?_
    intro w hw hwd
    obtain ⟨q, hq, rfl⟩ := (hmem w).1 hw
    simp only at hwd
    rw [hd q hq] at hwd
    exact hx q hq (Option.some.inj hwd)

theorem mem_range3 {n s : ℕ × ℕ × ℕ} :
    s ∈ range3 n ↔ s.1 < n.1 ∧ s.2.1 < n.2.1 ∧ s.2.2 < n.2.2 := by
  obtain ⟨a, b, c⟩ := s
  simp only [range3, List.mem_flatMap, List.mem_range, List.mem_map, Prod.mk.injEq]
  constructor
  · rintro ⟨a', ha, b', hb, c', hc, rfl, rfl, rfl⟩; exact ⟨ha, hb, hc⟩
  · rintro ⟨ha, hb, hc⟩; exact ⟨a, ha, b, hb, c, hc, rfl, rfl, rfl⟩

theorem mem_range2 {n s : ℕ × ℕ} : s ∈ range2 n ↔ s.1 < n.1 ∧ s.2 < n.2 := by
  obtain ⟨a, b⟩ := s
  simp only [range2, List.mem_flatMap, List.mem_range, List.mem_map, Prod.mk.injEq]
  constructor
  · rintro ⟨a', ha, b', hb, rfl, rfl⟩; exact ⟨ha, hb⟩
  · rintro ⟨ha, hb⟩; exact ⟨a, ha, b, hb, rfl, rfl⟩

/-- Position in the full axis of a coarse index. -/
def up (x : Bool) (nc n i : ℕ) : ℕ := (ikFromIkc i nc n x).toNat

theorem ik_eq_up {x : Bool} {nc n i : ℕ} (h : nc ≤ n) : ikFromIkc i nc n x = (up x nc n i : ℕ) := by
  simp only [up, ikFromIkc]
  cases x <;> simp only [Bool.false_eq_true, or_false, or_true, if_true] <;> (try split_ifs) <;>
    omega

theorem up_lt {x : Bool} {nc n i : ℕ} (h : nc ≤ n) (hi : i < nc) : up x nc n i < n := by
  simp only [up, ikFromIkc]
  cases x <;> simp only [Bool.false_eq_true, or_false, or_true, if_true] <;> (try split_ifs) <;>
    omega

theorem up_inj {x : Bool} {nc n i j : ℕ} (h : nc ≤ n) (hi : i < nc) (hj : j < nc)
    (he : up x nc n i = up x nc n j) : i = j := by
  simp only [up, ikFromIkc] at he
  cases x <;> simp only [Bool.false_eq_true, or_false, or_true, if_true] at he <;>
    (try split_ifs at he) <;> omega

/-- The position holds the same wavenumber. -/
theorem up_holds {nc n i : ℕ} {k : ℤ} (h : nc ≤ n) (hi : Holds nc i k) :
    Holds n (up false nc n i) k := by
  rw [holds_iff] at hi ⊢
  simp only [up, ikFromIkc, Bool.false_eq_true, or_false]
  split_ifs <;> omega

theorem up_holds_half {nc n i : ℕ} {k : ℤ} (h : nc ≤ n) (hi : HoldsHalf nc i k) :
    HoldsHalf n (up true nc n i) k := by
  obtain ⟨h1, rfl⟩ := hi
  simp only [up, ikFromIkc, or_true, if_true, HoldsHalf]
  omega

theorem holds_exists {n i : ℕ} (h : i < n) : ∃ k, Holds n i k := ⟨_, kadim_holds h⟩

theorem axisHolds_iff {x : Bool} {X : Prop} (hx : X ↔ x = true) {n i : ℕ} {k : ℤ} :
    AxisHolds X n i k ↔ if x then HoldsHalf n i k else Holds n i k := by
  cases x <;> simp [AxisHolds, hx]

theorem mem_zip_range' (m : ℕ) : ∀ a b d s : ℕ,
    (d, s) ∈ (List.range' a m).zip (List.range' b m) ↔ ∃ i, i < m ∧ d = a + i ∧ s = b + i := by
  induction m with
  | zero => intro a b d s; simp
  | succ m ih =>
    intro a b d s
    simp only [List.range'_succ, List.zip_cons_cons, List.mem_cons, Prod.mk.injEq, ih]
    constructor
    · rintro (⟨rfl, rfl⟩ | ⟨i, hi, rfl, rfl⟩)
      · exact ⟨0, by omega, by omega, by omega⟩
      · exact ⟨i + 1, by omega, by omega, by omega⟩
    · rintro ⟨i, hi, rfl, rfl⟩
      rcases Nat.eq_zero_or_pos i with rfl | h
      · left; exact ⟨rfl, rfl⟩
      · right; exact ⟨i - 1, by omega, by omega, by omega⟩

theorem lineWrites_spec {x : Bool} {nc n : ℕ} (h : nc ≤ n) (h3 : x = true ∨ 3 ≤ nc) :
    ∃ l, lineWrites x nc n = .ok l ∧ ∀ q, q ∈ l ↔ q.2 < nc ∧ q.1 = up x nc n q.2 := by
  cases x with
  | true =>
    have hm : min nc n = nc := min_eq_left h
    refine ⟨(List.range' 0 nc).zip (List.range' 0 nc), ?_, ?_⟩
    · simp [lineWrites, sliceTo, hm, zipSlices]
    · rintro ⟨d, s⟩
      rw [mem_zip_range']
      simp only [up, ikFromIkc, or_true, if_true]
      constructor
      · rintro ⟨i, hi, rfl, rfl⟩; exact ⟨by omega, by simp⟩
      · rintro ⟨hs, hd⟩; exact ⟨s, hs, by simpa using hd, by simp⟩
  | false =>
    have h3 : 3 ≤ nc := by simpa using h3
    have hm : min (nc / 2 + 1) n = nc / 2 + 1 := min_eq_left (by omega)
    have hm' : min (nc / 2 + 1) nc = nc / 2 + 1 := min_eq_left (by omega)
    have hneg : ¬ (0 : ℤ) ≤ (-(nc : ℤ)) / 2 + 1 := by omega
    have ha : ((n : ℤ) + (-(nc : ℤ) / 2 + 1)).toNat = n - (nc - (nc / 2 + 1)) := by omega
    have hb : ((nc : ℤ) + (-(nc : ℤ) / 2 + 1)).toNat = nc / 2 + 1 := by omega
    have hl : n - (n - (nc - (nc / 2 + 1))) = nc - (nc / 2 + 1) := by omega
    refine ⟨(List.range' 0 (nc / 2 + 1)).zip (List.range' 0 (nc / 2 + 1)) ++
      (List.range' (n - (nc - (nc / 2 + 1))) (nc - (nc / 2 + 1))).zip
        (List.range' (nc / 2 + 1) (nc - (nc / 2 + 1))), ?_, ?_⟩
    · simp [lineWrites, sliceTo, sliceFrom, hm, hm', zipSlices, hneg, ha, hb, hl]
    · rintro ⟨d, s⟩
      rw [List.mem_append, mem_zip_range', mem_zip_range']
      simp only [up, ikFromIkc, Bool.false_eq_true, or_false]
      constructor
      · rintro (⟨i, hi, rfl, rfl⟩ | ⟨i, hi, rfl, rfl⟩)
        · refine ⟨by omega, ?_⟩
          rw [if_pos (by omega)]; omega
        · refine ⟨by omega, ?_⟩
          rw [if_neg (by omega)]; omega
      · rintro ⟨hs, rfl⟩
        split_ifs with hc
        · left; exact ⟨s, by omega, by omega, by omega⟩
        · right; exact ⟨s - (nc / 2 + 1), by omega, by omega, by omega⟩

end Verif.Coarse
