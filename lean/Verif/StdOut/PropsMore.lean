import Verif.StdOut.PropsUtil
import Verif.StdOut.PropsTimes

/-! # C66: clock time of a simulation, damaged lines -/

namespace Verif.StdOut

open Verif.MeansFile Verif.PhysFiles

section
variable {Q : Type*} [Field Q] [LinearOrder Q] [IsStrictOrderedRing Q] [FloorRing Q]

/-- C66: `full_clock_time`, computed from the estimations of a log, is the sum of the elapsed clock times
between the informations, up to the rounding of the estimations to the second. -/
theorem C66_full_clock_partial (round : Q → ℤ) (hround : ∀ x, |(round x : Q) - x| ≤ 1 / 2)
    (l : List (Entry Q × Q × Q))
    (h : ∀ x ∈ l, x.2.1 ≤ x.2.2 ∧ x.1.timeLast < x.1.time ∧ x.1.time < x.1.tEnd ∧
      evalLeft round (some x.2.1) x.1.timeLast x.1.time x.2.2 (x.1.tEnd - x.1.time) = some x.1.remaining) :
    |fullClock (l.map (·.1)) - (l.map fun x => x.2.2 - x.2.1).sum|
      ≤ (l.map fun x => (x.1.time - x.1.timeLast) / (2 * (x.1.tEnd - x.1.time))).sum := by
  induction l with
  | nil => simp [fullClock]
  | cons x l ih =>
    obtain ⟨h1, h2, h3, h4⟩ := h x (by simp)
    obtain ⟨y, hy, hb⟩ := C66_clock_partial round hround x.1 x.2.1 x.2.2 h1 h2 h3 h4
    have := ih fun z hz => h z (by simp [hz])
    have e : fullClock ((x :: l).map (·.1)) = y + fullClock (l.map (·.1)) := by
      simp [fullClock, hy]
    rw [e, List.map_cons, List.sum_cons, List.map_cons, List.sum_cons]
    calc |y + fullClock (l.map (·.1)) - (x.2.2 - x.2.1 + (l.map fun x => x.2.2 - x.2.1).sum)|
        = |(y - (x.2.2 - x.2.1)) + (fullClock (l.map (·.1)) - (l.map fun x => x.2.2 - x.2.1).sum)| := by
          congr 1; ring
      _ ≤ _ := (abs_add_le _ _).trans (add_le_add hb this)

example : ∃ round : ℚ → ℤ, (∀ x, |(round x : ℚ) - x| ≤ 1 / 2) ∧
    evalLeft round (some (100 : ℚ)) 0 2 104 (10 - 2) = some 16 :=
  ⟨_root_.round, fun x => by rw [abs_sub_comm]; exact abs_sub_round x, by
    norm_num [evalLeft]; rfl⟩

end

section
variable {K : Type*} (nm : Num K)

/-- C66: `_load_times` stops with `ValueError` at the first line "it = ..." where one of the three
numbers is not one. -/
theorem C66_times_damaged (σ σ' : Vars K) (a r : List Str) (l : Str) (xs : List (Entry K))
    (ha : timesLoop nm σ a = .ok (σ', xs)) (hl : startsWith "it = ".toList l = true) {w w6 w10 : Str}
    (h2 : (splitWs l)[2]? = some w) (h6 : (splitWs l)[6]? = some w6) (h10 : (splitWs l)[10]? = some w10)
    (hn : nm.pyFloat w = none ∨ nm.pyFloat w6 = none ∨ nm.pyFloat w10 = none) :
    timesLoop nm σ (a ++ l :: r) = .error .ValueError := by
  have key : ∀ σ, timesLine nm σ l = .error .ValueError := by
    intro σ
    rw [timesLine, if_pos hl]
    simp only [numAt, h2, h6, h10]
    cases h : nm.pyFloat w with
    | none => rfl
    | some x =>
      cases h' : nm.pyFloat w6 with
      | none => rfl
      | some x' =>
        cases h'' : nm.pyFloat w10 with
        | none => rfl
        | some x'' => simp [h, h', h''] at hn
  induction a generalizing σ xs with
  | nil => simp [timesLoop, key]
  | cons b a ih =>
    rw [timesLoop] at ha
    rw [List.cons_append, timesLoop]
    cases hb : timesLine nm σ b with
    | error e => rw [hb] at ha; simp at ha
    | ok y =>
      obtain ⟨σ1, x⟩ := y
      rw [hb] at ha
      dsimp only at ha ⊢
      cases hc : timesLoop nm σ1 a with
      | error e => rw [hc] at ha; simp at ha
      | ok z =>
        obtain ⟨σ2, xs'⟩ := z
        rw [hc] at ha
        simp only [Except.ok.injEq, Prod.mk.injEq] at ha
        rw [ih σ1 xs' (by rw [hc, ha.1])]

/-- C66: a duration whose hours, minutes and seconds are not three natural numbers is refused with
`ValueError`. -/
theorem C66_duration_damaged (line s : Str) (hd : isInfix "day".toList line = false)
    (h4 : (splitWs line)[4]? = some s)
    (hs : (splitChar ':' s).length ≠ 3 ∨ ∃ w ∈ splitChar ':' s, w = [] ∨ ∃ c ∈ w, isDig c = false) :
    readDur line = .error .ValueError := by
  have bad : ∀ w : Str, (w = [] ∨ ∃ c ∈ w, isDig c = false) → int? w = .error .ValueError := by
    intro w hw
    have : pyInt w = none := by
      rw [pyInt, if_neg]
      rintro ⟨h1, h2⟩
      rcases hw with h | ⟨c, hc, h⟩
      · exact h1 h
      · rw [List.all_eq_true] at h2
        rw [h2 c hc] at h; simp at h
    rw [int?, this]
  have err : ∀ (w : Str) e, int? w = .error e → e = .ValueError := by
    intro w e h
    rw [int?] at h
    cases hp : pyInt w with
    | none => rw [hp] at h; simpa using h.symm
    | some n => rw [hp] at h; simp at h
  have all : ∀ l : List Str, (∃ w ∈ l, w = [] ∨ ∃ c ∈ w, isDig c = false) →
      allOk int? l = .error .ValueError := by
    intro l
    induction l with
    | nil => rintro ⟨w, hw, -⟩; simp at hw
    | cons a l ih =>
      rintro ⟨w, hw, h⟩
      rw [allOk]
      cases ha : int? a with
      | error e => rw [err a e ha]
      | ok b =>
        rcases List.mem_cons.1 hw with rfl | hw
        · rw [bad w h] at ha; simp at ha
        · rw [ih ⟨w, hw, h⟩]
  have len : ∀ (l : List Str) bs, allOk int? l = .ok bs → bs.length = l.length := by
    intro l
    induction l with
    | nil => intro bs h; simp [allOk] at h; simp [← h]
    | cons a l ih =>
      intro bs h
      rw [allOk] at h
      cases ha : int? a with
      | error e => rw [ha] at h; simp at h
      | ok b =>
        rw [ha] at h
        dsimp only at h
        cases hb : allOk int? l with
        | error e => rw [hb] at h; simp at h
        | ok cs => rw [hb] at h; simp at h; simp [← h, ih cs hb]
  have errs : ∀ (l : List Str) e, allOk int? l = .error e → e = .ValueError := by
    intro l
    induction l with
    | nil => intro e h; simp [allOk] at h
    | cons a l ih =>
      intro e h
      rw [allOk] at h
      cases ha : int? a with
      | error e' => rw [ha] at h; simp at h; rw [← h]; exact err a e' ha
      | ok b =>
        rw [ha] at h
        dsimp only at h
        cases hb : allOk int? l with
        | error e' => rw [hb] at h; simp at h; rw [← h]; exact ih e' hb
        | ok cs => rw [hb] at h; simp at h
  rw [readDur]
  simp only [hd, at?, h4, if_false, Bool.false_eq_true]
  cases hr : allOk int? (splitChar ':' s) with
  | error e => rw [errs _ e hr]
  | ok bs =>
    rcases hs with hs | hs
    · have := len _ _ hr
      rcases bs with _ | ⟨a, _ | ⟨b, _ | ⟨c, _ | ⟨d, t⟩⟩⟩⟩
      · rfl
      · rfl
      · rfl
      · exact absurd this.symm (by simpa using hs)
      · rfl
    · rw [all _ hs] at hr; simp at hr

/-- Such lines. -/
example : readDur "     estimated remaining duration = 0:0x:01".toList = .error .ValueError ∧
    readDur "     estimated remaining duration = 0:00:01".toList ≠ .error .ValueError := by decide +kernel

end

end Verif.StdOut
