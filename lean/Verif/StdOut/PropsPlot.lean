import Verif.StdOut.ModelPlot
import Mathlib.Algebra.Order.Field.Basic
import Mathlib.Tactic.FieldSimp
import Mathlib.Tactic.Ring
import Mathlib.Tactic.Linarith
import Mathlib.Tactic.NormNum

/-! # C66: the figure of the clock times -/

namespace Verif.StdOut

variable {Q : Type} [Field Q] [LinearOrder Q] [IsStrictOrderedRing Q]

/-- The steps of a curve which is constant between `t` and the first time, then between two consecutive times. -/
def stepsFrom (t : Q) : List (Q × Option Q) → List (Q × Option Q)
  | [] => []
  | (t', v) :: l => (t, v) :: (t', v) :: stepsFrom t' l

theorem stairs_eq (start : Q) {l : List (Q × Option Q)} (h : l ≠ []) : stairs start l = .ok (stepsFrom start l) := by
  have key : ∀ (l : List (Q × Option Q)) (t : Q), l ≠ [] →
      List.zipWith Prod.mk (t :: ((l.map fun q => [q.1, q.1]).flatten).dropLast) (l.map fun q => [q.2, q.2]).flatten = stepsFrom t l := by
    intro l
    induction l with
    | nil => intro t h; exact absurd rfl h
    | cons p l ih =>
      intro t _
      cases l with
      | nil => simp [stepsFrom]
      | cons q l =>
        have := ih p.1 (by simp)
        simp only [List.map_cons, List.flatten_cons, List.cons_append, List.nil_append, stepsFrom, List.zipWith_cons_cons] at this ⊢
        rw [List.dropLast_cons_of_ne_nil (by simp), List.dropLast_cons_of_ne_nil (by simp)]
        simp only [List.zipWith_cons_cons]
        rw [this]
  cases l with
  | nil => exact absurd rfl h
  | cons p l => simp only [stairs]; rw [key _ _ (by simp)]

theorem filterMap_steps (t : Q) (l : List (Q × Option Q)) :
    (stepsFrom t l).filterMap (fun q => q.2) = ((l.filterMap fun q => q.2).map fun v => [v, v]).flatten := by
  induction l generalizing t with
  | nil => rfl
  | cons p l ih =>
    obtain ⟨t', v⟩ := p
    cases v <;> simp [stepsFrom, ih]

theorem sum_twice (l : List Q) : ((l.map fun v => [v, v]).flatten).sum = 2 * l.sum ∧ ((l.map fun v => [v, v]).flatten).length = 2 * l.length := by
  induction l with
  | nil => simp
  | cons a l ih => simp [ih.1, ih.2]; constructor <;> ring

/-- C66 (figure): for estimates which are positive, the curve is constant between the beginning and the first time and between two consecutive times
of the log, with the value of the clock time per time step of the interval; the printed number is the mean of these values. -/
theorem C66_plot_clock_partial (start : Q) {l : List (Entry Q)} (h : l ≠ []) (hpos : ∀ e ∈ l, ∀ c, e.perStep = some c → 0 < c) :
    ∃ m, plotClock start l = .ok (some (stepsFrom start (l.map fun e => (e.time, e.perStep)), m)) ∧
      m = (if l.filterMap Entry.perStep = [] then none
        else some ((l.filterMap Entry.perStep).sum / (l.filterMap Entry.perStep).length)) := by
  have hl : notPositive (((l.map fun e => (e.time, e.perStep)).getLast?.map fun q => q.2).getD none) = false := by
    rw [List.getLast?_map, List.getLast?_eq_some_getLast h]
    simp only [Option.map_some, Option.getD_some]
    cases hc : (l.getLast h).perStep with
    | none => rfl
    | some c =>
      have := hpos _ (List.getLast_mem h) c hc
      simp only [notPositive, decide_eq_false_iff_not, not_le]
      exact this
  refine ⟨_, ?_, rfl⟩
  simp only [plotClock, if_neg h, hl, Bool.false_eq_true, if_false]
  rw [stairs_eq start (by simpa using h)]
  simp only [filterMap_steps, List.filterMap_map, Function.comp_def]
  obtain ⟨e1, e2⟩ := sum_twice (l.filterMap Entry.perStep)
  rw [show (List.filterMap (fun x => Entry.perStep x) l) = l.filterMap Entry.perStep from rfl, e1, e2]
  by_cases hn : l.filterMap Entry.perStep = []
  · simp [hn]
  · rw [if_neg hn, if_neg (by intro h0; apply hn; have := congrArg List.length h0; rw [e2] at this; simpa using this)]
    push_cast
    rw [mul_div_mul_left _ _ two_ne_zero]

/-- Two lines: one time step of 10 s, then the last nine time steps (at the end the estimate is zero divided by zero). -/
def twoEntries : List (Entry ℚ) := [⟨90, 1, 0, 1, 0, 10, 1⟩, ⟨0, 10, 1, 10, 1, 10, 1⟩]

example : (∀ e ∈ twoEntries, ∀ c, e.perStep = some c → 0 < c) ∧ twoEntries.map Entry.perStep = [some 10, none] := by
  have : twoEntries.map Entry.perStep = [some 10, none] := by decide +kernel
  refine ⟨fun e he c hc => ?_, this⟩
  have h2 : e.perStep ∈ twoEntries.map Entry.perStep := List.mem_map_of_mem he
  rw [this, hc] at h2
  simp only [List.mem_cons, Option.some.injEq, List.not_mem_nil, or_false, reduceCtorEq] at h2
  rw [h2]
  norm_num

/-- C66, finding: what is printed as the "mean clock time per time step" is the mean over the lines of the log and not over the time steps: for one time
step in 10 s and then 9 time steps of 1 s, it is 5.5 s, and the simulation has computed 10 time steps in 19 s. -/
theorem C66_plot_mean_violated : let l : List (Entry ℚ) := [⟨190, 1, 0, 1, 0, 20, 1⟩, ⟨10, 10, 1, 10, 1, 20, 1⟩]
    l.map Entry.perStep = [some 10, some 1] ∧ fullClock l = 19 ∧ (l.map fun e => e.it - e.itLast).sum = 10 ∧
      ∃ s, plotClock 0 l = .ok (some (s, some (11 / 2))) := by
  refine ⟨by decide +kernel, by decide +kernel, by decide +kernel, ?_⟩
  obtain ⟨m, h, hm⟩ := C66_plot_clock_partial (0 : ℚ) (l := [⟨190, 1, 0, 1, 0, 20, 1⟩, ⟨10, 10, 1, 10, 1, 20, 1⟩]) (by simp) (by
    intro e he c hc
    have : ([⟨190, 1, 0, 1, 0, 20, 1⟩, ⟨10, 10, 1, 10, 1, 20, 1⟩] : List (Entry ℚ)).map Entry.perStep = [some 10, some 1] := by decide +kernel
    have h2 := List.mem_map_of_mem (f := Entry.perStep) he
    rw [this, hc] at h2
    simp only [List.mem_cons, Option.some.injEq, List.not_mem_nil, or_false] at h2
    rcases h2 with rfl | rfl <;> norm_num)
  have hm' : m = some (11 / 2) := hm.trans (by decide +kernel)
  rw [hm'] at h
  exact ⟨_, h⟩

/-- C66, finding: with one estimate which is rounded to zero seconds (a short simulation), `plot_clock_times` removes it and raises `IndexError`,
although it handles logs without any estimate. -/
theorem C66_plot_short_violated (start : Q) (e : Entry Q) (h0 : e.remaining = 0) (ht : e.tEnd ≠ e.time) (hi : e.it ≠ e.itLast) :
    plotClock start [e] = .error "IndexError" ∧ plotClock start [] = .ok none := by
  have : e.perStep = some 0 := by
    simp [Entry.perStep, Entry.clock, sub_ne_zero.2 ht, sub_ne_zero.2 hi, h0]
  constructor
  · simp [plotClock, this, notPositive, stairs]
  · simp [plotClock]

end Verif.StdOut
