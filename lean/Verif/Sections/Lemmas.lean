import Verif.Sections.Spec
import Verif.PhysFiles.Props
import Mathlib.Tactic.Linarith
import Mathlib.Tactic.FieldSimp
import Mathlib.Tactic.Ring

/-! Lemmas for C70. -/

namespace Verif.Sections

open Verif.PhysFiles (Str argmin isclose fieldInterp argmin_spec)

set_option linter.unusedSectionVars false
set_option linter.unusedSimpArgs false

variable {Q : Type*} [Field Q] [LinearOrder Q] [IsStrictOrderedRing Q] {F : Type*}

/-- Cut normal to an axis. -/
def cut (m : Axis) (a : Arr3 F) (i : ℤ) : Except Err (Out F) :=
  match m with
  | .x => cutX a i
  | .y => cutY a i
  | .z => cutZ a i

theorem fromFile_index (g : Geo Q) (ev : Ev Q) (m : Axis) (t : Str) (a : Arr3 F) :
    fromFile g ev (some (equation true m t)) a = withVal (ev.int t) fun i => cut m a i := by
  cases m <;> simp [fromFile, after, equation, Axis.letter, cut]

theorem fromFile_value (g : Geo Q) (ev : Ev Q) (m : Axis) (t : Str) (a : Arr3 F) :
    fromFile g ev (some (equation false m t)) a = withVal (ev.num t) fun v => cut m a (nearest g m v) := by
  cases m <;> simp [fromFile, after, equation, Axis.letter, cut]

theorem labels_equation (b : Bool) (m : Axis) (t : Str) : labels (equation b m t) = .ok (figureAxes m) := by
  cases m <;> cases b <;> simp [labels, starts, equation, Axis.letter, figureAxes]

theorem axisData_equation (g : Geo Q) (b : Bool) (m : Axis) (t : Str) :
    axisData g (some (equation b m t)) = .ok (grid g (figureAxes m).1, grid g (figureAxes m).2) := by
  cases m <;> cases b <;> simp [axisData, starts, equation, Axis.letter, figureAxes]

theorem setEquation_equation (s : St) (b : Bool) (m : Axis) (t : Str) :
    setEquation s (equation b m t) = (⟨equation b m t, (figureAxes m).1, (figureAxes m).2⟩, .ok ()) := by
  cases m <;> cases b <;> simp [setEquation, starts, equation, Axis.letter, figureAxes]

theorem pyIndex_ok (n k : ℕ) (i : ℤ) : pyIndex n i = .ok k ↔ k < n ∧ (i = k ∨ i = (k : ℤ) - n) := by
  unfold pyIndex
  split_ifs with h1 h2
  · simp only [Except.ok.injEq]; omega
  · simp only [Except.ok.injEq]; omega
  · simp only [false_iff, reduceCtorEq]; omega

theorem pyIndex_error (n : ℕ) (i : ℤ) (e : Err) :
    pyIndex n i = .error e ↔ e = .index ∧ (i < -(n : ℤ) ∨ (n : ℤ) ≤ i) := by
  unfold pyIndex
  split_ifs with h1 h2
  · simp only [false_iff, reduceCtorEq]; omega
  · simp only [false_iff, reduceCtorEq]; omega
  · simp only [Except.error.injEq]
    constructor
    · intro h; exact ⟨h.symm, by omega⟩
    · intro h; exact h.1.symm

theorem cut_ok (m : Axis) (a : Arr3 F) (i : ℤ) (k : ℕ) (h : pyIndex (a.len m) i = .ok k) :
    ∃ s, cut m a i = .ok (.plane s) ∧ IsSection a m (figureAxes m).1 (figureAxes m).2 k s := by
  cases m <;> simp only [cut, cutX, cutY, cutZ, Arr3.len] at h ⊢ <;> simp only [h]
  · exact ⟨_, rfl, rfl, rfl, fun p hp _ _ => by simp only [figureAxes, Arr3.at, hp]⟩
  · exact ⟨_, rfl, rfl, rfl, fun p hp _ _ => by simp only [figureAxes, Arr3.at, hp]⟩
  · exact ⟨_, rfl, rfl, rfl, fun p hp _ _ => by simp only [figureAxes, Arr3.at, hp]⟩

theorem cut_error (m : Axis) (a : Arr3 F) (i : ℤ) (e : Err) (h : pyIndex (a.len m) i = .error e) :
    cut m a i = .error e := by
  cases m <;> simp only [cut, cutX, cutY, cutZ, Arr3.len] at h ⊢ <;> simp only [h]

theorem cut_error_iff (m : Axis) (a : Arr3 F) (i : ℤ) (e : Err) :
    cut m a i = .error e ↔ pyIndex (a.len m) i = .error e := by
  refine ⟨fun h => ?_, cut_error m a i e⟩
  cases hp : pyIndex (a.len m) i with
  | ok k => obtain ⟨s, hs, -⟩ := cut_ok m a i k hp; rw [hs] at h; simp at h
  | error e' => rw [cut_error m a i e' hp] at h; simpa using h

theorem grid_length (g : Geo Q) (ax : Axis) : (grid g ax).length = g.n ax := by
  unfold grid
  split_ifs with h1 h2
  · simp [h2]
  · simp
  · simp

theorem grid_get (g : Geo Q) (ax : Axis) (hc : g.coarse = false) (i : ℕ) (hi : i < g.n ax) :
    (grid g ax)[i]? = some (coord (g.L ax) (g.n ax) i) := by
  simp [grid, hc, hi, coord]

/-- The index found by `nearest` is in the grid, minimises the distance, and is the first one to do so. -/
theorem nearest_spec (g : Geo Q) (ax : Axis) (v : Q) (hn : 0 < g.n ax) :
    nearest g ax v < g.n ax ∧ ∃ c, (grid g ax)[nearest g ax v]? = some c ∧
      (∀ c' ∈ grid g ax, |c - v| ≤ |c' - v|) ∧
      ∀ (j : ℕ) (c' : Q), j < nearest g ax v → (grid g ax)[j]? = some c' → |c - v| < |c' - v| := by
  have hne : (grid g ax) ≠ [] := by
    intro h; have := grid_length g ax; rw [h] at this; simp at this; omega
  obtain ⟨d, h1, h2, h3⟩ := argmin_spec ((grid g ax).map fun c => |c - v|) (by simpa using hne)
  rw [List.getElem?_map, Option.map_eq_some_iff] at h1
  obtain ⟨c, hc, rfl⟩ := h1
  refine ⟨?_, c, hc, fun c' hc' => h2 _ (List.mem_map_of_mem hc'), fun j c' hj hc' => ?_⟩
  · obtain ⟨h, -⟩ := List.getElem?_eq_some_iff.1 hc
    rw [grid_length] at h
    exact h
  · exact h3 j _ hj (by rw [List.getElem?_map, hc']; rfl)

theorem nearest_fine (g : Geo Q) (ax : Axis) (v : Q) (hc : g.coarse = false) (hn : 0 < g.n ax) :
    nearest g ax v < g.n ax ∧
      (∀ j, j < g.n ax → |coord (g.L ax) (g.n ax) (nearest g ax v) - v| ≤ |coord (g.L ax) (g.n ax) j - v|) ∧
      ∀ j, j < nearest g ax v → |coord (g.L ax) (g.n ax) (nearest g ax v) - v| < |coord (g.L ax) (g.n ax) j - v| := by
  obtain ⟨hlt, c, h1, h2, h3⟩ := nearest_spec g ax v hn
  rw [grid_get g ax hc _ hlt, Option.some.injEq] at h1
  subst h1
  refine ⟨hlt, fun j hj => h2 _ (List.mem_of_getElem? (grid_get g ax hc j hj)), fun j hj => ?_⟩
  exact h3 j _ hj (grid_get g ax hc j (by omega))

/-- The nearest grid point is unique up to equality of the distances: a strictly closer point is the one found. -/
theorem nearest_eq (g : Geo Q) (ax : Axis) (v : Q) (i : ℕ) (c : Q) (hi : (grid g ax)[i]? = some c)
    (h : ∀ (j : ℕ) (c' : Q), j ≠ i → (grid g ax)[j]? = some c' → |c - v| < |c' - v|) : nearest g ax v = i := by
  have hn : 0 < g.n ax := by
    obtain ⟨h', -⟩ := List.getElem?_eq_some_iff.1 hi
    rw [grid_length] at h'; omega
  obtain ⟨hlt, d, h1, h2, -⟩ := nearest_spec g ax v hn
  by_contra hne
  have := h _ d hne h1
  exact absurd (h2 c (List.mem_of_getElem? hi)) (not_le.2 this)

/-! ### Averages -/

variable {V : Type*} [AddCommGroup V] [Module Q V]

theorem sumFields_ok (f : Q → Except Err V) (w : Q → V) (l : List Q) (h : ∀ t ∈ l, f t = .ok (w t)) :
    sumFields f l = .ok ((l.map w).sum) := by
  induction l with
  | nil => rfl
  | cons t l ih =>
    have h1 := h t List.mem_cons_self
    have h2 := ih fun t ht => h t (List.mem_cons_of_mem _ ht)
    simp [sumFields, h1, h2]

theorem sumFields_error (f : Q → Except Err V) (l : List Q) (e : Err) (h : sumFields f l = .error e) :
    ∃ t ∈ l, f t = .error e := by
  induction l with
  | nil => simp [sumFields] at h
  | cons t l ih =>
    rw [sumFields] at h
    cases hf : f t with
    | error e' => rw [hf] at h; simp at h; exact ⟨t, List.mem_cons_self, by rw [hf, h]⟩
    | ok v =>
      rw [hf] at h
      cases hs : sumFields f l with
      | error e' =>
        rw [hs] at h; simp at h
        obtain ⟨t', ht', hf'⟩ := ih (by rw [hs, h])
        exact ⟨t', List.mem_cons_of_mem _ ht', hf'⟩
      | ok w => rw [hs] at h; simp at h

end Verif.Sections
