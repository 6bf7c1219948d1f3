import Verif.Sections.Lemmas
import Mathlib.Algebra.Order.Ring.Rat
import Mathlib.Algebra.Order.Field.Rat

/-! # C70: theorems on the cross-sections and the plots of the physical fields -/

namespace Verif.Sections

open Verif.PhysFiles (Str argmin isclose fieldInterp)

set_option linter.unusedSectionVars false

variable {Q : Type*} [Field Q] [LinearOrder Q] [IsStrictOrderedRing Q] {F : Type*}

/-! ### Sections -/

/-- A section by index, `iz=2`: the plane of that index (counted from the end if it is negative), with the axes of
the figure in the order announced by the labels; an index outside of the axis raises IndexError. -/
theorem C70_index (g : Geo Q) (ev : Ev Q) (m : Axis) (t : Str) (i : ℤ) (a : Arr3 F) (ht : ev.int t = .ok i) :
    (∀ k, k < a.len m → (i = k ∨ i = (k : ℤ) - a.len m) →
      ∃ (s : Arr2 F) (h v : Axis), fromFile g ev (some (equation true m t)) a = .ok (.plane s) ∧
        labels (equation true m t) = .ok (h, v) ∧ [m, h, v].Nodup ∧ IsSection a m h v k s) ∧
    (i < -(a.len m : ℤ) ∨ (a.len m : ℤ) ≤ i →
      fromFile g ev (some (equation true m t)) a = .error .index) := by
  rw [fromFile_index, ht]
  refine ⟨fun k hk hi => ?_, fun hi => ?_⟩
  · obtain ⟨s, h1, h2⟩ := cut_ok m a i k ((pyIndex_ok _ _ _).2 ⟨hk, hi⟩)
    exact ⟨s, _, _, h1, labels_equation _ _ _, by cases m <;> decide, h2⟩
  · exact cut_error m a i _ ((pyIndex_error _ _ _).2 ⟨rfl, hi⟩)

/-- A section by coordinate, `z=1.2`, with the operators of a simulation which runs: the plane of the grid whose
coordinate is the closest to the requested one, and the first of them if two are equally close. There is no error. -/
theorem C70_value_partial (g : Geo Q) (ev : Ev Q) (m : Axis) (t : Str) (c : Q) (a : Arr3 F)
    (ht : ev.num t = .ok c) (hc : g.coarse = false) (hn : a.len m = g.n m) (h0 : 0 < g.n m) :
    ∃ (k : ℕ) (s : Arr2 F) (h v : Axis), k < g.n m ∧
      (∀ j, j < g.n m → |coord (g.L m) (g.n m) k - c| ≤ |coord (g.L m) (g.n m) j - c|) ∧
      (∀ j, j < k → |coord (g.L m) (g.n m) k - c| < |coord (g.L m) (g.n m) j - c|) ∧
      fromFile g ev (some (equation false m t)) a = .ok (.plane s) ∧
      labels (equation false m t) = .ok (h, v) ∧ [m, h, v].Nodup ∧ IsSection a m h v k s := by
  obtain ⟨h1, h2, h3⟩ := nearest_fine g m c hc h0
  obtain ⟨s, h4, h5⟩ := cut_ok m a (nearest g m c) (nearest g m c) ((pyIndex_ok _ _ _).2 ⟨hn ▸ h1, Or.inl rfl⟩)
  refine ⟨nearest g m c, s, _, _, h1, h2, h3, ?_, labels_equation _ _ _, by cases m <;> decide, h5⟩
  rw [fromFile_value, ht]
  exact h4

/-- In particular the coordinate of a grid point selects its plane. -/
theorem C70_value_exact (g : Geo Q) (ev : Ev Q) (m : Axis) (t : Str) (k : ℕ) (a : Arr3 F)
    (ht : ev.num t = .ok (coord (g.L m) (g.n m) k)) (hc : g.coarse = false) (hn : a.len m = g.n m)
    (hL : 0 < g.L m) (hk : k < g.n m) :
    ∃ (s : Arr2 F) (h v : Axis), fromFile g ev (some (equation false m t)) a = .ok (.plane s) ∧
      labels (equation false m t) = .ok (h, v) ∧ [m, h, v].Nodup ∧ IsSection a m h v k s := by
  obtain ⟨k', s, h, v, h1, h2, -, h4, h5, h6, h7⟩ := C70_value_partial g ev m t _ a ht hc hn (by omega)
  have h8 := h2 k hk
  rw [sub_self, abs_zero] at h8
  have h9 := sub_eq_zero.1 (abs_nonpos_iff.1 h8)
  have hpos : (0 : Q) < g.L m / g.n m := div_pos hL (by exact_mod_cast (by omega : 0 < g.n m))
  have h10 : (k' : Q) = k := mul_right_cancel₀ hpos.ne' h9
  have h11 : k' = k := by exact_mod_cast h10
  subst h11
  exact ⟨s, h, v, h4, h5, h6, h7⟩

/-- The distance between the requested coordinate and the plane is at most half a grid step, for all the
coordinates within half a step of the grid. -/
theorem C70_value_distance (g : Geo Q) (m : Axis) (c : Q) (hc : g.coarse = false) (hL : 0 < g.L m) (h0 : 0 < g.n m)
    (hlo : -(g.L m / g.n m) / 2 ≤ c) (hhi : c ≤ g.L m - g.L m / g.n m / 2) :
    |coord (g.L m) (g.n m) (nearest g m c) - c| ≤ g.L m / g.n m / 2 := by
  obtain ⟨-, h2, -⟩ := nearest_fine g m c hc h0
  have hnq : (0 : Q) < g.n m := by exact_mod_cast h0
  set d := g.L m / g.n m with hd
  have hpos : 0 < d := div_pos hL hnq
  have hLd : g.L m = g.n m * d := by rw [hd]; field_simp
  -- the largest index whose coordinate minus half a step is at most `c`
  have key : ∃ j, j < g.n m ∧ |(j : Q) * d - c| ≤ d / 2 := by
    have : ∀ n : ℕ, 0 < n → c ≤ n * d - d / 2 → ∃ j, j < n ∧ |(j : Q) * d - c| ≤ d / 2 := by
      intro n
      induction n with
      | zero => intro h; omega
      | succ n ih =>
        intro _ hle
        push_cast at hle
        by_cases hcn : c ≤ n * d - d / 2
        · rcases Nat.eq_zero_or_pos n with rfl | hn
          · refine ⟨0, by omega, ?_⟩
            rw [abs_le]; push_cast at hcn ⊢; constructor <;> linarith
          · obtain ⟨j, hj, h⟩ := ih hn hcn
            exact ⟨j, by omega, h⟩
        · refine ⟨n, by omega, ?_⟩
          rw [abs_le]; constructor <;> linarith
    exact this _ h0 (by rw [hLd] at hhi; linarith)
  obtain ⟨j, hj, h⟩ := key
  exact (h2 j hj).trans h

/-- The section of the state of a three-dimensional solver and the section of the same field read from a file are the
same, for every equation, valid or not. -/
theorem C70_state_file (g : Geo Q) (ev : Ev Q) (eq : Option Str) (a : Arr3 F) :
    fromState g ev 3 eq a = fromFile g ev eq a := by
  cases eq <;> simp [fromState, fromFile]

/-- The data of a figure are consistent: the coordinates given with a section are the ones of the rows and of the
columns of the section. -/
theorem C70_axes (g : Geo Q) (ev : Ev Q) (b : Bool) (m : Axis) (t : Str) (a : Arr3 F) (s : Arr2 F)
    (hn : ∀ ax, a.len ax = g.n ax) (hs : fromFile g ev (some (equation b m t)) a = .ok (.plane s)) :
    ∃ h v : Axis, labels (equation b m t) = .ok (h, v) ∧
      axisData g (some (equation b m t)) = .ok (grid g h, grid g v) ∧
      s.n0 = (grid g v).length ∧ s.n1 = (grid g h).length ∧
      (setEquation St.init (equation b m t)).1.vecx = h ∧ (setEquation St.init (equation b m t)).1.vecy = v ∧
      (setEquation St.init (equation b m t)).2 = .ok () ∧
      (g.coarse = false → ∀ i, i < g.n h → (grid g h)[i]? = some (coord (g.L h) (g.n h) i)) ∧
      (g.coarse = false → ∀ i, i < g.n v → (grid g v)[i]? = some (coord (g.L v) (g.n v) i)) := by
  obtain ⟨i, hi⟩ : ∃ i : ℤ, cut m a i = .ok (.plane s) := by
    cases b
    · rw [fromFile_value] at hs
      cases hv : ev.num t with
      | error e => rw [hv] at hs; simp [withVal] at hs
      | ok v => rw [hv] at hs; exact ⟨_, hs⟩
    · rw [fromFile_index] at hs
      cases hv : ev.int t with
      | error e => rw [hv] at hs; simp [withVal] at hs
      | ok v => rw [hv] at hs; exact ⟨_, hs⟩
  have hshape : s.n0 = a.len (figureAxes m).2 ∧ s.n1 = a.len (figureAxes m).1 := by
    cases hp : pyIndex (a.len m) i with
    | error e => rw [cut_error m a i e hp] at hi; simp at hi
    | ok k =>
      obtain ⟨s', h1, h2, h3, -⟩ := cut_ok m a i k hp
      rw [h1] at hi
      simp only [Except.ok.injEq, Out.plane.injEq] at hi
      subst hi
      exact ⟨h2, h3⟩
  have hset := setEquation_equation St.init b m t
  exact ⟨(figureAxes m).1, (figureAxes m).2, labels_equation b m t, axisData_equation g b m t,
    by rw [hshape.1, hn, grid_length], by rw [hshape.2, hn, grid_length], by rw [hset], by rw [hset], by rw [hset],
    fun hc i hi => grid_get g _ hc i hi, fun hc i hi => grid_get g _ hc i hi⟩

/-- A text which is not an equation is refused everywhere: by the sections of the state and of the files, the labels,
the coordinates and the setter. -/
theorem C70_refused (g : Geo Q) (ev : Ev Q) (eq : Str) (a : Arr3 F) (s : St)
    (h : ∀ b m t, eq ≠ equation b m t) :
    fromFile g ev (some eq) a = .error .notImplemented ∧ fromState g ev 3 (some eq) a = .error .notImplemented ∧
      labels eq = .error .notImplemented ∧ axisData g (some eq) = .error .notImplemented ∧
      (setEquation s eq).2 = .error .notImplemented := by
  have key : ∀ (b : Bool) (m : Axis), (equation b m []).isPrefixOf eq = false := by
    intro b m
    by_contra hcon
    rw [Bool.not_eq_false, List.isPrefixOf_iff_prefix] at hcon
    obtain ⟨t, ht⟩ := hcon
    exact h b m t (by rw [← ht]; cases b <;> simp [equation])
  have e1 : "iz=".toList.isPrefixOf eq = false := key true .z
  have e2 : "z=".toList.isPrefixOf eq = false := key false .z
  have e3 : "iy=".toList.isPrefixOf eq = false := key true .y
  have e4 : "y=".toList.isPrefixOf eq = false := key false .y
  have e5 : "ix=".toList.isPrefixOf eq = false := key true .x
  have e6 : "x=".toList.isPrefixOf eq = false := key false .x
  refine ⟨?_, ?_, ?_, ?_, ?_⟩
  · simp only [fromFile, after, e1, e2, e3, e4, e5, e6]; simp
  · simp only [fromState, after, e1, e2, e3, e4, e5, e6]; simp
  · simp only [labels, starts, e1, e2, e3, e4, e5, e6]; simp
  · simp only [axisData, starts, e1, e2, e3, e4, e5, e6]; simp
  · simp only [setEquation, starts, e1, e2, e3, e4, e5, e6]; simp

/-- Not true of the code: a refused call of `set_equation_crosssection` has no effect. Whatever the previous
equation, the refused text becomes the equation of the object, and the next plots without equation fail. -/
theorem C70_refused_effect_violated (g : Geo Q) (ev : Ev Q) (eq : Str) (a : Arr3 F) (s : St)
    (h : ∀ b m t, eq ≠ equation b m t) :
    (setEquation s eq).2 = .error .notImplemented ∧
      fromFile g ev (some (setEquation s eq).1.equation) a = .error .notImplemented := by
  obtain ⟨h1, -, -, -, h5⟩ := C70_refused g ev eq a s h
  refine ⟨h5, ?_⟩
  have : (setEquation s eq).1.equation = eq := by unfold setEquation; split_ifs <;> rfl
  rw [this, h1]

/-- After any sequence of accepted calls, the object uses the last one, for the section and for the vectors. -/
theorem C70_last_call (s : St) (pre : List Str) (b : Bool) (m : Axis) (t : Str) :
    calls s (pre ++ [equation b m t]) = ⟨equation b m t, (figureAxes m).1, (figureAxes m).2⟩ := by
  rw [calls, List.foldl_append]
  simp only [List.foldl_cons, List.foldl_nil]
  rw [setEquation_equation]

/-! ### Operators loaded for plotting -/

/-- Not true of the code: the coordinates of the figures are the ones of the grid points. For a simulation loaded with
`load_sim_for_plot`, all of them except the first are too large by the factor `n / (n - 1)`. -/
theorem C70_coarse_axes_violated (g : Geo Q) (ax : Axis) (hc : g.coarse = true) (hL : 0 < g.L ax) (i : ℕ)
    (hi : i < g.n ax) (h2 : 2 ≤ g.n ax) :
    (grid g ax)[i]? = some ((g.n ax : Q) / ((g.n ax : Q) - 1) * coord (g.L ax) (g.n ax) i) ∧
      (0 < i → (grid g ax)[i]? ≠ some (coord (g.L ax) (g.n ax) i)) := by
  have hnq : (2 : Q) ≤ g.n ax := by exact_mod_cast h2
  have h1 : (g.n ax : Q) - 1 ≠ 0 := by linarith
  have h0 : (g.n ax : Q) ≠ 0 := by linarith
  have hval : (grid g ax)[i]? = some ((i : Q) * (g.L ax / ((g.n ax : Q) - 1))) := by
    have hne : g.n ax ≠ 1 := by omega
    simp [grid, hc, hne, hi]
  refine ⟨?_, fun hpos => ?_⟩
  · rw [hval, coord]; congr 1; field_simp
  · rw [hval, coord]
    intro h
    rw [Option.some.injEq] at h
    have hiq : (i : Q) ≠ 0 := by exact_mod_cast hpos.ne'
    have h3 := mul_left_cancel₀ hiq h
    rw [div_eq_div_iff h1 h0] at h3
    have h4 := mul_left_cancel₀ hL.ne' h3
    linarith

/-- A box of length 4 with 4 points along each axis, loaded with `load_sim_for_plot`. -/
def exGeo : Geo ℚ := ⟨fun _ => 4, fun _ => 4, true⟩

/-- A field equal to the coordinate `z`. -/
def exField : Arr3 ℚ := ⟨4, 4, 4, fun k _ _ => k⟩

/-- `eval` of the text of a coordinate in a concrete case. -/
def exEv : Ev ℚ := ⟨fun _ => .ok 2, fun _ => .ok 2⟩

/-- Not true of the code: for a simulation loaded with `load_sim_for_plot` the section at a coordinate is the closest
plane. In a box of length 4 with 4 points, `z=2` is the coordinate of the plane 2 but the plane 1 is shown. -/
theorem C70_coarse_value_violated :
    coord (exGeo.L .z) (exGeo.n .z) 2 = 2 ∧
      (∃ s, fromFile exGeo exEv (some (equation false .z "2".toList)) exField = .ok (.plane s) ∧
        ∀ j i, s.get j i = 1) ∧
      ∃ s, fromFile { exGeo with coarse := false } exEv (some (equation false .z "2".toList)) exField = .ok (.plane s) ∧
        ∀ j i, s.get j i = 2 := by
  have h1 : nearest exGeo .z 2 = 1 := by decide +kernel
  have h2 : nearest { exGeo with coarse := false } .z 2 = 2 := by decide +kernel
  refine ⟨by norm_num [exGeo, coord], ?_, ?_⟩
  · rw [fromFile_value]
    refine ⟨⟨4, 4, fun _ _ => 1⟩, ?_, fun _ _ => rfl⟩
    simp only [exEv, withVal, cut, h1]
    simp [cutZ, pyIndex, exField]
  · rw [fromFile_value]
    refine ⟨⟨4, 4, fun _ _ => 2⟩, ?_, fun _ _ => rfl⟩
    simp only [exEv, withVal, cut, h2]
    simp [cutZ, pyIndex, exField]

/-- The sections by index do not depend on the way the operators are loaded. -/
theorem C70_coarse_index (g : Geo Q) (ev : Ev Q) (m : Axis) (t : Str) (a : Arr3 F) (b : Bool) :
    fromFile { g with coarse := b } ev (some (equation true m t)) a
      = fromFile g ev (some (equation true m t)) a := by
  rw [fromFile_index, fromFile_index]

/-! ### Online plot -/

/-- Not true of the code: the online plot of the physical fields works for the solvers in space. It takes the whole
field instead of the section, and the assertion on the shape fails for every equation, grid and field. -/
theorem C70_online_3d_violated (g : Geo Q) (ev : Ev Q) (b : Bool) (m : Axis) (t : Str) (a : Arr3 F) (s : St) :
    initOnlinePlot3d g ev (setEquation s (equation b m t)).1 a = .error .assertion := by
  rw [setEquation_equation]
  have h : stridedShape 1 (Out.full a).shape ≠
      [strided (grid g (figureAxes m).2).length 1, strided (grid g (figureAxes m).1).length 1] := by
    simp [Out.shape, stridedShape]
  simp only [initOnlinePlot3d, fromState, initFig, axisData_equation]
  rw [if_neg h]

/-- The first frame of a movie, which is drawn with the section, satisfies the assertion. -/
theorem C70_first_frame (g : Geo Q) (ev : Ev Q) (b : Bool) (m : Axis) (t : Str) (a : Arr3 F) (s : Arr2 F) (step : ℕ)
    (hn : ∀ ax, a.len ax = g.n ax) (hs : fromFile g ev (some (equation b m t)) a = .ok (.plane s)) :
    initFig g (some (equation b m t)) step (Out.plane s).shape = .ok () := by
  obtain ⟨h, v, -, h2, h3, h4, -⟩ := C70_axes g ev b m t a s hn hs
  simp only [initFig, h2, Out.shape, stridedShape, h3, h4, if_true]

/-- Non-vacuity: the section `iy=2` of a field whose value is `100 z + 10 y + x`. -/
example : ∃ s, fromFile (F := ℕ) { exGeo with coarse := false } exEv (some "iy=2".toList)
      ⟨4, 4, 4, fun k j i => 100 * k + 10 * j + i⟩ = .ok (.plane s) ∧ s.get 3 1 = 321 ∧
    labels "iy=2".toList = .ok (.x, .z) := by
  have : "iy=2".toList = equation true .y ['2'] := by simp [equation, Axis.letter]
  rw [this, fromFile_index, labels_equation]
  refine ⟨⟨4, 4, fun j i => 100 * j + 10 * 2 + i⟩, ?_, rfl, rfl⟩
  simp [exEv, withVal, cut, cutY, pyIndex]

/-- Non-vacuity of the hypotheses of C70_value_partial and C70_refused. -/
example : ({ exGeo with coarse := false } : Geo ℚ).coarse = false ∧ exField.len .z = exGeo.n .z ∧
    ∀ b m t, "w=1".toList ≠ equation b m t := by
  refine ⟨rfl, rfl, fun b m t => ?_⟩
  cases b <;> cases m <;> simp [equation, Axis.letter]

/-- The first frame of a movie in two dimensions: a field of `ny` lines of `nx` points is accepted, whatever the step;
without step, no other shape is. -/
theorem C70_first_frame_2d (g : Geo Q) (step : ℕ) :
    initFig g none step [g.n .y, g.n .x] = .ok () ∧
      ∀ shape, initFig g none 1 shape = .ok () → shape = [g.n .y, g.n .x] := by
  have hl : ∀ ax, (grid g ax).length = g.n ax := fun ax => by
    unfold grid
    split_ifs with h1 h2 <;> simp [*]
  constructor
  · simp [initFig, axisData, stridedShape, hl]
  · intro shape h
    have hs : ∀ k, strided k 1 = k := fun k => by simp [strided]
    simp only [initFig, axisData, hl, hs] at h
    split_ifs at h with h'
    match shape, h' with
    | a :: b :: l, h' => simpa [stridedShape, hs] using h'

/-- A stride keeps the points `0`, `step`, `2 step`... which are in the array. -/
theorem C70_stride (n step : ℕ) (h : 0 < step) (i : ℕ) : i < strided n step ↔ i * step < n := by
  unfold strided
  rw [Nat.lt_iff_add_one_le, Nat.le_div_iff_mul_le h, Nat.add_mul]
  omega

example : strided 7 3 = 3 := rfl

end Verif.Sections
