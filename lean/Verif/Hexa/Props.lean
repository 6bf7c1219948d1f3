import Mathlib.Tactic.NormNum
import Verif.Hexa.Lemmas

/-!
# C76: cuts and figures of hexahedral files
-/

namespace Verif.Hexa

set_option linter.unusedSectionVars false

variable {Q : Type*} [Field Q] [LinearOrder Q] [IsStrictOrderedRing Q]

/-! ### Keys -/

/-- The components of the velocity and of the position are designated by their names only. -/
theorem C76_keys_vectors (key : List Char) (c : ℕ) :
    (parseKey key = .ok (.vel, c) ↔
      (key = "vx".toList ∧ c = 0) ∨ (key = "vy".toList ∧ c = 1) ∨ (key = "vz".toList ∧ c = 2)) ∧
    (parseKey key = .ok (.pos, c) ↔
      (key = "x".toList ∧ c = 0) ∨ (key = "y".toList ∧ c = 1) ∨ (key = "z".toList ∧ c = 2)) := by
  refine ⟨⟨fun h => ?_, ?_⟩, ⟨fun h => ?_, ?_⟩⟩
  · unfold parseKey at h
    split at h
    · split_ifs at h with h1 h2 h3 <;> simp_all
    · split at h
      · split_ifs at h <;> simp_all
      · split_ifs at h
        · simp at h
        · simp at h
        · split at h
          · simp at h
          · split at h <;> simp at h
          · simp at h
  · rintro (⟨rfl, rfl⟩ | ⟨rfl, rfl⟩ | ⟨rfl, rfl⟩) <;> decide +kernel
  · unfold parseKey at h
    split at h
    · split_ifs at h with h1 h2 h3 <;> simp_all
    · split at h
      · split_ifs at h <;> simp_all
      · split_ifs at h
        · simp at h
        · simp at h
        · split at h
          · simp at h
          · split at h <;> simp at h
          · simp at h
  · rintro (⟨rfl, rfl⟩ | ⟨rfl, rfl⟩ | ⟨rfl, rfl⟩) <;> decide +kernel

/-- "scalar n" designates the scalar of index `n`, for every number. -/
theorem C76_key_scalar (s : List Char) (h0 : s ≠ []) (hs : ∀ c ∈ s, c.isDigit) :
    parseKey ("scalar ".toList ++ s) = .ok (.scal, decimal s) := by
  have hw : words ("scalar ".toList ++ s) = ["scalar".toList, s] := by
    have h1 : ∀ c ∈ "scalar".toList, ¬ (decide (c = ' ')) = true := by decide
    have h2 : ∀ c ∈ s, ¬ (decide (c = ' ')) = true := by
      intro c hc h
      have : c = ' ' := by simpa using h
      have := hs c hc
      rw [‹c = ' '›] at this
      exact absurd this (by decide)
    have he : "scalar ".toList ++ s = "scalar".toList ++ ' ' :: s := rfl
    rw [words, he, List.splitOnP_append_cons_of_forall_mem (by simp) ' ' (by simp)]
    rw [List.splitOnP_eq_singleton (by simpa using h2)]
    simp [h0]
  have hp : parseNat s = some (decimal s) := by
    rw [parseNat, if_pos ⟨h0, by simpa using hs⟩, decimal_foldl]
    simp
  have hd : parseKey ("scalar ".toList ++ s) = match words ("scalar ".toList ++ s) with
    | [_] => .ok (.scal, 0)
    | [_, n] => match parseNat n with
      | some i => .ok (.scal, i)
      | none => .error .value
    | _ => .error .value := rfl
  rw [hd, hw]
  dsimp only
  rw [hp]

/-- Non-vacuity: the scalar 12. -/
example : parseKey "scalar 12".toList = .ok (.scal, 12) := by decide +kernel

/-- A variable that is not read by the movie is not drawn by it, as long as temperature and pressure
are written in full. -/
theorem C76_movie_variable_partial (key : List Char) (var : Var) (c : ℕ)
    (h : parseKey key = .ok (var, c))
    (ht : "temp".toList.isPrefixOf key → key = "temperature".toList)
    (hp : "pres".toList.isPrefixOf key → key = "pressure".toList) : var ∉ skipVars key := by
  have hT : var = .temp → "temp".toList.isPrefixOf key := by
    rintro rfl
    unfold parseKey at h
    split at h
    · split_ifs at h <;> cases h
    · split at h
      · split_ifs at h <;> cases h
      · split_ifs at h with h1 h2 h3
        · exact h1
        · cases h
        · split at h
          · cases h
          · split at h <;> cases h
          · cases h
  have hP : var = .pres → "pres".toList.isPrefixOf key := by
    rintro rfl
    unfold parseKey at h
    split at h
    · split_ifs at h <;> cases h
    · split at h
      · split_ifs at h <;> cases h
      · split_ifs at h with h1 h2 h3
        · cases h
        · exact h2
        · split at h
          · cases h
          · split at h <;> cases h
          · cases h
  intro hm
  rcases List.mem_append.1 hm with hm | hm
  · by_cases hk : key = "temperature".toList
    · rw [if_neg (not_not.2 hk)] at hm; cases hm
    · rw [if_pos hk] at hm
      exact hk (ht (hT (List.mem_singleton.1 hm)))
  · by_cases hk : key = "pressure".toList
    · rw [if_neg (not_not.2 hk)] at hm; cases hm
    · rw [if_pos hk] at hm
      exact hk (hp (hP (List.mem_singleton.1 hm)))

/-- In full generality it is false: the key "temp", accepted for a figure, designates the temperature,
which the movie does not read. -/
theorem C76_movie_variable_violated :
    ∃ key, parseKey key = .ok (.temp, 0) ∧ Var.temp ∈ skipVars key :=
  ⟨"temp".toList, by decide +kernel, by decide⟩

/-! ### Equations -/

/-- Without spaces, the axes of the figure are the two directions of the cutting plane. -/
theorem C76_axes_partial (toFloat : List Char → Option Q) (eq : List Char) (hs : ' ' ∉ eq)
    (d : Dir) (t : Q) (h : parseEq toFloat (some eq) = .ok (d, t)) :
    ∃ a b, axesOf eq = .ok (a, b) ∧ a ≠ b ∧ a ≠ d ∧ b ≠ d := by
  have hf : eq.filter (· ≠ ' ') = eq := by
    rw [List.filter_eq_self]
    intro c hc
    simp only [ne_eq, decide_eq_true_eq]
    rintro rfl
    exact hs hc
  unfold parseEq at h
  simp only [Option.getD_some] at h
  unfold axesOf
  simp only [hf]
  split_ifs at h with h1 h2 h3
  · rw [if_pos h1]
    cases hq : toFloat (eq.drop 2) <;> rw [hq] at h <;> simp at h
    exact ⟨_, _, rfl, by simp, by simp [← h.1], by simp [← h.1]⟩
  · rw [if_neg h1, if_pos h2]
    cases hq : toFloat (eq.drop 2) <;> rw [hq] at h <;> simp at h
    exact ⟨_, _, rfl, by simp, by simp [← h.1], by simp [← h.1]⟩
  · rw [if_neg h1, if_neg h2, if_pos h3]
    cases hq : toFloat (eq.drop 2) <;> rw [hq] at h <;> simp at h
    exact ⟨_, _, rfl, by simp, by simp [← h.1], by simp [← h.1]⟩

/-- With spaces the axes are found but no field can be obtained, whatever the file: "z = 0". -/
theorem C76_equation_spaces_violated (toFloat : List Char → Option Q) (es : List (Elem Q))
    (hes : es ≠ []) :
    axesOf "z = 0".toList = .ok (.x, .y) ∧
    hexaField toFloat "vx".toList (some "z = 0".toList) es = .error .notImplemented := by
  refine ⟨by decide +kernel, ?_⟩
  have h1 : parseKey "vx".toList = .ok (.vel, 0) := by decide +kernel
  have h2 : parseEq toFloat (some "z = 0".toList) = .error .notImplemented := rfl
  rw [hexaField, h1]
  dsimp only
  rw [if_neg hes, h2]

/-- Without an equation, the plane is `z = 0`. -/
theorem C76_default_plane (toFloat : List Char → Option Q) (h : toFloat "0".toList = some 0)
    (key : List Char) (es : List (Elem Q)) :
    parseEq toFloat none = .ok (.z, 0) ∧
    hexaField toFloat key none es = hexaField toFloat key (some "z=0".toList) es := by
  refine ⟨?_, rfl⟩
  have : parseEq toFloat none = match toFloat "0".toList with
    | some q => .ok (.z, q)
    | none => .error .value := rfl
  rw [this, h]

/-! ### Cuts -/

open Classical in
/-- A horizontal cut shows all the elements met by the plane, in the order of the file, and of each
of them the layer whose first point is the closest to the plane. The layer is the same for all the
fields. -/
theorem C76_cut_z (t : Q) (es : List (Elem Q)) (hz : ∀ e ∈ es, 0 < e.nz) :
    ∃ idx : Elem Q → ℕ,
      (∀ e ∈ es, Closest e.nz (fun i => e.data .pos 2 i 0 0) t (idx e)) ∧
      ∀ var c, cutAll .z t var c es = .ok ((es.filter fun e => Meets e .z t).map fun e =>
        ⟨e.ny, e.nx, fun j k => e.data var c (idx e) j k⟩) := by
  refine ⟨fun e => cutIndex e .z t, fun e he => argmin_range e.nz (hz e he) _ t, ?_⟩
  intro var c
  induction es with
  | nil => rfl
  | cons e es ih =>
    rw [cutAll]
    have ih := ih fun e he => hz e (List.mem_cons_of_mem _ he)
    by_cases hm : Meets e .z t
    · rw [if_pos ((between_values e .z t).2 hm), layer]
      have hi : cutIndex e .z t < e.nz :=
        (argmin_range e.nz (hz e (by simp)) (fun i => e.data .pos 2 i 0 0) t).1
      dsimp only
      rw [if_pos hi]
      dsimp only
      rw [ih, List.filter_cons_of_pos (by simpa using hm)]
      rfl
    · rw [if_neg (by rw [between_values]; exact hm), ih,
        List.filter_cons_of_neg (by simpa using hm)]

/-- For elements that are boxes, the layer is the closest one everywhere, so that if the plane
contains a layer of the element this layer is shown. -/
theorem C76_cut_z_box (t : Q) (e : Elem Q) (xs ys zs : ℕ → Q) (h : Cartesian e xs ys zs) (i : ℕ)
    (hi : Closest e.nz (fun i => e.data .pos 2 i 0 0) t i) :
    (∀ j k, ∀ i' < e.nz, |e.data .pos 2 i j k - t| ≤ |e.data .pos 2 i' j k - t|) ∧
    ((∃ i' < e.nz, zs i' = t) → ∀ j k, e.data .pos 2 i j k = t) := by
  have h1 : ∀ i' < e.nz, |zs i - t| ≤ |zs i' - t| := by
    intro i' hi'
    simpa only [h.z] using hi.2 i' hi'
  refine ⟨fun j k i' hi' => by simpa only [h.z] using h1 i' hi', ?_⟩
  rintro ⟨i', hi', hz⟩ j k
  have := h1 i' hi'
  rw [hz, sub_self, abs_zero] at this
  rw [h.z]
  exact sub_eq_zero.1 (abs_eq_zero.1 (le_antisymm this (abs_nonneg _)))

/-- All the fields obtained with one equation are given on the same elements and the same layers, in
the same order (or all fail), so that pairing them is right. -/
theorem C76_same_points (d : Dir) (t : Q) (es : List (Elem Q)) :
    (∃ L : List (Elem Q × ℕ), (∀ p ∈ L, p.1 ∈ es ∧ Meets p.1 d t) ∧
      ∀ var c, ∃ as, cutAll d t var c es = .ok as ∧ as.length = L.length ∧
        ∀ (n : ℕ) (p : Elem Q × ℕ), L[n]? = some p → ∃ a, as[n]? = some a ∧
          layer p.1 d p.2 (p.1.data var c) = .ok a) ∨
    ∀ var c, cutAll d t var c es = .error .index := by
  induction es with
  | nil => exact Or.inl ⟨[], by simp, fun _ _ => ⟨[], rfl, rfl, by simp⟩⟩
  | cons e es ih =>
    by_cases hm : Meets e d t
    · have hb := (between_values e d t).2 hm
      by_cases hl : cutIndex e d t < (match d with | .z => e.nz | .y => e.ny | .x => e.nx)
      · have hl2 : ∀ a, ∃ r, layer e d (cutIndex e d t) a = .ok r := by
          intro a
          cases d <;> simp only at hl <;> simp only [layer, if_pos hl] <;> exact ⟨_, rfl⟩
        rcases ih with ⟨L, hL, h⟩ | h
        · left
          refine ⟨(e, cutIndex e d t) :: L, ?_, ?_⟩
          · intro p hp
            rcases List.mem_cons.1 hp with rfl | hp
            · exact ⟨by simp, hm⟩
            · exact ⟨List.mem_cons_of_mem _ (hL p hp).1, (hL p hp).2⟩
          · intro var c
            obtain ⟨as, h1, h2, h3⟩ := h var c
            obtain ⟨r, hr⟩ := hl2 (e.data var c)
            refine ⟨r :: as, ?_, by simp [h2], ?_⟩
            · rw [cutAll, if_pos hb, hr]
              dsimp only
              rw [h1]
              rfl
            · intro n p hn
              cases n with
              | zero =>
                obtain rfl : (e, cutIndex e d t) = p := by simpa using hn
                exact ⟨r, rfl, hr⟩
              | succ n => exact h3 n p (by simpa using hn)
        · right
          intro var c
          obtain ⟨r, hr⟩ := hl2 (e.data var c)
          rw [cutAll, if_pos hb, hr]
          dsimp only
          rw [h var c]
          rfl
      · right
        intro var c
        have : layer e d (cutIndex e d t) (e.data var c) = .error .index := by
          cases d <;> simp only at hl <;> simp only [layer, if_neg hl]
        rw [cutAll, if_pos hb, this]
    · have hb : ¬ between (e.values (e.data .pos d.comp)) t = true := by
        rw [between_values]; exact hm
      rcases ih with ⟨L, hL, h⟩ | h
      · left
        refine ⟨L, fun p hp => ⟨List.mem_cons_of_mem _ (hL p hp).1, (hL p hp).2⟩, ?_⟩
        intro var c
        rw [cutAll, if_neg hb]
        exact h var c
      · right
        intro var c
        rw [cutAll, if_neg hb]
        exact h var c

open Classical in
/-- A vertical cut of elements that are boxes always shows their first layer, whatever the plane. -/
theorem C76_cut_vertical_first_layer (t : Q) (es : List (Elem Q))
    (hc : ∀ e ∈ es, ∃ xs ys zs, Cartesian e xs ys zs) (var : Var) (c : ℕ) :
    cutAll .y t var c es = .ok ((es.filter fun e => Meets e .y t).map fun e =>
        ⟨e.nz, e.nx, fun j k => e.data var c j 0 k⟩) ∧
    cutAll .x t var c es = .ok ((es.filter fun e => Meets e .x t).map fun e =>
        ⟨e.nz, e.ny, fun j k => e.data var c j k 0⟩) := by
  induction es with
  | nil => exact ⟨rfl, rfl⟩
  | cons e es ih =>
    obtain ⟨ih1, ih2⟩ := ih fun e he => hc e (List.mem_cons_of_mem _ he)
    obtain ⟨xs, ys, zs, h⟩ := hc e (by simp)
    have hy : cutIndex e .y t = 0 := by
      rw [cutIndex]
      simp only [Dir.comp, h.y]
      exact argmin_const _ _ _
    have hx : cutIndex e .x t = 0 := by
      rw [cutIndex]
      simp only [Dir.comp, h.x]
      exact argmin_const _ _ _
    constructor
    · rw [cutAll]
      by_cases hm : Meets e .y t
      · rw [if_pos ((between_values e .y t).2 hm), hy, layer, if_pos h.ny]
        dsimp only
        rw [ih1, List.filter_cons_of_pos (by simpa using hm)]
        rfl
      · rw [if_neg (by rw [between_values]; exact hm), ih1,
          List.filter_cons_of_neg (by simpa using hm)]
    · rw [cutAll]
      by_cases hm : Meets e .x t
      · rw [if_pos ((between_values e .x t).2 hm), hx, layer, if_pos h.nx]
        dsimp only
        rw [ih2, List.filter_cons_of_pos (by simpa using hm)]
        rfl
      · rw [if_neg (by rw [between_values]; exact hm), ih2,
          List.filter_cons_of_neg (by simpa using hm)]

/-- An element with `2 × 3 × 3` points at integer positions, and a velocity equal to `10 y` (first
component). -/
def cube : Elem ℚ := ⟨2, 3, 3, fun var c i j k => match var, c with
  | .pos, 0 => k
  | .pos, 1 => j
  | .pos, 2 => i
  | .vel, 0 => 10 * j
  | _, _ => 0⟩

/-- The cube is a box. -/
theorem cube_cartesian : Cartesian cube (fun k => k) (fun j => j) (fun i => i) :=
  ⟨fun _ _ _ => rfl, fun _ _ _ => rfl, fun _ _ _ => rfl, by decide, by decide, by decide⟩

/-- The layer shown by a vertical cut is not the closest one: with a layer exactly at `y = 2`, the cut
`y = 2` shows the points at `y = 0`, with their velocity. -/
theorem C76_cut_vertical_violated :
    ∃ (e : Elem ℚ) (xs ys zs : ℕ → ℚ), Cartesian e xs ys zs ∧ (∃ j < e.ny, ys j = 2) ∧
      Meets e .y 2 ∧
      ∃ ay av, cutAll .y 2 .pos 1 [e] = .ok [ay] ∧ cutAll .y 2 .vel 0 [e] = .ok [av] ∧
        ∀ j k, ay.val j k = 0 ∧ av.val j k = 0 ∧ e.data .vel 0 j 2 k = 20 := by
  classical
  have hm : Meets cube .y 2 :=
    ⟨⟨0, by decide, 0, by decide, 0, by decide, by norm_num [cube, Dir.comp]⟩,
      ⟨0, by decide, 2, by decide, 0, by decide, by norm_num [cube, Dir.comp]⟩⟩
  have h := fun var c => (C76_cut_vertical_first_layer (2 : ℚ) [cube]
    (by intro e he; rw [List.mem_singleton.1 he]; exact ⟨_, _, _, cube_cartesian⟩) var c).1
  have hf : ([cube].filter fun e => Meets e .y 2) = [cube] := by simp [hm]
  refine ⟨cube, _, _, _, cube_cartesian, ⟨2, by decide, by norm_num⟩, hm, _, _,
    by rw [h, hf]; rfl, by rw [h, hf]; rfl, ?_⟩
  intro j k
  refine ⟨by norm_num [cube], by norm_num [cube], by norm_num [cube]⟩

/-- Non-vacuity of `C76_cut_z`: the cut `z = 1` of the cube shows its upper layer. -/
example : Closest cube.nz (fun i => cube.data .pos 2 i 0 0) 1 1 ∧ Meets cube .z 1 := by
  refine ⟨⟨by decide, fun j hj => ?_⟩, ⟨0, by decide, 0, by decide, 0, by decide, ?_⟩,
    1, by decide, 0, by decide, 0, by decide, ?_⟩
  · have : (cube.data .pos 2 1 0 0 : ℚ) - 1 = 0 := by norm_num [cube]
    rw [this, abs_zero]
    exact abs_nonneg _
  · norm_num [cube, Dir.comp]
  · norm_num [cube, Dir.comp]

/-! ### Edges of the cells -/

/-- For a Cartesian layer each point is in its cell, the cells cover the element exactly: the extreme
edges are the extreme points and the others are halfway. -/
theorem C76_edges_box (a : Arr Q) (xs : ℕ → Q) (h : ∀ j k, a.val j k = xs k)
    (hm : ∀ k, k + 1 < a.n1 → xs k ≤ xs (k + 1)) (h1 : 0 < a.n1) (iy : ℕ) :
    edges a iy 0 = xs 0 ∧ edges a iy a.n1 = xs (a.n1 - 1) ∧
    (∀ ix, 0 < ix → ix < a.n1 → edges a iy ix = (xs (ix - 1) + xs ix) / 2) ∧
    ∀ ix < a.n1, edges a iy ix ≤ xs ix ∧ xs ix ≤ edges a iy (ix + 1) := by
  have e0 : edges a iy 0 = xs 0 := by
    simp only [edges, h]
    split_ifs <;> (simp_all; try ring)
  have en : edges a iy a.n1 = xs (a.n1 - 1) := by
    simp only [edges, h, if_neg h1.ne']
    split_ifs <;> (simp_all; try ring)
  have em : ∀ ix, 0 < ix → ix < a.n1 → edges a iy ix = (xs (ix - 1) + xs ix) / 2 := by
    intro ix hx hx2
    have hne : ¬ (ix = 0 ∨ ix = a.n1) := by omega
    simp only [edges, h, if_neg hne]
    split_ifs <;> ring
  refine ⟨e0, en, em, fun ix hx => ⟨?_, ?_⟩⟩
  · rcases Nat.eq_zero_or_pos ix with rfl | hp
    · rw [e0]
    · rw [em ix hp hx]
      have := hm (ix - 1) (by omega)
      rw [Nat.sub_add_cancel hp] at this
      linarith
  · rcases Nat.lt_or_ge (ix + 1) a.n1 with hlt | hge
    · rw [em (ix + 1) (by omega) hlt, Nat.add_sub_cancel]
      have := hm ix hlt
      linarith
    · have : ix + 1 = a.n1 := by omega
      rw [this, en, ← this, Nat.add_sub_cancel]

/-- No gap and no overlap between neighbours, even deformed: two elements that share the points of a
side share the edges of this side. -/
theorem C76_edges_shared (a b : Arr Q) :
    (a.n0 = b.n0 → 0 < a.n1 → (∀ j < a.n0, a.val j (a.n1 - 1) = b.val j 0) → 0 < a.n0 →
      ∀ iy ≤ a.n0, edges a iy a.n1 = edges b iy 0) ∧
    (a.n1 = b.n1 → 0 < a.n0 → (∀ k < a.n1, a.val (a.n0 - 1) k = b.val 0 k) → 0 < a.n1 →
      ∀ ix ≤ a.n1, edges a a.n0 ix = edges b 0 ix) := by
  constructor
  · intro hn h1 hs h0 iy hiy
    simp only [edges, if_neg h1.ne', true_or, or_true, if_true, hn]
    rcases Nat.eq_zero_or_pos iy with rfl | hp
    · simp only [if_true, true_or]
      exact hs 0 h0
    · simp only [hp.ne', false_or, if_false]
      by_cases h : iy = b.n0
      · rw [if_pos h, if_pos h]
        exact hs _ (by omega)
      · rw [if_neg h, if_neg h, hs _ (by omega), hs _ (by omega)]
  · intro hn h1 hs h0 ix hix
    simp only [edges, if_neg h1.ne', true_or, or_true, if_true, hn]
    rcases Nat.eq_zero_or_pos ix with rfl | hp
    · simp only [if_true, true_or]
      exact hs 0 h0
    · simp only [hp.ne', false_or, if_false]
      by_cases h : ix = b.n1
      · rw [if_pos h, if_pos h]
        exact hs _ (by omega)
      · rw [if_neg h, if_neg h, hs _ (by omega), hs _ (by omega)]

/-- Non-vacuity: `0, 1, 3` has the edges `0, 1/2, 2, 3`. -/
example : let a : Arr ℚ := ⟨1, 3, fun _ k => [0, 1, 3].getD k 0⟩
    (edges a 0 0, edges a 0 1, edges a 1 2, edges a 1 3) = (0, 1 / 2, 2, 3) := by decide +kernel

/-! ### Extrema (colour scale) -/

/-- The limits of the colour scale are the smallest and the largest of all the values of all the
elements. -/
theorem C76_extrema (as : List (Arr Q)) :
    (∀ m, fieldMin as = some m →
      (∃ a ∈ as, ∃ j < a.n0, ∃ k < a.n1, a.val j k = m) ∧
      ∀ a ∈ as, ∀ j < a.n0, ∀ k < a.n1, m ≤ a.val j k) ∧
    (∀ m, fieldMax as = some m →
      (∃ a ∈ as, ∃ j < a.n0, ∃ k < a.n1, a.val j k = m) ∧
      ∀ a ∈ as, ∀ j < a.n0, ∀ k < a.n1, a.val j k ≤ m) ∧
    ((∃ a ∈ as, 0 < a.n0 ∧ 0 < a.n1) → (fieldMin as).isSome ∧ (fieldMax as).isSome) := by
  refine ⟨fun m hm => ?_, fun m hm => ?_, ?_⟩
  · have := fieldMin_isMin as
    rw [hm] at this
    obtain ⟨⟨a, ha, h1⟩, h2⟩ := this
    refine ⟨⟨a, ha, (mem_flat a m).1 h1⟩, fun b hb j hj k hk => h2 _ ⟨b, hb, ?_⟩⟩
    exact (mem_flat b _).2 ⟨j, hj, k, hk, rfl⟩
  · have := fieldMin_isMin (as.map fun a => { a with val := fun j k => -a.val j k })
    rw [fieldMax] at hm
    cases hf : fieldMin (as.map fun a => { a with val := fun j k => -a.val j k }) with
    | none => rw [hf] at hm; cases hm
    | some r =>
      rw [hf] at hm this
      have hr : -r = m := by simpa using hm
      obtain ⟨⟨a', ha', h1⟩, h2⟩ := this
      obtain ⟨a, ha, rfl⟩ := List.mem_map.1 ha'
      obtain ⟨j, hj, k, hk, h3⟩ := (mem_flat _ r).1 h1
      refine ⟨⟨a, ha, j, hj, k, hk, ?_⟩, fun b hb j hj k hk => ?_⟩
      · simp only at h3
        rw [← hr, ← h3, neg_neg]
      · have := h2 (-b.val j k) ⟨_, List.mem_map.2 ⟨b, hb, rfl⟩, (mem_flat _ _).2 ⟨j, hj, k, hk, rfl⟩⟩
        rw [← hr]
        linarith
  · rintro ⟨a, ha, h0, h1⟩
    constructor
    · cases hf : fieldMin as with
      | some m => rfl
      | none =>
        have := fieldMin_isMin as
        rw [hf] at this
        exact absurd ⟨a, ha, (mem_flat a _).2 ⟨0, h0, 0, h1, rfl⟩⟩ (this (a.val 0 0))
    · rw [fieldMax]
      cases hf : fieldMin (as.map fun a => { a with val := fun j k => -a.val j k }) with
      | some m => rfl
      | none =>
        have := fieldMin_isMin (as.map fun a => { a with val := fun j k => -a.val j k })
        rw [hf] at this
        exact absurd ⟨_, List.mem_map.2 ⟨a, ha, rfl⟩, (mem_flat _ _).2 ⟨0, h0, 0, h1, rfl⟩⟩
          (this (-a.val 0 0))

/-- Non-vacuity. -/
example : (fieldMin [⟨1, 2, fun _ k => (k : ℚ)⟩, ⟨2, 1, fun j _ => -(j : ℚ)⟩],
    fieldMax [⟨1, 2, fun _ k => (k : ℚ)⟩, ⟨2, 1, fun j _ => -(j : ℚ)⟩]) = (some (-1), some 1) := by
  decide +kernel

/-! ### Arrows -/

/-- A well-formed element of the figure. -/
structure Wf (e : FlatElem Q) : Prop where
  ne : e.X ≠ []
  y : e.X.length = e.Y.length
  vx : e.X.length = e.VX.length
  vy : e.X.length = e.VY.length

/-- For increasing approximate positions: each arrow starts from a grid point of an element and has
the velocity of this point of this element; each approximate position within the ranges of an
element has an arrow at a closest grid point of the element; an element has at most one arrow per
point. (Partial: the approximate positions of the code do not cover the figure.) -/
theorem C76_arrows_partial (xs ys : List Q) (hx : xs.Pairwise (· ≤ ·)) (hy : ys.Pairwise (· ≤ ·))
    (es : List (FlatElem Q)) (hw : ∀ e ∈ es, Wf e) :
    (∀ a ∈ arrowsAt xs ys es, ∃ e ∈ es, ∃ i < e.X.length, ∃ x ∈ xs, ∃ y ∈ ys,
      e.X[i]? = some a.x ∧ e.Y[i]? = some a.y ∧ e.VX[i]? = some a.vx ∧ e.VY[i]? = some a.vy ∧
      ∀ j < e.X.length, dist2 x y a.x a.y ≤ dist2 x y (e.X.getD j 0) (e.Y.getD j 0)) ∧
    (∀ e ∈ es, ∀ x ∈ xs, ∀ y ∈ ys, InRange e.X x → InRange e.Y y →
      ∃ a ∈ arrowsAt xs ys es, ∀ j < e.X.length,
        dist2 x y a.x a.y ≤ dist2 x y (e.X.getD j 0) (e.Y.getD j 0)) ∧
    ∀ e ∈ es, (arrowsInElem xs ys e.X e.Y).Nodup := by
  have hmem : ∀ e ∈ es, ∀ i, i ∈ arrowsInElem xs ys e.X e.Y ↔
      i ∈ scan (lmin e.Y) (lmax e.Y)
        (fun y => scan (lmin e.X) (lmax e.X) (fun x => [nearestPoint e.X e.Y x y]) xs) ys := by
    intro e _ i
    rw [arrowsInElem, List.mem_mergeSort, List.mem_dedup]
  refine ⟨?_, ?_, ?_⟩
  · intro a ha
    obtain ⟨e, he, ha⟩ := List.mem_flatMap.1 ha
    obtain ⟨i, hi, rfl⟩ := List.mem_map.1 ha
    obtain ⟨y, hy, -, -, hi⟩ := mem_scan _ _ _ _ _ ((hmem e he i).1 hi)
    obtain ⟨x, hx, -, -, hi⟩ := mem_scan _ _ _ _ _ hi
    obtain rfl := List.mem_singleton.1 hi
    obtain ⟨h1, h2⟩ := nearestPoint_spec e.X e.Y x y (hw e he).y (hw e he).ne
    have g : ∀ l : List Q, e.X.length = l.length →
        l[nearestPoint e.X e.Y x y]? = some (l.getD (nearestPoint e.X e.Y x y) 0) := by
      intro l hl
      have : nearestPoint e.X e.Y x y < l.length := hl ▸ h1
      rw [List.getD_eq_getElem?_getD, List.getElem?_eq_getElem this]
      rfl
    exact ⟨e, he, _, h1, x, hx, y, hy, g _ rfl, g _ (hw e he).y, g _ (hw e he).vx,
      g _ (hw e he).vy, h2⟩
  · intro e he x hx' y hy' hX hY
    have hXne := (hw e he).ne
    have hYne : e.Y ≠ [] := by
      intro h
      have := (hw e he).y
      rw [h] at this
      exact hXne (List.length_eq_zero_iff.1 this)
    obtain ⟨x1, x2⟩ := (inRange_iff _ hXne x).1 hX
    obtain ⟨y1, y2⟩ := (inRange_iff _ hYne y).1 hY
    have hin : nearestPoint e.X e.Y x y ∈ arrowsInElem xs ys e.X e.Y := by
      rw [hmem e he]
      refine scan_mem _ _ _ _ hy y hy' y1 y2 _ ?_
      exact scan_mem _ _ _ _ hx x hx' x1 x2 _ (by simp)
    refine ⟨_, List.mem_flatMap.2 ⟨e, he, List.mem_map.2 ⟨_, hin, rfl⟩⟩, ?_⟩
    exact (nearestPoint_spec e.X e.Y x y (hw e he).y hXne).2
  · intro e _
    exact (List.mergeSort_perm _ _).nodup_iff.2 (List.nodup_dedup _)

/-- The approximate positions are increasing as soon as the interval is. -/
theorem C76_approx_sorted [FloorRing Q] (pct xmin xmax ymin ymax : Q)
    (h1 : xmin + pct / 100 * (xmax - xmin) ≤ xmax - pct / 100 * (xmax - xmin))
    (h2 : xmin + pct / 100 * (xmax - xmin) ≤ ymax - pct / 100 * (xmax - xmin)) :
    (approxPoints pct xmin xmax ymin ymax).1.Pairwise (· ≤ ·) ∧
    (approxPoints pct xmin xmax ymin ymax).2.Pairwise (· ≤ ·) :=
  ⟨linspace_sorted _ _ _ h1, linspace_sorted _ _ _ h2⟩

/-- The vertical positions start from the left end of the figure instead of its bottom: a figure
entirely below it has no arrow at all. -/
theorem C76_arrows_none [FloorRing Q] (pct : Q) (es : List (FlatElem Q)) (hw : ∀ e ∈ es, Wf e)
    (h : lmax (es.flatMap FlatElem.Y) <
      lmin (es.flatMap FlatElem.X) +
        pct / 100 * (lmax (es.flatMap FlatElem.X) - lmin (es.flatMap FlatElem.X))) :
    arrows pct es = [] := by
  unfold arrows arrowsAt
  dsimp only
  rw [List.flatMap_eq_nil_iff]
  intro e he
  have hYne : e.Y ≠ [] := by
    intro h
    have := (hw e he).y
    rw [h] at this
    exact (hw e he).ne (List.length_eq_zero_iff.1 this)
  have hYs : es.flatMap FlatElem.Y ≠ [] := by
    intro h
    rw [List.flatMap_eq_nil_iff] at h
    exact hYne (h e he)
  have htop : ∀ y ∈ e.Y, y ≤ lmax (es.flatMap FlatElem.Y) := fun y hy =>
    (lmax_spec _ hYs).2 y (List.mem_flatMap.2 ⟨e, he, hy⟩)
  have : arrowsInElem (approxPoints pct (lmin (es.flatMap FlatElem.X)) (lmax (es.flatMap FlatElem.X))
      (lmin (es.flatMap FlatElem.Y)) (lmax (es.flatMap FlatElem.Y))).1
      (approxPoints pct (lmin (es.flatMap FlatElem.X)) (lmax (es.flatMap FlatElem.X))
      (lmin (es.flatMap FlatElem.Y)) (lmax (es.flatMap FlatElem.Y))).2 e.X e.Y = [] := by
    rw [arrowsInElem]
    have hs : ∀ (f : Q → List ℕ), scan (lmin e.Y) (lmax e.Y) f
        (approxPoints pct (lmin (es.flatMap FlatElem.X)) (lmax (es.flatMap FlatElem.X))
        (lmin (es.flatMap FlatElem.Y)) (lmax (es.flatMap FlatElem.Y))).2 = [] := by
      intro f
      unfold approxPoints
      dsimp only
      generalize ⌊(lmax (es.flatMap FlatElem.Y) - lmin (es.flatMap FlatElem.Y)) /
        (pct / 100 * (lmax (es.flatMap FlatElem.X) - lmin (es.flatMap FlatElem.X)))⌋₊ = n
      rcases Nat.eq_zero_or_pos n with rfl | hn
      · rfl
      · refine scan_above _ _ _ _ _ (linspace_head _ _ _ hn) ?_ ?_
        · exact (htop _ (lmin_spec _ hYne).1).trans h.le
        · exact (htop _ (lmax_spec _ hYne).1).trans_lt h
    rw [hs]
    simp
  rw [this]
  rfl

/-- Four points of a square, with a uniform velocity. -/
def square (x0 y0 : ℚ) : FlatElem ℚ :=
  ⟨[x0, x0 + 1, x0, x0 + 1], [y0, y0, y0 + 1, y0 + 1], [1, 1, 1, 1], [1, 1, 1, 1]⟩

/-- The square is well-formed. -/
theorem square_wf (x0 y0 : ℚ) : Wf (square x0 y0) := ⟨by simp [square], rfl, rfl, rfl⟩

/-- Moving the whole figure sideways makes its arrows disappear. -/
theorem C76_arrows_violated :
    arrows 25 [square 0 0] ≠ [] ∧ arrows 25 [square 10 0] = [] := by
  constructor
  · have ha : arrows 25 [square 0 0] = arrowsAt (linspace (1 / 4) (3 / 4) 4)
        (linspace (1 / 4) (3 / 4) 4) [square 0 0] := by
      have h1 : lmin ([square 0 0].flatMap FlatElem.X) = 0 := by decide +kernel
      have h2 : lmax ([square 0 0].flatMap FlatElem.X) = 1 := by decide +kernel
      have h3 : lmin ([square 0 0].flatMap FlatElem.Y) = 0 := by decide +kernel
      have h4 : lmax ([square 0 0].flatMap FlatElem.Y) = 1 := by decide +kernel
      unfold arrows
      dsimp only
      rw [h1, h2, h3, h4]
      norm_num [approxPoints]
    have hs := linspace_sorted (1 / 4 : ℚ) (3 / 4) 4 (by norm_num)
    have hm : (1 / 4 : ℚ) ∈ linspace (1 / 4 : ℚ) (3 / 4) 4 := by decide +kernel
    obtain ⟨a, h, -⟩ := (C76_arrows_partial _ _ hs hs [square 0 0]
      (by intro e he; rw [List.mem_singleton.1 he]; exact square_wf _ _)).2.1 (square 0 0) (by simp)
      (1 / 4) hm (1 / 4) hm ⟨⟨0, by decide +kernel, by norm_num⟩, 1, by decide +kernel, by norm_num⟩
      ⟨⟨0, by decide +kernel, by norm_num⟩, 1, by decide +kernel, by norm_num⟩
    rw [ha]
    exact List.ne_nil_of_mem h
  · refine C76_arrows_none _ _ (by intro e he; rw [List.mem_singleton.1 he]; exact square_wf _ _) ?_
    decide +kernel

/-! ### The value under the cursor -/

/-- The cursor is within the ranges of the element. -/
def Touches (e : Drawn Q) (x y : Q) : Prop := InRange e.X x ∧ InRange e.Y y

/-- A value is shown exactly when the cursor is within the ranges of an element, and it is the one of
a point which is the closest of all the points of all these elements. -/
theorem C76_cursor (es : List (Drawn Q)) (x y : Q)
    (hw : ∀ e ∈ es, e.X ≠ [] ∧ e.X.length = e.Y.length ∧ e.X.length = e.C.length) :
    ((onMove es x y).isSome ↔ ∃ e ∈ es, Touches e x y) ∧
    ∀ v, onMove es x y = some v → ∃ e ∈ es, Touches e x y ∧ ∃ i < e.X.length, e.C[i]? = some v ∧
      ∀ e' ∈ es, Touches e' x y → ∀ i' < e'.X.length,
        dist2 x y (e.X.getD i 0) (e.Y.getD i 0) ≤ dist2 x y (e'.X.getD i' 0) (e'.Y.getD i' 0) := by
  have ht : ∀ e ∈ es, (lmin e.X ≤ x ∧ x ≤ lmax e.X ∧ lmin e.Y ≤ y ∧ y ≤ lmax e.Y) ↔
      Touches e x y := by
    intro e he
    obtain ⟨h1, h2, -⟩ := hw e he
    have h3 : e.Y ≠ [] := by
      intro h
      rw [h] at h2
      exact h1 (List.length_eq_zero_iff.1 h2)
    rw [Touches, inRange_iff _ h1, inRange_iff _ h3, and_assoc]
  set F : Drawn Q → Option (Q × Q) := fun e =>
    if lmin e.X ≤ x ∧ x ≤ lmax e.X ∧ lmin e.Y ≤ y ∧ y ≤ lmax e.Y then
      some (dist2 x y (e.X.getD (nearestPoint e.X e.Y x y) 0) (e.Y.getD (nearestPoint e.X e.Y x y) 0),
        e.C.getD (nearestPoint e.X e.Y x y) 0)
    else none with hF
  have hon : onMove es x y =
      ((es.filterMap F).mergeSort (fun a b => a.1 ≤ b.1)).head?.map Prod.snd := rfl
  have hmem : ∀ p, p ∈ es.filterMap F ↔ ∃ e ∈ es, Touches e x y ∧
      p = (dist2 x y (e.X.getD (nearestPoint e.X e.Y x y) 0)
        (e.Y.getD (nearestPoint e.X e.Y x y) 0), e.C.getD (nearestPoint e.X e.Y x y) 0) := by
    intro p
    rw [List.mem_filterMap]
    constructor
    · rintro ⟨e, he, h⟩
      simp only [hF] at h
      split_ifs at h with hc
      exact ⟨e, he, (ht e he).1 hc, (Option.some.inj h).symm⟩
    · rintro ⟨e, he, h1, rfl⟩
      refine ⟨e, he, ?_⟩
      simp only [hF]
      rw [if_pos ((ht e he).2 h1)]
  have hsort : ((es.filterMap F).mergeSort (fun a b => a.1 ≤ b.1)).Pairwise (fun a b => a.1 ≤ b.1) := by
    have := List.pairwise_mergeSort (le := fun a b : Q × Q => decide (a.1 ≤ b.1))
      (fun a b c h1 h2 => by simp at *; exact h1.trans h2)
      (fun a b => by simp; exact le_total _ _) (es.filterMap F)
    simpa using this
  set S := (es.filterMap F).mergeSort (fun a b => a.1 ≤ b.1) with hS
  have hmS : ∀ p, p ∈ S ↔ p ∈ es.filterMap F := fun p => List.mem_mergeSort
  constructor
  · rw [hon, Option.isSome_map]
    constructor
    · intro h
      cases hs : S with
      | nil => rw [hs] at h; cases h
      | cons p S' =>
        obtain ⟨e, he, h1, -⟩ := (hmem p).1 ((hmS p).1 (by rw [hs]; simp))
        exact ⟨e, he, h1⟩
    · rintro ⟨e, he, h1⟩
      cases hs : S with
      | nil =>
        have := (hmS _).2 ((hmem _).2 ⟨e, he, h1, rfl⟩)
        rw [hs] at this
        cases this
      | cons p S' => rfl
  · intro v hv
    rw [hon] at hv
    cases hs : S with
    | nil => rw [hs] at hv; cases hv
    | cons p S' =>
      rw [hs] at hv hsort
      have hpv : p.2 = v := by simpa using hv
      obtain ⟨e, he, h1, hp⟩ := (hmem p).1 ((hmS p).1 (by rw [hs]; simp))
      obtain ⟨w1, w2, w3⟩ := hw e he
      obtain ⟨n1, n2⟩ := nearestPoint_spec e.X e.Y x y w2 w1
      refine ⟨e, he, h1, _, n1, ?_, ?_⟩
      · have : nearestPoint e.X e.Y x y < e.C.length := w3 ▸ n1
        rw [List.getElem?_eq_getElem this, ← hpv, hp]
        simp [List.getD_eq_getElem?_getD, List.getElem?_eq_getElem this]
      · intro e' he' h1' i' hi'
        obtain ⟨w1', w2', -⟩ := hw e' he'
        have hq := (hmS _).2 ((hmem _).2 ⟨e', he', h1', rfl⟩)
        rw [hs] at hq
        have hle : p.1 ≤ dist2 x y (e'.X.getD (nearestPoint e'.X e'.Y x y) 0)
            (e'.Y.getD (nearestPoint e'.X e'.Y x y) 0) := by
          rcases List.mem_cons.1 hq with hq | hq
          · rw [← hq]
          · exact (List.pairwise_cons.1 hsort).1 _ hq
        rw [hp] at hle
        exact hle.trans ((nearestPoint_spec e'.X e'.Y x y w2' w1').2 i' hi')

/-- For an element which is a box, the value shown under the cursor is the colour of the cell drawn
there. -/
theorem C76_cursor_cell (n0 n1 : ℕ) (xs ys : ℕ → Q) (col : ℕ → ℕ → Q)
    (hx : ∀ k k', k < k' → k' < n1 → xs k < xs k') (hy : ∀ j j', j < j' → j' < n0 → ys j < ys j')
    (iy ix : ℕ) (h0 : iy < n0) (h1 : ix < n1) (x y : Q)
    (hx1 : edges ⟨n0, n1, fun _ k => xs k⟩ iy ix < x)
    (hx2 : x < edges ⟨n0, n1, fun _ k => xs k⟩ iy (ix + 1))
    (hy1 : edges ⟨n1, n0, fun _ j => ys j⟩ ix iy < y)
    (hy2 : y < edges ⟨n1, n0, fun _ j => ys j⟩ ix (iy + 1)) :
    onMove [⟨Arr.flat ⟨n0, n1, fun _ k => xs k⟩, Arr.flat ⟨n0, n1, fun j _ => ys j⟩,
      Arr.flat ⟨n0, n1, col⟩⟩] x y = some (col iy ix) := by
  have near : ∀ (n m : ℕ) (zs : ℕ → Q) (_ : ∀ k k', k < k' → k' < n → zs k < zs k') (i l : ℕ)
      (z : Q) (_ : i < n) (_ : edges ⟨m, n, fun _ k => zs k⟩ l i < z)
      (_ : z < edges ⟨m, n, fun _ k => zs k⟩ l (i + 1)),
      (zs 0 ≤ z ∧ z ≤ zs (n - 1)) ∧ ∀ k < n, k ≠ i → (zs i - z) ^ 2 < (zs k - z) ^ 2 := by
    intro n m zs hz i l z hi hz1 hz2
    obtain ⟨b1, b2, b3, b4⟩ := C76_edges_box ⟨m, n, fun _ k => zs k⟩ zs (fun _ _ => rfl)
      (fun k hk => (hz k (k + 1) (by omega) hk).le) (by dsimp only; omega) l
    dsimp only at b1 b2 b3 b4
    have hle : ∀ k k', k ≤ k' → k' < n → zs k ≤ zs k' := by
      intro k k' h h'
      rcases h.lt_or_eq with h | rfl
      · exact (hz k k' h h').le
      · exact le_refl _
    refine ⟨⟨?_, ?_⟩, ?_⟩
    · rcases Nat.eq_zero_or_pos i with rfl | hp
      · rw [b1] at hz1; exact hz1.le
      · rw [b3 i hp hi] at hz1
        have := hle 0 (i - 1) (by omega) (by omega)
        have := hle 0 i (by omega) hi
        linarith
    · rcases Nat.lt_or_ge (i + 1) n with hlt | hge
      · rw [b3 (i + 1) (by omega) hlt, Nat.add_sub_cancel] at hz2
        have := hle i (n - 1) (by omega) (by omega)
        have := hle (i + 1) (n - 1) (by omega) (by omega)
        linarith
      · have : i + 1 = n := by omega
        rw [this, b2] at hz2
        exact hz2.le
    · intro k hk hne
      rcases Nat.lt_or_gt_of_ne hne with hlt | hgt
      · have hp : 0 < i := by omega
        rw [b3 i hp hi] at hz1
        have := hle k (i - 1) (by omega) (by omega)
        have h2 := hz k i hlt hi
        have : zs k + zs i < 2 * z := by linarith
        have : 0 < (zs i - zs k) * (2 * z - zs i - zs k) := mul_pos (by linarith) (by linarith)
        nlinarith
      · have hlt' : i + 1 < n := by omega
        rw [b3 (i + 1) (by omega) hlt', Nat.add_sub_cancel] at hz2
        have := hle (i + 1) k (by omega) hk
        have h2 := hz i k hgt hk
        have : 2 * z < zs k + zs i := by linarith
        have : 0 < (zs k - zs i) * (zs i + zs k - 2 * z) := mul_pos (by linarith) (by linarith)
        nlinarith
  obtain ⟨⟨x1, x2⟩, x3⟩ := near n1 n0 xs hx ix iy x h1 hx1 hx2
  obtain ⟨⟨y1, y2⟩, y3⟩ := near n0 n1 ys hy iy ix y h0 hy1 hy2
  have hn0 : 0 < n0 := by omega
  have hn1 : 0 < n1 := by omega
  have hlen : ∀ v : ℕ → ℕ → Q, (Arr.flat ⟨n0, n1, v⟩).length = n0 * n1 := by
    intro v
    rw [flat_eq _ hn1]
    simp
  have hget : ∀ (v : ℕ → ℕ → Q) i, i < n0 * n1 →
      (Arr.flat ⟨n0, n1, v⟩)[i]? = some (v (i / n1) (i % n1)) := by
    intro v i hi
    rw [flat_eq _ hn1]
    simp [List.getElem?_range hi]
  have hgetD : ∀ (v : ℕ → ℕ → Q) i, i < n0 * n1 →
      (Arr.flat ⟨n0, n1, v⟩).getD i 0 = v (i / n1) (i % n1) := by
    intro v i hi
    rw [List.getD_eq_getElem?_getD, hget v i hi]
    rfl
  have hpos : 0 < n0 * n1 := Nat.mul_pos hn0 hn1
  have hidx : iy * n1 + ix < n0 * n1 := by
    have : (iy + 1) * n1 ≤ n0 * n1 := Nat.mul_le_mul_right _ h0
    rw [Nat.add_mul] at this
    omega
  have hdiv : (iy * n1 + ix) / n1 = iy := by
    rw [Nat.mul_comm, Nat.mul_add_div hn1, Nat.div_eq_of_lt h1, Nat.add_zero]
  have hmod : (iy * n1 + ix) % n1 = ix := by
    rw [Nat.mul_comm, Nat.mul_add_mod, Nat.mod_eq_of_lt h1]
  set e : Drawn Q := ⟨Arr.flat ⟨n0, n1, fun _ k => xs k⟩, Arr.flat ⟨n0, n1, fun j _ => ys j⟩,
      Arr.flat ⟨n0, n1, col⟩⟩ with he
  have hw : ∀ e' ∈ [e], e'.X ≠ [] ∧ e'.X.length = e'.Y.length ∧ e'.X.length = e'.C.length := by
    intro e' he'
    rw [List.mem_singleton.1 he']
    refine ⟨?_, ?_, ?_⟩
    · intro h
      have := hlen fun _ k => xs k
      simp only [he] at h
      rw [h] at this
      simp at this
      omega
    · simp only [he, hlen]
    · simp only [he, hlen]
  have hT : Touches e x y :=
    ⟨⟨⟨xs 0, (mem_flat _ _).2 ⟨0, hn0, 0, hn1, rfl⟩, x1⟩,
      ⟨xs (n1 - 1), (mem_flat _ _).2 ⟨0, hn0, n1 - 1, by dsimp only; omega, rfl⟩, x2⟩⟩,
      ⟨⟨ys 0, (mem_flat _ _).2 ⟨0, hn0, 0, hn1, rfl⟩, y1⟩,
      ⟨ys (n0 - 1), (mem_flat _ _).2 ⟨n0 - 1, by dsimp only; omega, 0, hn1, rfl⟩, y2⟩⟩⟩
  obtain ⟨c1, c2⟩ := C76_cursor [e] x y hw
  have hs := c1.2 ⟨e, by simp, hT⟩
  obtain ⟨v, hv⟩ := Option.isSome_iff_exists.1 hs
  obtain ⟨e', he', -, i, hi, hC, hmin⟩ := c2 v hv
  obtain rfl := List.mem_singleton.1 he'
  have hi' : i < n0 * n1 := by rw [← hlen fun _ k => xs k]; exact hi
  have hq := hmin e (by simp) hT (iy * n1 + ix) (by simpa only [he, hlen] using hidx)
  simp only [he, hgetD _ _ hi', hgetD _ _ hidx, hdiv, hmod] at hq
  rw [hv]
  have hC' : some (col (i / n1) (i % n1)) = some v := by
    rw [← hC]; exact (hget col i hi').symm
  have hmodlt : i % n1 < n1 := Nat.mod_lt _ hn1
  have hdivlt : i / n1 < n0 := by
    rw [Nat.div_lt_iff_lt_mul hn1]; exact hi'
  have ex : i % n1 = ix := by
    by_contra hne
    have a1 := x3 _ hmodlt hne
    have a2 : (ys iy - y) ^ 2 ≤ (ys (i / n1) - y) ^ 2 := by
      by_cases h : i / n1 = iy
      · rw [h]
      · exact (y3 _ hdivlt h).le
    simp only [dist2] at hq
    linarith
  have ey : i / n1 = iy := by
    by_contra hne
    have a1 := y3 _ hdivlt hne
    rw [ex] at hq
    simp only [dist2] at hq
    linarith
  rw [← hC', ex, ey]

/-- Non-vacuity: near the second corner of a square. -/
example : onMove [(⟨[0, 1, 0, 1], [0, 0, 1, 1], [5, 6, 7, 8]⟩ : Drawn ℚ)] (9 / 10) (1 / 10) = some 6 ∧
    onMove [(⟨[0, 1, 0, 1], [0, 0, 1, 1], [5, 6, 7, 8]⟩ : Drawn ℚ)] 2 (1 / 10) = none := by
  decide +kernel

/-! ### Interpolation in time -/

/-- Between two files, the arrays are the linear interpolation of those of the files. (Partial: the
attribute `time` and the arrows are not interpolated.) -/
theorem C76_interpolated_partial (f g : HField Q) (t : Q) (h1 : f.time < t) (h2 : t < g.time)
    (n : ℕ) (a b : Arr Q) (ha : f.arrays[n]? = some a) (hb : g.arrays[n]? = some b) :
    ∃ r, (interpolated f g t).arrays[n]? = some r ∧ ∀ j k,
      (g.time - f.time) * r.val j k = (g.time - t) * a.val j k + (t - f.time) * b.val j k := by
  unfold interpolated HField.add HField.mul
  dsimp only
  rw [List.getElem?_zipWith, List.getElem?_map, List.getElem?_map, ha, hb]
  refine ⟨_, rfl, fun j k => ?_⟩
  dsimp only
  have hd : g.time - f.time ≠ 0 := by
    have := h1.trans h2
    exact (sub_pos.2 this).ne'
  rw [abs_of_pos (sub_pos.2 h1), abs_of_neg (sub_neg.2 h2)]
  field_simp
  ring

/-- The attribute `time` of the interpolated field is the mean of the times of the two files, not the
time asked for. -/
theorem C76_interpolated_time_violated (f g : HField Q) (t : Q) (h : 2 * t ≠ f.time + g.time) :
    (interpolated f g t).time ≠ t := by
  intro he
  apply h
  rw [← he]
  simp only [interpolated, HField.add, HField.mul]
  ring

/-- The arrows of the movie are those of the file of the closest time. -/
theorem C76_movie_arrows (times : List Q) (hne : times ≠ []) (t : Q) :
    ∃ s, times[vectorFile times t]? = some s ∧ ∀ s' ∈ times, |s - t| ≤ |s' - t| := by
  have hne' : times.map (fun s => |s - t|) ≠ [] := by simpa using hne
  obtain ⟨x, h1, h2, -⟩ := PhysFiles.argmin_spec _ hne'
  rw [List.getElem?_map] at h1
  cases hs : times[PhysFiles.argmin (times.map fun s => |s - t|)]? with
  | none => rw [hs] at h1; cases h1
  | some s =>
    rw [hs] at h1
    refine ⟨s, hs, fun s' hs' => ?_⟩
    have : |s - t| = x := by simpa using h1
    rw [this]
    exact h2 _ (List.mem_map.2 ⟨s', hs', rfl⟩)

/-- They jump from one file to the next while the colours are interpolated: with the velocity 0 at
time 0 and 4 at time 4, the movie shows at time 1 the colour 1 and the arrow 0. -/
theorem C76_movie_arrows_violated :
    ∃ (f g : HField ℚ) (a b r : Arr ℚ), f = ⟨[a], 0⟩ ∧ g = ⟨[b], 4⟩ ∧
      (interpolated f g 1).arrays = [r] ∧ r.val 0 0 = 1 ∧
      [f, g][vectorFile [f.time, g.time] 1]? = some f ∧ a.val 0 0 = 0 := by
  refine ⟨⟨[⟨1, 1, fun _ _ => 0⟩], 0⟩, ⟨[⟨1, 1, fun _ _ => 4⟩], 4⟩, _, _, _, rfl, rfl, rfl,
    by decide +kernel, ?_, rfl⟩
  have : vectorFile [(0 : ℚ), 4] 1 = 0 := by decide +kernel
  rw [this]
  rfl

/-- The list of files is up to date after `update_times` if files have only been added. -/
theorem C76_update_times_partial {P : Type*} (known glob : List P) (h : known.Sublist glob) :
    updateTimes known glob = glob := by
  unfold updateTimes
  split_ifs with hl
  · exact h.eq_of_length hl
  · rfl

/-- It is not when as many files have been removed as added. -/
theorem C76_update_times_violated : updateTimes [1, 2] [2, 3] ≠ [2, 3] := by decide

/-! ### Axes and edges -/

/-- The horizontal and the vertical axes of the figures, whatever the spaces: `x` and `y` for a cut at constant `z`,
`x` and `z` at constant `y`, `z` and `y` at constant `x`; the other equations are refused. -/
theorem C76_axes_order (eq rest : List Char) (c : Char) (h : eq.filter (· ≠ ' ') = c :: '=' :: rest) :
    axesOf eq = if c = 'z' then .ok (.x, .y) else if c = 'y' then .ok (.x, .z) else if c = 'x' then .ok (.z, .y)
      else .error .notImplemented := by
  have key : ∀ d : Char, [d, '='].isPrefixOf (c :: '=' :: rest) = decide (c = d) := by
    intro d
    simp [List.isPrefixOf, beq_eq_decide, eq_comm]
  unfold axesOf
  simp only [h]
  rw [show "z=".toList = ['z', '='] from rfl, show "y=".toList = ['y', '='] from rfl,
    show "x=".toList = ['x', '='] from rfl, key, key, key]
  simp only [decide_eq_true_eq]

example : axesOf "y = 0.5".toList = .ok (.x, .z) := by decide +kernel

/-- The edges of any grid: inside, the mean of the four points around; on the sides, the mean of the two neighbours of
the side; at the corners, the points of the corners. -/
theorem C76_edges_mean (a : Arr Q) (h0 : 0 < a.n0) (h1 : 0 < a.n1) :
    (∀ iy ix, iy + 1 < a.n0 → ix + 1 < a.n1 →
      edges a (iy + 1) (ix + 1)
        = (a.val iy ix + a.val iy (ix + 1) + a.val (iy + 1) ix + a.val (iy + 1) (ix + 1)) / 4) ∧
    (∀ ix, ix + 1 < a.n1 →
      edges a 0 (ix + 1) = (a.val 0 ix + a.val 0 (ix + 1)) / 2 ∧
      edges a a.n0 (ix + 1) = (a.val (a.n0 - 1) ix + a.val (a.n0 - 1) (ix + 1)) / 2) ∧
    (∀ iy, iy + 1 < a.n0 →
      edges a (iy + 1) 0 = (a.val iy 0 + a.val (iy + 1) 0) / 2 ∧
      edges a (iy + 1) a.n1 = (a.val iy (a.n1 - 1) + a.val (iy + 1) (a.n1 - 1)) / 2) ∧
    edges a 0 0 = a.val 0 0 ∧ edges a 0 a.n1 = a.val 0 (a.n1 - 1) ∧ edges a a.n0 0 = a.val (a.n0 - 1) 0 ∧
    edges a a.n0 a.n1 = a.val (a.n0 - 1) (a.n1 - 1) := by
  refine ⟨fun iy ix hy hx => ?_, fun ix hx => ⟨?_, ?_⟩, fun iy hy => ⟨?_, ?_⟩, ?_, ?_, ?_, ?_⟩
  · have e1 : ¬ (iy + 1 = 0 ∨ iy + 1 = a.n0) := by omega
    have e2 : ¬ (ix + 1 = 0 ∨ ix + 1 = a.n1) := by omega
    simp only [edges, if_neg e1, if_neg e2, Nat.add_sub_cancel]
    ring
  · have e2 : ¬ (ix + 1 = 0 ∨ ix + 1 = a.n1) := by omega
    simp only [edges, if_neg e2, true_or, if_true, Nat.add_sub_cancel]
    ring
  · have e2 : ¬ (ix + 1 = 0 ∨ ix + 1 = a.n1) := by omega
    simp only [edges, if_neg e2, or_true, if_true, Nat.add_sub_cancel, if_neg h0.ne']
    ring
  · have e1 : ¬ (iy + 1 = 0 ∨ iy + 1 = a.n0) := by omega
    simp only [edges, if_neg e1, true_or, if_true, Nat.add_sub_cancel]
    ring
  · have e1 : ¬ (iy + 1 = 0 ∨ iy + 1 = a.n0) := by omega
    simp only [edges, if_neg e1, or_true, if_true, Nat.add_sub_cancel, if_neg h1.ne']
    ring
  · simp [edges]
  · simp [edges, h1.ne']
  · simp [edges, h0.ne']
  · simp [edges, h0.ne', h1.ne']

example : let a : Arr ℚ := ⟨2, 2, fun j k => 10 * j + k ^ 2⟩
    edges a 1 1 = 11 / 2 ∧ edges a 0 1 = 1 / 2 := by decide +kernel

end Verif.Hexa
