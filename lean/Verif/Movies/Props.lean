import Verif.Movies.Lemmas
import Mathlib.Algebra.Order.Ring.Rat
import Mathlib.Algebra.Order.Field.Rat
import Mathlib.Data.Rat.Floor

/-! # C71: theorems on the movies and their player -/

namespace Verif.Movies

set_option linter.unusedSectionVars false

variable {Q : Type*} [Field Q] [LinearOrder Q] [IsStrictOrderedRing Q] [FloorRing Q]

/-! ### The times of the frames -/

/-- The frames of an accepted movie of physical fields, for non-negative times: from `tmin` (by default the first file)
every `dt_equations`, stopped before `tmax` (by default the last file), at least two frames; none of them is after the
last file, and none is before the first one unless `tmin` is. -/
theorem C71_times (times : List Q) (tmin tmax dt : Option Q) (l : List Q) (hs : times.Pairwise (· ≤ ·))
    (hpos : ∀ t ∈ times, 0 ≤ t) (hpos' : ∀ t, tmin = some t → 0 ≤ t) (h : initPhys times tmin tmax dt = .ok l) :
    ∃ a b d hi lo, hi ∈ times ∧ (∀ t ∈ times, t ≤ hi) ∧ lo ∈ times ∧ (∀ t ∈ times, lo ≤ t) ∧
      a = tmin.getD lo ∧ b = tmax.getD hi ∧ (∀ d', dt = some d' → d = d') ∧ 0 < d ∧ b ≤ hi ∧ 2 * d ≤ b - a ∧
      Until a b d l ∧ 2 ≤ l.length ∧ ∀ t ∈ l, a ≤ t ∧ t < b := by
  unfold initPhys at h
  cases hmax : times.max? with
  | none => rw [hmax] at h; simp at h
  | some hi =>
    cases hmin : times.min? with
    | none => rw [hmax, hmin] at h; simp at h
    | some lo =>
      rw [hmax, hmin] at h
      simp only at h
      obtain ⟨hi1, hi2⟩ := List.max?_eq_some_iff.1 hmax
      obtain ⟨lo1, lo2⟩ := List.min?_eq_some_iff.1 hmin
      obtain ⟨d, hd1, hd2⟩ : ∃ d, dtEquations times dt = some d ∧ ∀ d', dt = some d' → d = d' := by
        cases hd : dtEquations times dt with
        | none => rw [hd] at h; simp at h
        | some d =>
          refine ⟨d, rfl, fun d' hd' => ?_⟩
          rw [hd'] at hd; simpa [dtEquations] using hd.symm
      rw [hd1] at h
      simp only at h
      set a := tmin.getD lo with ha
      set b := tmax.getD hi with hb
      have ha0 : 0 ≤ a := by
        rw [ha]; cases htm : tmin with
        | none => exact hpos lo lo1
        | some t => exact hpos' t htm
      by_cases h1 : hi < b
      · rw [if_pos h1] at h; simp at h
      rw [if_neg h1] at h
      have hbhi : b ≤ hi := not_lt.1 h1
      cases hani : aniTimes a b d with
      | error e => rw [hani] at h; simp at h
      | ok l' =>
        rw [hani] at h
        simp only at h
        by_cases h2 : d < (times.getLastD 0 - times.headD 0) / (times.length : Q) / 4
        · rw [if_pos h2] at h; simp at h
        rw [if_neg h2] at h
        by_cases h3 : (b - a) / 2 < d
        · rw [if_pos h3] at h; simp at h
        rw [if_neg h3] at h
        simp only [Except.ok.injEq] at h
        subst h
        have hdf : 0 ≤ (times.getLastD 0 - times.headD 0) / (times.length : Q) / 4 := by
          have : times.headD 0 ≤ times.getLastD 0 := by
            cases times with
            | nil => simp
            | cons x xs =>
              rw [List.headD_cons, List.getLastD_cons]
              cases xs with
              | nil => simp
              | cons y ys =>
                rw [List.getLastD_eq_getLast?, List.getLast?_eq_some_getLast (by simp)]
                exact (List.pairwise_cons.1 hs).1 _ (List.getLast_mem _)
          have h4 : 0 ≤ times.getLastD 0 - times.headD 0 := sub_nonneg.2 this
          positivity
        have hd0 : 0 ≤ d := hdf.trans (not_lt.1 h2)
        have h3' : d ≤ (b - a) / 2 := not_lt.1 h3
        have hab : a ≤ b := by linarith
        have hdb : d ≤ b := by linarith
        have hdne : d ≠ 0 := by
          intro h0
          rw [aniTimes, if_neg (not_lt.2 hab), if_neg (not_lt.2 hdb), arange, if_pos h0] at hani
          simp at hani
        have hdpos : 0 < d := lt_of_le_of_ne hd0 (Ne.symm hdne)
        obtain ⟨l'', e1, e2⟩ := aniTimes_until a b d hdpos hab hdb
        rw [e1, Except.ok.injEq] at hani
        subst hani
        refine ⟨a, b, d, hi, lo, hi1, hi2, lo1, lo2, rfl, rfl, hd2, hdpos, hbhi, by linarith, e2, ?_, fun t ht => ?_⟩
        · exact until_length_ge e2 1 (by push_cast; linarith)
        · obtain ⟨i, hi', hlt⟩ := (until_mem e2 t).1 ht
          refine ⟨?_, hlt⟩
          have : (0 : Q) ≤ (i : Q) * d := mul_nonneg (by positivity) hd0
          linarith

/-- Not true of the code: the movie goes till `tmax`. The field at `tmax`, in particular the last file, is never shown
in an accepted movie. -/
theorem C71_final_time_violated (times : List Q) (tmin dt : Option Q) (l : List Q) (hs : times.Pairwise (· ≤ ·))
    (hpos : ∀ t ∈ times, 0 ≤ t) (hpos' : ∀ t, tmin = some t → 0 ≤ t) (h : initPhys times tmin none dt = .ok l)
    (tlast : Q) (hlast : ∀ t ∈ times, t ≤ tlast) : tlast ∉ l := by
  obtain ⟨a, b, d, hi, lo, h1, h2, -, -, -, h6, -, -, -, -, -, -, h12⟩ := C71_times times tmin none dt l hs hpos hpos' h
  intro hmem
  have h13 := (h12 tlast hmem).2
  rw [h6, Option.getD_none] at h13
  exact absurd (hlast hi h1) (not_le.2 h13)

/-- With regularly spaced files the default movie is accepted: each file except the last one is shown, with one
interpolated frame after each of them. -/
theorem C71_default (t0 d : Q) (n : ℕ) (h0 : 0 ≤ t0) (hd : 0 < d) (hn : 1 ≤ n) :
    ∃ l, initPhys (regular t0 d (n + 1)) none none none = .ok l ∧ l.length = 2 * n ∧
      ∀ i, i < n → l[2 * i]? = some (t0 + i * d) ∧ l[2 * i + 1]? = some (t0 + i * d + d / 2) := by
  have hnq : (1 : Q) ≤ n := by exact_mod_cast hn
  have hnd : d ≤ n * d := by nlinarith
  have hlen : (regular t0 d (n + 1)).length = n + 1 := by simp [regular]
  obtain ⟨l, h1, h2⟩ := aniTimes_until t0 (t0 + n * d) (d / 2) (by linarith) (by linarith) (by linarith)
  have hkey : initPhys (regular t0 d (n + 1)) none none none = .ok l := by
    simp only [initPhys, dtEquations, regular_max t0 d n hd.le, regular_min t0 d n hd.le, diffs_regular,
      median_replicate d n (by omega), Option.map_some, Option.getD_none, lt_irrefl, if_false, h1, regular_head,
      regular_last, hlen]
    rw [if_neg, if_neg]
    · rw [not_lt]; linarith
    · rw [not_lt, add_sub_cancel_left]
      rw [div_div, div_le_div_iff₀ (by positivity) (by norm_num)]
      push_cast
      nlinarith
  refine ⟨l, hkey, ?_, fun i hi => ?_⟩
  · have a1 : 2 * n - 1 < l.length := (h2.1 _).2 (by
      have : ((2 * n - 1 : ℕ) : Q) = 2 * n - 1 := by push_cast [Nat.cast_sub (by omega : 1 ≤ 2 * n)]; ring
      rw [this]; nlinarith)
    have a2 : ¬ 2 * n < l.length := fun h => by
      have := (h2.1 _).1 h
      push_cast at this
      nlinarith
    omega
  · have hiq : (i : Q) + 1 ≤ n := by exact_mod_cast hi
    have hid : ((i : Q) + 1) * d ≤ n * d := mul_le_mul_of_nonneg_right hiq hd.le
    constructor
    · rw [h2.2 (2 * i) ((h2.1 _).2 (by push_cast; nlinarith))]
      congr 1; push_cast; ring
    · rw [h2.2 (2 * i + 1) ((h2.1 _).2 (by push_cast; nlinarith))]
      congr 1; push_cast; ring

/-- Not true of the code: without `dt_equations` the step is reasonable and the movie is accepted, as the error message
says. Five files at the times 0, 1, 2, 3 and 100 are refused. -/
theorem C71_default_violated : initPhys ([0, 1, 2, 3, 100] : List ℚ) none none none = .error .value := by
  have h1 : ([0, 1, 2, 3, 100] : List ℚ).max? = some 100 := by decide +kernel
  have h2 : ([0, 1, 2, 3, 100] : List ℚ).min? = some 0 := by decide +kernel
  have h3 : diffs ([0, 1, 2, 3, 100] : List ℚ) = [1, 1, 1, 97] := by norm_num [diffs]
  have hs : ([1, 1, 1, 97] : List ℚ).mergeSort (fun a b => decide (a ≤ b)) = [1, 1, 1, 97] := by
    apply List.mergeSort_of_pairwise
    decide +kernel
  have h4 : median ([1, 1, 1, 97] : List ℚ) = some 1 := by
    unfold median
    rw [if_neg (by simp)]
    simp only [hs]
    norm_num
  obtain ⟨l, h5, -⟩ := aniTimes_until (0 : ℚ) 100 (1 / 2) (by norm_num) (by norm_num) (by norm_num)
  simp only [initPhys, dtEquations, h1, h2, h3, h4, Option.map_some, Option.getD_none, lt_irrefl, if_false, h5]
  rw [if_pos (by norm_num)]

/-- With only one file, or no file, the default movie raises ValueError. -/
theorem C71_one_file (times : List Q) (tmin tmax : Option Q) (h : times.length ≤ 1) :
    initPhys times tmin tmax none = .error .value := by
  match times, h with
  | [], _ => simp [initPhys]
  | [t], _ =>
    have : median (diffs [t]) = none := by simp [diffs, median]
    simp only [initPhys, dtEquations, this, Option.map_none]
    split <;> rfl

/-- A `tmax` after the last file is refused, and so is a `tmin` after `tmax`. -/
theorem C71_refused (times : List Q) (tmin dt : Option Q) (b : Q) :
    ((∀ t ∈ times, t < b) → initPhys times tmin (some b) dt = .error .value) ∧
    (∀ a, b < a → initPhys times (some a) (some b) dt = .error .value) := by
  constructor
  · intro h
    unfold initPhys
    cases hmax : times.max? with
    | none => rfl
    | some hi =>
      cases hmin : times.min? with
      | none => rfl
      | some lo =>
        simp only [Option.getD_some]
        have := h hi (List.max?_eq_some_iff.1 hmax).1
        split
        · rfl
        · rw [if_pos this]
  · intro a hab
    unfold initPhys
    cases hmax : times.max? with
    | none => rfl
    | some hi =>
      cases hmin : times.min? with
      | none => rfl
      | some lo =>
        simp only [Option.getD_some]
        split
        · rfl
        · have : ∀ d, aniTimes a b d = .error .value := fun d => by rw [aniTimes, if_pos hab]
          simp only [this]
          split_ifs <;> rfl

/-- The movie of the spectra: from the first to before the last saved time, every `periods_save.spectra`, or at the
period of the two first records. -/
theorem C71_spectra (times : List Q) (period lo hi : Q) (hlo : times.min? = some lo) (hhi : times.max? = some hi)
    (d : Q) (hd : 0 < d) (hdh : d ≤ hi)
    (hper : (period = d) ∨ (period = 0 ∧ 1 < times.length ∧ times.getD 1 0 - times.getD 0 0 = d)) :
    ∃ l, initSpectra times period none none none = .ok l ∧ Until lo hi d l := by
  have hlohi : lo ≤ hi := by
    have := (List.min?_eq_some_iff.1 hlo).1
    exact (List.max?_eq_some_iff.1 hhi).2 lo this
  obtain ⟨l, h1, h2⟩ := aniTimes_until lo hi d hd hlohi hdh
  refine ⟨l, ?_, h2⟩
  simp only [initSpectra, hlo, hhi, Option.getD_none]
  rcases hper with rfl | ⟨h, h', h''⟩
  · rw [if_neg hd.ne', h1]
  · rw [if_pos h, if_pos h', h'', h1]

/-- Not true of the code: a file with one saved spectrum can be animated (the code has a branch for this case). There
is no frame, and showing any frame raises ZeroDivisionError. -/
theorem C71_spectra_one_violated (t : Q) (ht : 0 < t) (f : ℤ) :
    ∃ l, initSpectra [t] 0 none none none = .ok l ∧ frameTime l f = .error .zeroDivision := by
  refine ⟨[], ?_, by simp [frameTime]⟩
  have h1 : ¬ t < t / 2 := by rw [not_lt]; linarith
  have h2 : t / 2 ≠ 0 := by positivity
  simp [initSpectra, aniTimes, arange, h1, ht.ne']

/-- Not true of the code: the movie of a one-dimensional simulation loaded for plotting shows the saved files. The time
of a loaded simulation is 0: the only frames are at the time 0, or the movie is refused. -/
theorem C71_loaded_1d_violated (lo period : Q) (hp : 0 < period) (hlo : 0 ≤ lo) :
    init1d 0 lo period none none none = if lo = 0 then .ok [0, 0] else .error .value := by
  simp only [init1d, aniTimes, Option.getD_none]
  rcases hlo.eq_or_lt with rfl | h
  · simp [hp]
  · rw [if_pos h, if_neg h.ne']

/-- Every frame number, even negative or past the end, shows one of the times of the movie. -/
theorem C71_frame (ani : List Q) (f : ℤ) (h : ani ≠ []) :
    ∃ t ∈ ani, frameTime ani f = .ok t ∧ ∀ k : ℤ, frameTime ani (f + k * ani.length) = .ok t := by
  have hl : ani.length ≠ 0 := by simpa using h
  have hlt : (f % ani.length).toNat < ani.length := by
    have h1 := Int.emod_nonneg f (by exact_mod_cast hl : (ani.length : ℤ) ≠ 0)
    have h2 := Int.emod_lt_of_pos f (by omega : (0 : ℤ) < ani.length)
    omega
  have key : frameTime ani f = .ok ani[(f % ani.length).toNat] := by
    rw [frameTime, if_neg hl, List.getElem?_eq_getElem hlt]
  refine ⟨_, List.getElem_mem hlt, key, fun k => ?_⟩
  rw [← key]
  simp only [frameTime, Int.add_mul_emod_self_right]

/-! ### Repetitions -/

/-- `repeat=n` shows every time of the movie `n` times. -/
theorem C71_repeat (len : ℕ) (n : ℕ) (hn : 1 ≤ n) (j : ℕ) (hj : j < len) :
    ((frames len (.int n)).filter fun f => f % len = j).length = n := by
  have h1 : (repeats (.int n)).1 = n := by
    have : (n : ℤ) ≠ 0 := by omega
    simp only [repeats]
    rw [if_pos this]
  have h2 : ((n : ℤ) * len).toNat = n * len := by
    rw [← Nat.cast_mul, Int.toNat_natCast]
  rw [frames, h1, h2]
  clear hn h1 h2
  induction n with
  | zero => simp
  | succ n ih =>
    rw [Nat.succ_mul, List.range_add, List.filter_append, List.length_append, ih]
    congr 1
    rw [List.filter_map, List.length_map]
    have : ((fun f => decide (f % len = j)) ∘ fun x => n * len + x) = fun x => decide (x % len = j) := by
      funext x
      simp [Function.comp, Nat.mul_add_mod_self_right]
    rw [this]
    have e : (List.range len).filter (fun x => decide (x % len = j)) = (List.range len).filter (fun x => decide (x = j)) := by
      apply List.filter_congr
      intro x hx
      rw [List.mem_range] at hx
      rw [Nat.mod_eq_of_lt hx]
    rw [e]
    rw [← List.countP_eq_length_filter]
    have : List.countP (fun x => decide (x = j)) (List.range len) = List.count j (List.range len) := by
      rw [List.count]
      congr 1
    rw [this]
    exact List.count_eq_one_of_mem List.nodup_range (List.mem_range.2 hj)

/-- Not true of the code: `repeat=True`, the default, loops the animation as documented. It plays once, exactly as
`repeat=False`. -/
theorem C71_repeat_violated (len : ℕ) :
    frames len (.bool true) = frames len (.bool false) ∧ (repeats (.bool true)).2 = false ∧
      frames len (.bool true) = List.range len := by
  refine ⟨rfl, rfl, ?_⟩
  simp [frames, repeats]

/-! ### The player -/

/-- Whatever the sequence of clicks and ticks, the frame of the player stays in the movie (at least two frames). -/
theorem C71_player (mx : ℤ) (hm : 1 ≤ mx) (es : List Event) :
    let p := run mx Player.init es
    (0 ≤ p.index ∧ p.index ≤ mx) ∧ ∀ f, p.shown = some f → 0 ≤ f ∧ f ≤ mx := by
  have inv : ∀ (es : List Event) (p : Player),
      ((0 ≤ p.index ∧ p.index ≤ mx) ∧ ∀ f, p.shown = some f → 0 ≤ f ∧ f ≤ mx) →
      let q := run mx p es
      (0 ≤ q.index ∧ q.index ≤ mx) ∧ ∀ f, q.shown = some f → 0 ≤ f ∧ f ≤ mx := by
    intro es
    induction es with
    | nil => intro p hp; exact hp
    | cons e es ih =>
      intro p hp
      refine ih (step mx p e) ?_
      obtain ⟨⟨h1, h2⟩, h3⟩ := hp
      have one : ∀ q : Player, q.index = p.index →
          ((0 ≤ (onestep mx q).index ∧ (onestep mx q).index ≤ mx) ∧
            ∀ f, (onestep mx q).shown = some f → 0 ≤ f ∧ f ≤ mx) := by
        intro q hq
        have : 0 ≤ (onestep mx q).index ∧ (onestep mx q).index ≤ mx := by
          unfold onestep
          simp only [hq]
          cases q.forwards <;> simp only [dir] <;> split_ifs <;> simp_all <;> omega
        refine ⟨this, fun f hf => ?_⟩
        have hsh : (onestep mx q).shown = some (onestep mx q).index := rfl
        rw [hsh, Option.some.injEq] at hf
        exact hf ▸ this
      cases e with
      | tick =>
        simp only [step, tick]
        split_ifs with a b c d
        · exact ⟨⟨h1, h2⟩, h3⟩
        · refine ⟨⟨by simp only; omega, le_rfl⟩, fun f hf => ?_⟩
          simp only [Option.some.injEq] at hf; omega
        · refine ⟨⟨le_rfl, by simp only; omega⟩, fun f hf => ?_⟩
          simp only [Option.some.injEq] at hf; omega
        · refine ⟨⟨not_lt.1 b, not_lt.1 c⟩, fun f hf => ?_⟩
          simp only [Option.some.injEq] at hf; omega
        · refine ⟨⟨not_lt.1 b, not_lt.1 c⟩, fun f hf => ?_⟩
          simp only [Option.some.injEq] at hf; omega
      | pause => exact ⟨⟨h1, h2⟩, h3⟩
      | toggle => exact ⟨⟨h1, h2⟩, h3⟩
      | forward => exact ⟨⟨h1, h2⟩, h3⟩
      | backward => exact ⟨⟨h1, h2⟩, h3⟩
      | oneForward => exact one _ rfl
      | oneBackward => exact one _ rfl
  exact inv es Player.init ⟨⟨le_rfl, by simp only [Player.init]; omega⟩, fun f hf => by simp [Player.init] at hf⟩

/-- Playing forwards from the frame `i` shows the following frames one by one, and pauses exactly on the last one; the
next click on the forward button starts again from the first frame. -/
theorem C71_play (mx : ℤ) (p : Player) (h0 : 0 ≤ p.index) (hp : p.paused = false) (hf : p.forwards = true) (k : ℕ)
    (hk : 1 ≤ k) (hle : p.index + k ≤ mx) :
    let q := run mx p (List.replicate k .tick)
    q.index = p.index + k ∧ q.shown = some (p.index + k) ∧ q.forwards = true ∧ (q.paused = true ↔ p.index + k = mx) := by
  induction k with
  | zero => omega
  | succ k ih =>
    have hrun : run mx p (List.replicate (k + 1) .tick) = tick mx (run mx p (List.replicate k .tick)) := by
      rw [List.replicate_succ', run, List.foldl_append]; rfl
    simp only [hrun]
    obtain ⟨q, hq⟩ : ∃ q, run mx p (List.replicate k .tick) = q := ⟨_, rfl⟩
    have hqs : q.index = p.index + k ∧ q.forwards = true ∧ q.paused = false := by
      rcases Nat.eq_zero_or_pos k with rfl | hpos
      · have : q = p := by rw [← hq]; rfl
        subst this
        exact ⟨by simp, hf, hp⟩
      · obtain ⟨e1, -, e3, e4⟩ := ih hpos (by push_cast at hle; omega)
        rw [hq] at e1 e3 e4
        refine ⟨e1, e3, ?_⟩
        cases hqp : q.paused with
        | false => rfl
        | true => have := e4.1 hqp; push_cast at hle; omega
    obtain ⟨e1, e2, e3⟩ := hqs
    rw [hq]
    simp only [tick, e1, e2, e3, dir, Bool.false_eq_true, if_false, if_true]
    push_cast at hle ⊢
    rw [if_neg (by omega), if_neg (by omega)]
    split_ifs with h
    · refine ⟨by simp only; omega, by simp only [Option.some.injEq]; omega, by simp, ?_⟩
      simp only [true_iff]; omega
    · refine ⟨by simp only; omega, by simp only [Option.some.injEq]; omega, by simp, ?_⟩
      simp only [false_iff]; omega

/-- On the last frame, forward then a tick shows the first frame; on the first frame, backward then a tick shows the
last one. -/
theorem C71_wrap (mx : ℤ) (hm : 1 ≤ mx) (p : Player) :
    (p.index = mx → (run mx p [.forward, .tick]).shown = some 0) ∧
      (p.index = 0 → (run mx p [.backward, .tick]).shown = some mx) := by
  constructor
  · intro h
    have h' : ¬ mx + 1 < 0 := by omega
    simp [run, step, tick, h, dir, h']
  · intro h
    simp [run, step, tick, h, dir]

/-- The buttons one step forward and one step backward move by one frame on the circle of the frames and pause; they
undo each other. -/
theorem C71_one_step (mx : ℤ) (hm : 1 ≤ mx) (p : Player) (h0 : 0 ≤ p.index) (h1 : p.index ≤ mx) :
    (step mx p .oneForward).index = (p.index + 1) % (mx + 1) ∧
      (step mx p .oneBackward).index = (p.index - 1) % (mx + 1) ∧
      (step mx p .oneForward).paused = true ∧ (step mx p .oneBackward).paused = true ∧
      (step mx p .oneForward).shown = some ((p.index + 1) % (mx + 1)) ∧
      (run mx p [.oneForward, .oneBackward]).index = p.index ∧
      (run mx p [.oneBackward, .oneForward]).index = p.index := by
  have fwd : ∀ q : Player, 0 ≤ q.index → q.index ≤ mx → (step mx q .oneForward).index = (q.index + 1) % (mx + 1) := by
    intro q a b
    simp only [step, onestep, dir]
    by_cases h : q.index = mx
    · rw [h, if_neg (by omega), if_neg (by omega), if_pos rfl]
      simp
    · rw [Int.emod_eq_of_lt (by omega) (by omega)]
      by_cases h' : q.index = 0
      · rw [if_neg (by omega), if_pos h']; simp
      · rw [if_pos (by omega)]; simp
  have bwd : ∀ q : Player, 0 ≤ q.index → q.index ≤ mx → (step mx q .oneBackward).index = (q.index - 1) % (mx + 1) := by
    intro q a b
    simp only [step, onestep, dir]
    by_cases h : q.index = 0
    · rw [h, if_neg (by omega), if_pos rfl]
      have : (0 - 1 : ℤ) % (mx + 1) = mx := by
        rw [Int.emod_eq_iff (by omega)]
        refine ⟨by omega, by omega, ?_⟩
        exact ⟨1, by ring⟩
      rw [this]; simp
    · rw [Int.emod_eq_of_lt (by omega) (by omega)]
      by_cases h' : q.index = mx
      · rw [if_neg (by omega), if_neg h, if_pos h']; simp
      · rw [if_pos (by omega)]; simp; ring
  have hsh : (step mx p .oneForward).shown = some (step mx p .oneForward).index := rfl
  have m1 := Int.emod_nonneg (p.index + 1) (by omega : mx + 1 ≠ 0)
  have m2 := Int.emod_lt_of_pos (p.index + 1) (by omega : 0 < mx + 1)
  have m3 := Int.emod_nonneg (p.index - 1) (by omega : mx + 1 ≠ 0)
  have m4 := Int.emod_lt_of_pos (p.index - 1) (by omega : 0 < mx + 1)
  refine ⟨fwd p h0 h1, bwd p h0 h1, rfl, rfl, by rw [hsh, fwd p h0 h1], ?_, ?_⟩
  · simp only [run, List.foldl_cons, List.foldl_nil]
    rw [bwd _ (by rw [fwd p h0 h1]; exact m1) (by rw [fwd p h0 h1]; omega), fwd p h0 h1]
    rw [Int.emod_sub_emod, add_sub_cancel_right, Int.emod_eq_of_lt h0 (by omega)]
  · simp only [run, List.foldl_cons, List.foldl_nil]
    rw [fwd _ (by rw [bwd p h0 h1]; exact m3) (by rw [bwd p h0 h1]; omega), bwd p h0 h1]
    rw [Int.emod_add_emod, sub_add_cancel, Int.emod_eq_of_lt h0 (by omega)]

/-! ### The arrows -/

/-- With `normalize_vectors=True` all the frames have the same normalisation. -/
theorem C71_arrows (vmax : Q) : scaleFirst (some true) vmax = 1 / vmax ∧ scaleNext (some true) vmax = 1 / vmax := by
  simp [scaleFirst, scaleNext]

/-- Not true of the code: the vectors are normalised by default and are not with `normalize_vectors=False`. By default the
first frame is not normalised; the other frames are always normalised. -/
theorem C71_arrows_violated (vmax : Q) :
    scaleFirst none vmax = 1 ∧ (vmax ≠ 1 → vmax ≠ 0 → scaleNext none vmax ≠ scaleFirst none vmax) ∧
      (vmax ≠ 1 → vmax ≠ 0 → scaleNext (some false) vmax ≠ 1) := by
  refine ⟨rfl, fun h h0 => ?_, fun h h0 => ?_⟩
  · simp only [scaleNext, scaleFirst]
    intro h'
    rw [if_neg (by simp), div_eq_iff h0, one_mul] at h'
    exact h h'.symm
  · simp only [scaleNext]
    intro h'
    rw [div_eq_iff h0, one_mul] at h'
    exact h h'.symm

/-- Without `step` the arrows and their positions correspond. -/
theorem C71_quiver (n skip : ℕ) : quiver n 1 skip = .ok () := by
  simp [quiver, Verif.Sections.strided]

/-- Not true of the code: `step` shows a coarse field, with or without arrows. For every `step >= 2` and with an arrow at
every point, the first frame raises ValueError. -/
theorem C71_quiver_violated (n stp : ℕ) (hn : 2 ≤ n) (hs : 2 ≤ stp) : quiver n stp 1 = .error .value := by
  have h : (n + stp - 1) / stp < n := by
    rw [Nat.div_lt_iff_lt_mul (by omega)]
    obtain ⟨a, rfl⟩ := Nat.exists_eq_add_of_le hn
    obtain ⟨b, rfl⟩ := Nat.exists_eq_add_of_le hs
    have : (2 + a) * (2 + b) = 4 + 2 * a + 2 * b + a * b := by ring
    rw [this]
    have := Nat.zero_le (a * b)
    omega
  rw [quiver, if_neg]
  simp only [Verif.Sections.strided, Nat.div_one, Nat.add_sub_cancel]
  omega

/-- Non-vacuity: a movie of four files. -/
example : ∃ l, initPhys (regular (1 : ℚ) 2 4) none none none = .ok l ∧ l.length = 6 := by
  obtain ⟨l, h1, h2, -⟩ := C71_default (1 : ℚ) 2 3 (by norm_num) (by norm_num) (by norm_num)
  exact ⟨l, h1, h2⟩

example : run 3 Player.init [.tick, .tick, .tick] = ⟨3, true, true, some 3⟩ := by decide

/-- The median, from which the default step is computed: with the values sorted, the middle one or the mean of the two
middle ones. -/
theorem C71_median (l s : List Q) (hp : l.Perm s) (hs : s.Pairwise (· ≤ ·)) (m : ℕ) :
    (s.length = 2 * m + 1 → median l = s[m]?) ∧
    (s.length = 2 * m + 2 → ∀ a b, s[m]? = some a → s[m + 1]? = some b → median l = some ((a + b) / 2)) := by
  have hsort : l.mergeSort (fun a b => decide (a ≤ b)) = s := by
    have h1 : (l.mergeSort (fun a b => decide (a ≤ b))).Pairwise (· ≤ ·) := by
      have := List.pairwise_mergeSort (le := fun a b : Q => decide (a ≤ b))
        (fun a b c h1 h2 => by simp only [decide_eq_true_eq] at *; exact h1.trans h2)
        (fun a b => by simp only [Bool.or_eq_true, decide_eq_true_eq]; exact le_total a b) l
      exact this.imp fun h => by simpa using h
    exact ((List.mergeSort_perm l _).trans hp).eq_of_pairwise (fun a b _ _ h1 h2 => le_antisymm h1 h2) h1 hs
  have hlen : l.length = s.length := hp.length_eq
  unfold median
  simp only [hsort, hlen]
  constructor
  · intro h
    have e1 : (2 * m + 1 - 1) / 2 = m := by omega
    have e2 : (2 * m + 1) / 2 = m := by omega
    have hm : m < s.length := by omega
    rw [if_neg (by omega), h, e1, e2]
    simp only [List.getD_eq_getElem?_getD, List.getElem?_eq_getElem hm, Option.getD_some]
    rw [← two_mul, mul_div_cancel_left₀ _ two_ne_zero]
  · intro h a b ha hb
    have e1 : (2 * m + 2 - 1) / 2 = m := by omega
    have e2 : (2 * m + 2) / 2 = m + 1 := by omega
    rw [if_neg (by omega), h, e1, e2]
    simp only [List.getD_eq_getElem?_getD, ha, hb, Option.getD_some]

example : ([3, 1, 2, 10] : List ℚ).Perm [1, 2, 3, 10] ∧ ([1, 2, 3, 10] : List ℚ).Pairwise (· ≤ ·) := by decide +kernel

/-- The frames of the movie of a one-dimensional simulation which has run: from `tmin` (by default the first file) every
`dt_equations` (by default the period of the files), stopped before `tmax` (by default the time of the simulation). -/
theorem C71_times_1d (tnow lo period : Q) (tmin tmax dt : Option Q) (a b d : Q) (ha : a = tmin.getD lo)
    (hb : b = tmax.getD tnow) (hd : d = dt.getD period) (h0 : 0 < d) (hab : a ≤ b) (hdb : d ≤ b) :
    ∃ l, init1d tnow lo period tmin tmax dt = .ok l ∧ Until a b d l := by
  subst ha hb hd
  exact aniTimes_until _ _ _ h0 hab hdb

example : init1d (3 : ℚ) 0 1 none none (some (1 / 2)) = .ok [0, 1 / 2, 1, 3 / 2, 2, 5 / 2] := by decide +kernel

/-- `repeat=0` shows the movie once. -/
theorem C71_repeat_zero (len : ℕ) : frames len (.int 0) = List.range len := by
  simp [frames, repeats]

/-- The buttons: pause stops, whatever the number of frames which pass; the button of pause pressed again restores the
player; play resumes in the direction of the button. -/
theorem C71_buttons (mx : ℤ) (p : Player) (n : ℕ) :
    run mx p (.pause :: List.replicate n .tick) = { p with paused := true } ∧
    run mx p [.toggle, .toggle] = p ∧ (run mx p [.toggle]).paused = !p.paused ∧
    (run mx p [.pause, .forward]).paused = false ∧ (run mx p [.pause, .forward]).forwards = true ∧
    (run mx p [.pause, .backward]).paused = false ∧ (run mx p [.pause, .backward]).forwards = false := by
  refine ⟨?_, ?_, rfl, rfl, rfl, rfl, rfl⟩
  · have : ∀ q : Player, q.paused = true → (List.replicate n Event.tick).foldl (step mx) q = q := by
      intro q hq
      induction n with
      | zero => rfl
      | succ n ih =>
        rw [List.replicate_succ, List.foldl_cons]
        have : step mx q .tick = q := by simp [step, tick, hq]
        rw [this, ih]
    simp only [run, List.foldl_cons]
    rw [this _ rfl]
    rfl
  · simp [run, step]

end Verif.Movies
