import Verif.MeanValues.Lemmas
import Mathlib.Data.Rat.Floor
import Mathlib.Tactic.NormNum
import Mathlib.Tactic.LinearCombination

set_option linter.unusedSectionVars false

/-! # C68: the mean values of a simulation and their cache -/

namespace Verif.MeanValues

open Verif.PhysFiles (Str closest closest_spec)
open Verif.StdOut (startsWith afterLast isInfix isInfix_mem)

variable {D Q R C : Type}

/-! ## the range of times -/

theorem afterLast_start (T : Str) (hT : 't' ∉ T) : afterLast "t_start+".toList ("t_start+".toList ++ T) = T := by
  have hi : isInfix ['t', '_', 's', 't', 'a', 'r', 't', '+'] T = false := by
    by_contra hc
    rw [Bool.not_eq_false] at hc
    exact hT (isInfix_mem (by decide) hc)
  show afterLast ['t', '_', 's', 't', 'a', 'r', 't', '+'] ('t' :: '_' :: 's' :: 't' :: 'a' :: 'r' :: 't' :: '+' :: T) = T
  rw [afterLast]
  have : isInfix ['t', '_', 's', 't', 'a', 'r', 't', '+'] ('_' :: 's' :: 't' :: 'a' :: 'r' :: 't' :: '+' :: T) = false := by
    simp [isInfix, List.isPrefixOf, hi]
  rw [this]
  simp [List.isPrefixOf]

theorem afterLast_last (T : Str) (hT : 't' ∉ T) : afterLast "t_last-".toList ("t_last-".toList ++ T) = T := by
  have hi : isInfix ['t', '_', 'l', 'a', 's', 't', '-'] T = false := by
    by_contra hc
    rw [Bool.not_eq_false] at hc
    exact hT (isInfix_mem (by decide) hc)
  show afterLast ['t', '_', 'l', 'a', 's', 't', '-'] ('t' :: '_' :: 'l' :: 'a' :: 's' :: 't' :: '-' :: T) = T
  rw [afterLast]
  have : isInfix ['t', '_', 'l', 'a', 's', 't', '-'] ('_' :: 'l' :: 'a' :: 's' :: 't' :: '-' :: T) = false := by
    simp [isInfix, List.isPrefixOf, hi]
  rw [this]
  simp [List.isPrefixOf]

theorem resolve_means [Add Q] [Sub Q] (M : Maker D Q R C) (s l dflt : Q) (t : Time Q) (a : Q)
    (h : Means M.pyFloat s l dflt t a) : resolve M s l dflt t = .ok a := by
  cases h with
  | none => rfl
  | num q => rfl
  | afterStart w x hw hx =>
    have : startsWith "t_start+".toList ("t_start+".toList ++ w) = true := by
      simp [startsWith, List.isPrefixOf]
    simp only [resolve, this, if_true, afterLast_start w hw, hx]
  | beforeLast w x hw hx =>
    have h1 : startsWith "t_start+".toList ("t_last-".toList ++ w) = false := by
      simp [startsWith, List.isPrefixOf]
    have h2 : startsWith "t_last-".toList ("t_last-".toList ++ w) = true := by
      simp [startsWith, List.isPrefixOf]
    simp only [resolve, h1, h2, if_true, Bool.false_eq_true, if_false, afterLast_last w hw, hx]

/-- **C68.** The range is the one the arguments mean: `None` is the first / the last time, `"t_start+x"` and `"t_last-x"`
are relative to them, and numbers are taken as they are. -/
theorem C68_range [Add Q] [Sub Q] (M : Maker D Q R C) (d : D) (s l a b : Q) (tmin tmax : Time Q)
    (hs : M.start d = .ok s) (hl : M.last d = .ok l) (hmin : Means M.pyFloat s l s tmin a)
    (hmax : Means M.pyFloat s l l tmax b) : range M d tmin tmax = .ok (a, b) := by
  have h1 := resolve_means M _ _ _ _ _ hmin
  have h2 := resolve_means M _ _ _ _ _ hmax
  unfold range
  split
  · cases hmin; cases hmax; rfl
  · simp only [hs, hl, h1, h2]

/-- **C68.** With two numbers, the times of the simulation are not read (the log file may be absent). -/
theorem C68_range_numbers [Add Q] [Sub Q] (M : Maker D Q R C) (d : D) (a b : Q) :
    range M d (.num a) (.num b) = .ok (a, b) := rfl

/-- **C68.** Another text for `tmin` or `tmax` is a `ValueError`. -/
theorem C68_range_error [Add Q] [Sub Q] (M : Maker D Q R C) (d : D) (s l : Q) (w : Str) (t : Time Q)
    (hs : M.start d = .ok s) (hl : M.last d = .ok l) (h1 : ¬ "t_start+".toList <+: w) (h2 : ¬ "t_last-".toList <+: w) :
    range M d (.text w) t = .error .ValueError ∧
    ∀ a, Means M.pyFloat s l s t a → range M d t (.text w) = .error .ValueError := by
  have e1 : startsWith "t_start+".toList w = false := by
    rw [Bool.eq_false_iff]; intro h; exact h1 (List.isPrefixOf_iff_prefix.mp h)
  have e2 : startsWith "t_last-".toList w = false := by
    rw [Bool.eq_false_iff]; intro h; exact h2 (List.isPrefixOf_iff_prefix.mp h)
  refine ⟨?_, fun a ha => ?_⟩
  · simp only [range, hs, hl, resolve, e1, e2, Bool.false_eq_true, if_false]
  · have := resolve_means M _ _ _ _ _ ha
    cases t <;> simp only [range, hs, hl, this] <;> simp only [resolve, e1, e2, Bool.false_eq_true, if_false]

/-! ## the cache -/

/-- **C68.** Two calls share a file of the cache only if they are for the same range and if the sources of
`customize` have the same hash. -/
theorem C68_names (M : Maker D Q R C) (hT : Texts M) (a a' b b' : Q) (c c' : Option C) :
    fileName M a b c = fileName M a' b' c' ↔ a = a' ∧ b = b' ∧ c.map M.hash = c'.map M.hash := by
  refine ⟨fileName_inj M hT _ _ _ _ _ _, ?_⟩
  rintro ⟨rfl, rfl, h⟩
  unfold fileName
  cases c with
  | none =>
    cases c' with
    | none => rfl
    | some g => simp at h
  | some f =>
    cases c' with
    | none => simp at h
    | some g => simp only [Option.map_some, Option.some.injEq] at h; simp only [h]

/-- **C68.** Without the cache, the result is the present one, and it is the one which is then in the cache. -/
theorem C68_no_cache [Add Q] [Sub Q] (M : Maker D Q R C) (hT : Texts M) (s : St D) (x : Args Q C) (r : R) (txt : Str)
    (hx : x.useCache = false) (hr : Wanted M s.data x = .ok r) (hd : M.dumps r = .ok txt) :
    (get M none s x).2 = .ok r ∧
    (get M none (get M none s x).1 { x with useCache := true }).2 = .ok r := by
  unfold Wanted at hr
  cases hg : range M s.data x.tmin x.tmax with
  | error e => rw [hg] at hr; simp at hr
  | ok p =>
    obtain ⟨a, b⟩ := p
    rw [hg] at hr
    dsimp only at hr
    have e : get M none s x = (s.write (fileName M a b x.customize) txt, .ok r) := by
      unfold get
      rw [hg]
      simp only [hx, Bool.false_eq_true, if_false]
      unfold store
      simp only [hr, hd]
    rw [e]
    refine ⟨rfl, ?_⟩
    unfold get
    simp only [St.write, hg, if_true, hT.json r txt hd]

/-- **C68 (partial).** For every history in which no call is killed while it writes, the files only grow, and every
call is for a range which is over: a call returns the present result, although it may come from the cache.
`customize` functions with the same source have to do the same thing, and the results have to be serialisable. What is
missing is shown by the theorems `_violated` below. -/
theorem C68_cache_partial [Preorder Q] [Add Q] [Sub Q] (M : Maker D Q R C) (Ext : D → D → Prop) (hG : Grows M Ext)
    (hT : Texts M) (hh : ∀ f g, M.hash f = M.hash g → M.custom f = M.custom g) (hs : ∀ r, ∃ txt, M.dumps r = .ok txt)
    (d : D) (h : List (Ev D Q C)) (x : Args Q C) (hc : Careful M Ext d (h ++ [.call x])) :
    (get M none (run M d h) x).2 = Wanted M (dataAfter d h) x := by
  have key : ∀ (h : List (Ev D Q C)) (d : D), Careful M Ext d (h ++ [.call x]) →
      Careful M Ext d h ∧ Careful M Ext (dataAfter d h) [.call x] := by
    intro h
    induction h with
    | nil => intro d hc; exact ⟨trivial, hc⟩
    | cons e h ih =>
      intro d hc
      cases e with
      | grow d' => exact ⟨⟨hc.1, (ih d' hc.2).1⟩, (ih d' hc.2).2⟩
      | call y => exact ⟨⟨hc.1, (ih d hc.2).1⟩, (ih d hc.2).2⟩
      | killed m y => exact absurd hc (by simp [Careful])
  obtain ⟨h1, h2⟩ := key h d hc
  obtain ⟨h3, h4⟩ := run_inv M Ext hG hT hh hs h ⟨d, fun _ => none⟩ (by intro a b c txt h; simp at h) h1
  change Inv M (run M d h) at h3
  change (run M d h).data = dataAfter d h at h4
  rw [← h4] at h2 ⊢
  exact (get_inv M hT hh hs _ x h3 h2.1).2.2

section
variable {K : Type} [Field K] [LinearOrder K] [IsStrictOrderedRing K] [FloorRing K]

/-- **C68.** The averages of a file to which lines are appended satisfy the hypothesis of `C68_cache_partial`: the
average over a range which is over does not change. -/
theorem C68_appended (fmt : K → Str) (pyFloat : Str → Option K) (dumps : K → Except Str Str) (loads : Str → Option K)
    (hash : K → Str) : Grows (fileMaker fmt pyFloat dumps loads hash) Appended := by
  refine ⟨?_, ?_, ?_⟩
  · rintro d d' l ⟨e, p, hp, rfl, he⟩ hl
    simp only [fileMaker, hp, Except.ok.injEq] at hl
    subst hl
    cases hq : e.getLast? with
    | none =>
      have : e = [] := by simpa using hq
      subst this
      exact ⟨p.1, by simp [fileMaker, hp], le_rfl⟩
    | some q =>
      refine ⟨q.1, ?_, (he q (List.mem_of_getLast? hq)).le⟩
      simp [fileMaker, List.getLast?_append, hq]
  · rintro d d' l a b ⟨e, p, hp, rfl, he⟩ hl ha hb
    simp only [fileMaker, hp, Except.ok.injEq] at hl
    subst hl
    simp only [fileMaker, List.map_append]
    rw [average_append (d.map Prod.fst) (e.map Prod.fst) (d.map Prod.snd) (e.map Prod.snd) (by simp) a b p.1
      (by simp [List.getLast?_map, hp]) ha hb (by
        intro y hy
        obtain ⟨q, hq, rfl⟩ := List.mem_map.mp hy
        exact he q hq)]
  · intro d d' f r _
    rfl

end

/-! ### example of texts -/

/-- Texts for the rational numbers. -/
def exFmt (q : ℚ) : Str :=
  (if q < 0 then ['-'] else []) ++ Verif.PhysFiles.digs q.num.natAbs ++ '/' :: Verif.PhysFiles.digs q.den

theorem notdig {n : ℕ} {c : Char} (h : c ∈ Verif.PhysFiles.digs n) : c ≠ '_' ∧ c ≠ '/' ∧ c ≠ '-' ∧ c ≠ '}' := by
  have := Verif.PhysFiles.isDig_bounds (Verif.PhysFiles.digs_isDig n c h)
  refine ⟨?_, ?_, ?_, ?_⟩ <;>
  · rintro rfl
    revert this
    decide

theorem exFmt_chars (q : ℚ) : '_' ∉ exFmt q ∧ '}' ∉ exFmt q := by
  unfold exFmt
  constructor <;>
  · simp only [List.mem_append, List.mem_cons, not_or]
    refine ⟨⟨by split <;> decide, fun h => ?_⟩, by decide, fun h => ?_⟩ <;>
    · have := notdig h
      simp at this

theorem exFmt_inj (p q : ℚ) (h : exFmt p = exFmt q) : p = q := by
  unfold exFmt at h
  have hsl : ∀ r : ℚ, '/' ∉ (if r < 0 then ['-'] else []) ++ Verif.PhysFiles.digs r.num.natAbs := by
    intro r
    simp only [List.mem_append, not_or]
    exact ⟨by split <;> decide, fun h => absurd rfl (notdig h).2.1⟩
  obtain ⟨h1, h2⟩ := cut_first (hsl p) (hsl q) h
  have hden := Verif.PhysFiles.digs_inj h2
  have hmin : ∀ r : ℚ, '-' ∉ Verif.PhysFiles.digs r.num.natAbs := fun r h => absurd rfl (notdig h).2.2.1
  have hsgn : (p < 0 ↔ q < 0) ∧ p.num.natAbs = q.num.natAbs := by
    by_cases hp : p < 0 <;> by_cases hq : q < 0
    · simp only [hp, hq, if_true, List.append_cancel_left_eq] at h1
      exact ⟨by simp [hp, hq], Verif.PhysFiles.digs_inj h1⟩
    · exfalso
      simp only [hp, hq, if_true, if_false, List.nil_append] at h1
      exact hmin q (by rw [← h1]; simp)
    · exfalso
      simp only [hp, hq, if_true, if_false, List.nil_append] at h1
      exact hmin p (by rw [h1]; simp)
    · simp only [hp, hq, if_false, List.nil_append] at h1
      exact ⟨by simp [hp, hq], Verif.PhysFiles.digs_inj h1⟩
  have hnum : p.num = q.num := by
    have a1 : p.num < 0 ↔ q.num < 0 := by rw [Rat.num_neg, Rat.num_neg]; exact hsgn.1
    have a2 := hsgn.2
    omega
  exact Rat.ext hnum hden

/-- `{number}` -/
def exDumps (q : ℚ) : Except Str Str := .ok ('{' :: (exFmt q ++ ['}']))

open Classical in
noncomputable def exLoads (t : Str) : Option ℚ :=
  if h : ∃ q : ℚ, exDumps q = .ok t then some h.choose else none

theorem exDumps_inj (p q : ℚ) (h : exDumps p = exDumps q) : p = q := by
  simp only [exDumps, Except.ok.injEq, List.cons.injEq, true_and, List.append_cancel_right_eq] at h
  exact exFmt_inj p q h

theorem exLoads_dumps (r : ℚ) (txt : Str) (h : exDumps r = .ok txt) : exLoads txt = some r := by
  have he : ∃ q : ℚ, exDumps q = .ok txt := ⟨r, h⟩
  unfold exLoads
  rw [dif_pos he]
  exact congrArg some (exDumps_inj _ _ (by rw [he.choose_spec, h]))

theorem exLoads_prefix (r : ℚ) (txt : Str) (h : exDumps r = .ok txt) (m : ℕ) (hm : m < txt.length) :
    exLoads (txt.take m) = none := by
  unfold exLoads
  rw [dif_neg]
  rintro ⟨q, hq⟩
  simp only [exDumps, Except.ok.injEq] at h hq
  have hmem : '}' ∈ txt.take m := by rw [← hq]; simp
  have h1 : txt.take m = ('{' :: exFmt r).take m := by
    rw [← h, ← List.cons_append, List.take_append_of_le_length]
    rw [← h] at hm
    simp only [List.length_cons, List.length_append, List.length_nil] at hm ⊢
    omega
  rw [h1] at hmem
  have := List.mem_of_mem_take hmem
  simp only [List.mem_cons] at this
  rcases this with h2 | h2
  · exact absurd h2 (by decide)
  · exact (exFmt_chars r).2 h2

/-- The averages of the lines of a file of rational numbers. -/
noncomputable def exMaker (hash : ℚ → Str) : Maker (List (ℚ × ℚ)) ℚ ℚ ℚ :=
  fileMaker exFmt (fun w => if w = "1".toList then some 1 else none) exDumps exLoads hash

theorem exMaker_texts (hash : ℚ → Str) : Texts (exMaker hash) :=
  ⟨exFmt_inj, fun q => (exFmt_chars q).1, exLoads_dumps⟩

/-- The hypotheses of `C68_range` are met: from 1 after the start to 1 before the end. -/
example : range (exMaker exFmt) [(2, 0), (3, 0), (6, 0)] (.text "t_start+1".toList) (.text "t_last-1".toList) =
    .ok (2 + 1, 6 - 1) :=
  C68_range _ _ _ _ _ _ _ _ rfl rfl (.afterStart ['1'] 1 (by decide) (by simp [exMaker, fileMaker]))
    (.beforeLast ['1'] 1 (by decide) (by simp [exMaker, fileMaker]))

example : range (exMaker exFmt) [(2, 0), (3, 0), (6, 0)] (.text "start".toList) .none = .error .ValueError :=
  (C68_range_error _ _ 2 6 _ _ rfl rfl (by decide) (by decide)).1

/-- The hypotheses of `C68_cache_partial` are met: a call, then the simulation goes on, then a call. -/
example (x : Args ℚ ℚ) (hx : x = ⟨.none, .none, true, some 3⟩) :
    (get (exMaker exFmt) none (run (exMaker exFmt) [(0, 0), (1, 2)] [.call x, .grow [(0, 0), (1, 2), (2, 10)]]) x).2 =
      .ok (3 * 4) := by
  have hc : Careful (exMaker exFmt) Appended [(0, 0), (1, 2)]
      ([.call x, .grow [(0, 0), (1, 2), (2, 10)]] ++ [.call x]) := by
    subst hx
    refine ⟨?_, ⟨[(2, 10)], (1, 2), rfl, rfl, by simp⟩, ?_, trivial⟩
    · intro a b h
      have : range (exMaker exFmt) [(0, 0), (1, 2)] .none .none = .ok (0, 1) := rfl
      rw [this] at h
      simp only [Except.ok.injEq, Prod.mk.injEq] at h
      exact ⟨1, rfl, by rw [← h.1]; norm_num, by rw [← h.2]⟩
    · intro a b h
      have : range (exMaker exFmt) [(0, 0), (1, 2), (2, 10)] .none .none = .ok (0, 2) := rfl
      rw [this] at h
      simp only [Except.ok.injEq, Prod.mk.injEq] at h
      exact ⟨2, rfl, by rw [← h.1]; norm_num, by rw [← h.2]⟩
  rw [C68_cache_partial (exMaker exFmt) Appended (C68_appended _ _ _ _ _) (exMaker_texts _)
    (by intro f g h; rw [exFmt_inj f g h]) (fun r => ⟨_, rfl⟩) _ _ x hc]
  subst hx
  have h1 : range (exMaker exFmt) [(0, 0), (1, 2), (2, 10)] .none .none = .ok (0, 2) := rfl
  have h2 : average [(0 : ℚ), 1, 2] [0, 2, 10] 0 (some 2) = some 4 := by decide +kernel
  have h3 : (exMaker exFmt).compute [(0, 0), (1, 2), (2, 10)] 0 2 = .ok 4 := by
    simp only [exMaker, fileMaker, List.map, h2]
  simp only [Wanted, dataAfter, h1, computeAll, h3]
  rfl

/-! ## findings -/

theorem exCompute (hash : ℚ → Str) (d : List (ℚ × ℚ)) (a b m : ℚ)
    (h : average (d.map Prod.fst) (d.map Prod.snd) a (some b) = some m) : (exMaker hash).compute d a b = .ok m := by
  simp only [exMaker, fileMaker, h]

/-- **C68 (finding).** With a number for `tmax` which is after the last saved time, the result of the first call stays in the
cache: when the simulation has gone on, the same call returns the old average (1) instead of the present one (4). -/
theorem C68_stale_violated :
    let x : Args ℚ ℚ := ⟨.num 0, .num 3, true, none⟩
    let d' : List (ℚ × ℚ) := [(0, 0), (1, 2), (2, 10), (3, 4)]
    Appended [(0, 0), (1, 2)] d' ∧
    (get (exMaker exFmt) none (run (exMaker exFmt) [(0, 0), (1, 2)] [.call x, .grow d']) x).2 = .ok 1 ∧
    Wanted (exMaker exFmt) d' x = .ok 4 := by
  intro x d'
  have h1 : average [(0 : ℚ), 1] [0, 2] 0 (some 3) = some 1 := by decide +kernel
  have h2 : average [(0 : ℚ), 1, 2, 3] [0, 2, 10, 4] 0 (some 3) = some 4 := by decide +kernel
  have c1 := exCompute exFmt [(0, 0), (1, 2)] 0 3 1 h1
  have c2 := exCompute exFmt d' 0 3 4 h2
  refine ⟨⟨[(2, 10), (3, 4)], (1, 2), rfl, rfl, by simp⟩, ?_, ?_⟩
  · have hw : (get (exMaker exFmt) none ⟨[(0, 0), (1, 2)], fun _ => none⟩ x).1 =
        St.write ⟨[(0, 0), (1, 2)], fun _ => none⟩ (fileName (exMaker exFmt) 0 3 none) ('{' :: (exFmt 1 ++ ['}'])) := by
      simp only [get, x, range, if_true, store, computeAll, c1]
      rfl
    simp only [run, List.foldl, stepEv, hw]
    simp only [get, x, range, St.write, if_true]
    have : exLoads ('{' :: (exFmt 1 ++ ['}'])) = some 1 := exLoads_dumps 1 _ rfl
    simp only [exMaker, fileMaker, this]
  · simp only [Wanted, x, range, computeAll, c2]

/-- **C68 (finding).** Two functions `customize` with the same source (for example made by the same `def` with different
values of a variable of the enclosing function) share the file of the cache: the second call returns the result of the
first function. -/
theorem C68_customize_violated (hash : ℚ → Str) (h : hash 3 = hash 5) :
    let x : ℚ → Args ℚ ℚ := fun f => ⟨.num 0, .num 1, true, some f⟩
    let d : List (ℚ × ℚ) := [(0, 0), (1, 2)]
    (get (exMaker hash) none (run (exMaker hash) d [.call (x 3)]) (x 5)).2 = .ok 3 ∧
    Wanted (exMaker hash) d (x 5) = .ok 5 := by
  intro x d
  have h1 : average [(0 : ℚ), 1] [0, 2] 0 (some 1) = some 1 := by decide +kernel
  have c1 := exCompute hash d 0 1 1 h1
  have hf : fileName (exMaker hash) 0 1 (some 5) = fileName (exMaker hash) 0 1 (some 3) := by
    show _ ++ ("_customize".toList ++ hash 5) ++ _ = _ ++ ("_customize".toList ++ hash 3) ++ _
    rw [h]
  have e3 : (exMaker hash).custom 3 d 1 = .ok 3 := by
    show Except.ok ((3 : ℚ) * 1) = _
    rw [mul_one]
  have e5 : (exMaker hash).custom 5 d 1 = .ok 5 := by
    show Except.ok ((5 : ℚ) * 1) = _
    rw [mul_one]
  constructor
  · have hw : (get (exMaker hash) none ⟨d, fun _ => none⟩ (x 3)).1 =
        St.write ⟨d, fun _ => none⟩ (fileName (exMaker hash) 0 1 (some 3)) ('{' :: (exFmt 3 ++ ['}'])) := by
      simp only [get, x, range, if_true, store, computeAll, c1, e3]
      rfl
    simp only [run, List.foldl, stepEv, hw]
    simp only [get, x, range, St.write, if_true, hf]
    have : exLoads ('{' :: (exFmt 3 ++ ['}'])) = some 3 := exLoads_dumps 3 _ rfl
    simp only [exMaker, fileMaker, this]
  · simp only [Wanted, x, range, computeAll, c1, e5]

/-- **C68 (finding).** A call killed while it writes the file of the cache (at any character) breaks the cache: every later
call with the cache for this range raises a `JSONDecodeError`, however many times it is repeated. A call without
the cache repairs it. -/
theorem C68_killed_violated [Add Q] [Sub Q] (M : Maker D Q R C) (hT : Texts M)
    (hpre : ∀ r txt m, M.dumps r = .ok txt → m < txt.length → M.loads (txt.take m) = none)
    (d : D) (x : Args Q C) (r : R) (txt : Str) (m n : ℕ) (hx : x.useCache = true) (hr : Wanted M d x = .ok r)
    (hd : M.dumps r = .ok txt) (hm : m < txt.length) :
    let s := run M d (.killed m x :: List.replicate n (.call x))
    (get M none s x).2 = .error .JSONDecodeError ∧
    (get M none (get M none s { x with useCache := false }).1 x).2 = .ok r := by
  unfold Wanted at hr
  cases hg : range M d x.tmin x.tmax with
  | error e => rw [hg] at hr; simp at hr
  | ok p =>
    obtain ⟨a, b⟩ := p
    rw [hg] at hr
    dsimp only at hr
    intro s
    have h0 : stepEv M ⟨d, fun _ => none⟩ (.killed m x) =
        St.write ⟨d, fun _ => none⟩ (fileName M a b x.customize) (txt.take m) := by
      simp only [stepEv, get, hg, hx, if_true, store, hr, hd]
    have hget : get M none (St.write ⟨d, fun _ => none⟩ (fileName M a b x.customize) (txt.take m)) x =
        (St.write ⟨d, fun _ => none⟩ (fileName M a b x.customize) (txt.take m), .error .JSONDecodeError) := by
      simp only [get, St.write, hg, hx, if_true, hpre r txt m hd hm]
    have hs : s = St.write ⟨d, fun _ => none⟩ (fileName M a b x.customize) (txt.take m) := by
      show run M d (.killed m x :: List.replicate n (.call x)) = _
      rw [run, List.foldl_cons, h0]
      induction n with
      | zero => rfl
      | succ n ih =>
        rw [List.replicate_succ, List.foldl_cons]
        have : stepEv M (St.write ⟨d, fun _ => none⟩ (fileName M a b x.customize) (txt.take m)) (.call x) =
            St.write ⟨d, fun _ => none⟩ (fileName M a b x.customize) (txt.take m) := by
          rw [stepEv, hget]
        rw [this]
        exact ih
    rw [hs]
    refine ⟨by rw [hget], ?_⟩
    have hx' : ({ { x with useCache := false } with useCache := true } : Args Q C) = x := by
      cases x; simp at hx; simp [hx]
    have := (C68_no_cache M hT (St.write ⟨d, fun _ => none⟩ (fileName M a b x.customize) (txt.take m))
      { x with useCache := false } r txt rfl (by simp only [Wanted, St.write, hg, hr]) hd).2
    rw [hx'] at this
    exact this

/-- The hypotheses of `C68_killed_violated` are met. -/
example : (get (exMaker exFmt) none (run (exMaker exFmt) [(0, 0), (1, 2)]
    (.killed 2 ⟨.none, .none, true, none⟩ :: List.replicate 7 (.call ⟨.none, .none, true, none⟩)))
      ⟨.none, .none, true, none⟩).2 = .error .JSONDecodeError := by
  have h1 : average [(0 : ℚ), 1] [0, 2] 0 (some 1) = some 1 := by decide +kernel
  have c1 := exCompute exFmt [(0, 0), (1, 2)] 0 1 1 h1
  have hr : range (exMaker exFmt) [(0, 0), (1, 2)] .none .none = .ok (0, 1) := rfl
  exact (C68_killed_violated (exMaker exFmt) (exMaker_texts _) (fun r txt m h hm => exLoads_prefix r txt h m hm)
    [(0, 0), (1, 2)] ⟨.none, .none, true, none⟩ 1 _ 2 7 rfl
    (by simp only [Wanted, hr, computeAll, c1]) rfl (by decide +kernel)).1

/-- **C68 (finding).** If `customize` puts an object in the result which json cannot write (an array), the call raises a
`TypeError` after it has written the beginning of the file: the following ones, which could tell why, raise a
`JSONDecodeError`. -/
theorem C68_not_serialisable_violated [Add Q] [Sub Q] (M : Maker D Q R C) (d : D) (x : Args Q C) (r : R) (part : Str)
    (hx : x.useCache = true) (hr : Wanted M d x = .ok r) (hd : M.dumps r = .error part) (hp : M.loads part = none) :
    (get M none ⟨d, fun _ => none⟩ x).2 = .error .TypeError ∧
    (get M none (run M d [.call x]) x).2 = .error .JSONDecodeError := by
  unfold Wanted at hr
  cases hg : range M d x.tmin x.tmax with
  | error e => rw [hg] at hr; simp at hr
  | ok p =>
    obtain ⟨a, b⟩ := p
    rw [hg] at hr
    dsimp only at hr
    have e : get M none ⟨d, fun _ => none⟩ x =
        (St.write ⟨d, fun _ => none⟩ (fileName M a b x.customize) part, .error .TypeError) := by
      simp only [get, hg, hx, if_true, store, hr, hd]
    refine ⟨by rw [e], ?_⟩
    simp only [run, List.foldl, stepEv, e]
    simp only [get, St.write, hg, hx, if_true, hp]

/-- The hypotheses of `C68_not_serialisable_violated` are met. -/
example : (get (fileMaker (K := ℚ) exFmt (fun _ => none) (fun _ => .error ['{']) (fun _ => none) exFmt) none
    ⟨[(0, 0), (1, 2)], fun _ => none⟩ ⟨.num 0, .num 1, true, none⟩).2 = .error .TypeError :=
  (C68_not_serialisable_violated _ _ _ 1 _ rfl (by
    have h1 : average [(0 : ℚ), 1] [0, 2] 0 (some 1) = some 1 := by decide +kernel
    simp only [Wanted, range, computeAll, fileMaker, List.map, h1]) rfl rfl).1

/-- **C68.** `get_dataframe_from_paths`: one row per path, in the order of the paths, each one being the mean values of the
path; if one raises, the function raises the exception of the first path which raises. -/
theorem C68_dataframe [Add Q] [Sub Q] (M : Maker D Q R C) (x : Args Q C) (ss : List (St D)) :
    (∀ rs, dataframe M x ss = .ok rs ↔ ss.map (fun s => (get M none s x).2) = rs.map Except.ok) ∧
    ∀ e, dataframe M x ss = .error e ↔
      ∃ (pre : List (St D)) (s : St D) (post : List (St D)), ss = pre ++ s :: post ∧
        (∀ t ∈ pre, ∃ r, (get M none t x).2 = .ok r) ∧ (get M none s x).2 = .error e := by
  induction ss with
  | nil =>
    refine ⟨fun rs => ?_, fun e => ?_⟩
    · simp only [dataframe, List.map_nil, Except.ok.injEq]
      constructor
      · rintro rfl; rfl
      · intro h; cases rs with
        | nil => rfl
        | cons r rs => simp at h
    · simp [dataframe]
  | cons s ss ih =>
    cases hg : (get M none s x).2 with
    | error e0 =>
      refine ⟨fun rs => ?_, fun e => ?_⟩
      · simp only [dataframe, hg, List.map_cons]
        constructor
        · intro h; simp at h
        · intro h
          cases rs with
          | nil => simp at h
          | cons r rs => simp at h
      · simp only [dataframe, hg]
        constructor
        · intro h
          exact ⟨[], s, ss, rfl, by simp, by rw [hg]; simpa using h⟩
        · rintro ⟨pre, s', post, h1, h2, h3⟩
          cases pre with
          | nil =>
            simp only [List.nil_append, List.cons.injEq] at h1
            rw [← h1.1, hg] at h3
            simpa using h3
          | cons t pre =>
            simp only [List.cons_append, List.cons.injEq] at h1
            obtain ⟨r, hr⟩ := h2 t (by simp)
            rw [← h1.1, hg] at hr
            simp at hr
    | ok r0 =>
      refine ⟨fun rs => ?_, fun e => ?_⟩
      · simp only [dataframe, hg, List.map_cons]
        cases hd : dataframe M x ss with
        | error e0 =>
          constructor
          · intro h; simp at h
          · intro h
            cases rs with
            | nil => simp at h
            | cons r rs =>
              simp only [List.map_cons, List.cons.injEq] at h
              have := (ih.1 rs).mpr h.2
              rw [hd] at this
              simp at this
        | ok rs0 =>
          have h0 := (ih.1 rs0).mp hd
          rw [h0]
          constructor
          · intro h
            simp only [Except.ok.injEq] at h
            rw [← h]; rfl
          · intro h
            cases rs with
            | nil => simp at h
            | cons r rs =>
              simp only [List.map_cons, List.cons.injEq, Except.ok.injEq] at h
              have h2 : rs0 = rs := List.map_injective_iff.mpr (fun a b hab => by simpa using hab) h.2
              rw [h.1, h2]
      · have key : dataframe M x (s :: ss) = .error e ↔ dataframe M x ss = .error e := by
          simp only [dataframe, hg]
          cases dataframe M x ss <;> simp
        rw [key, ih.2 e]
        constructor
        · rintro ⟨pre, s', post, h1, h2, h3⟩
          refine ⟨s :: pre, s', post, by rw [h1]; rfl, ?_, h3⟩
          intro t ht
          rcases List.mem_cons.mp ht with rfl | ht
          · exact ⟨r0, hg⟩
          · exact h2 t ht
        · rintro ⟨pre, s', post, h1, h2, h3⟩
          cases pre with
          | nil =>
            simp only [List.nil_append, List.cons.injEq] at h1
            rw [← h1.1, hg] at h3
            simp at h3
          | cons t pre =>
            simp only [List.cons_append, List.cons.injEq] at h1
            exact ⟨pre, s', post, h1.2, fun u hu => h2 u (by simp [hu]), h3⟩

/-- C68: the mean value over a range of times is the mean of the selected records: it is between their extrema, equal
to their common value if they are equal, and its deviations from the records cancel. It is `nan` only when there is no
record. -/
theorem C68_average {K : Type} [Field K] [LinearOrder K] [IsStrictOrderedRing K] (times vals : List K) (tmin : K)
    (tmax : Option K) :
    (average times vals tmin tmax = none ↔ records times vals tmin tmax = []) ∧
    ∀ m, average times vals tmin tmax = some m →
      ((records times vals tmin tmax).map (· - m)).sum = 0 ∧
      ∀ lo hi, (∀ v ∈ records times vals tmin tmax, lo ≤ v ∧ v ≤ hi) → lo ≤ m ∧ m ≤ hi := by
  have key : ∀ (l : List K) (c : K), (l.map (· - c)).sum = l.sum - l.length * c := by
    intro l c
    induction l with
    | nil => simp
    | cons a l ih => simp only [List.map_cons, List.sum_cons, List.length_cons, ih]; push_cast; ring
  have bnd : ∀ (l : List K) (lo hi : K), (∀ v ∈ l, lo ≤ v ∧ v ≤ hi) → l.length * lo ≤ l.sum ∧ l.sum ≤ l.length * hi := by
    intro l lo hi
    induction l with
    | nil => simp
    | cons a l ih =>
      intro h
      have h1 := ih fun v hv => h v (by simp [hv])
      have h2 := h a (by simp)
      simp only [List.sum_cons, List.length_cons]
      push_cast
      constructor <;> linarith [h1.1, h1.2, h2.1, h2.2]
  unfold average
  simp only
  generalize records times vals tmin tmax = l
  constructor
  · simp
  · intro m hm
    split_ifs at hm with h0
    have hl : (0 : K) < l.length := by exact_mod_cast Nat.pos_of_ne_zero h0
    simp only [Option.some.injEq] at hm
    subst hm
    refine ⟨?_, fun lo hi h => ?_⟩
    · rw [key, mul_div_cancel₀ _ hl.ne', sub_self]
    · have := bnd l lo hi h
      rw [le_div_iff₀ hl, div_le_iff₀ hl]
      constructor <;> linarith [this.1, this.2]

/-- One record is a range. -/
example : average [(0 : ℚ), 1, 2] [5, 7, 9] 1 (some 1) = some 7 := by decide +kernel

end Verif.MeanValues
