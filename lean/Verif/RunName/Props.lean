import Verif.RunName.Lemmas

/-! # C97: names of the runs -/

set_option linter.unusedSectionVars false

namespace Verif.RunName

open Verif.PhysFiles (Str digs fixed digitsVal isDig digs_isDig digs_ne_nil digitsVal_digs fixed_spec)
open Verif.StdOut (splitChar splitChar_nil splitChar_append)

/-! ### The numbers -/

/-- C97: the number written in a name for a float with `p` digits is the value of the parameter with an error of at most half of the last
digit (the zeros and the point which are removed do not change it). -/
theorem C97_number (T : Texts) (p : ℕ) (x : ℚ) :
    ∃ s q, format T (.fixed p) (.float x) = .ok s ∧ number (clean (.fixed p) s) = some q ∧ |q - x| ≤ 1 / 2 / 10 ^ p := by
  refine ⟨_, _, rfl, number_fixed p x, ?_⟩
  have h := roundEven_err (x := |x| * 10 ^ p) (by positivity)
  have h10 : (0 : ℚ) < 10 ^ p := by positivity
  have key : |((roundEven (|x| * 10 ^ p) : ℚ) / 10 ^ p - |x| : ℚ)| ≤ 1 / 2 / 10 ^ p := by
    rw [le_div_iff₀ h10]
    calc _ = |(((roundEven (|x| * 10 ^ p) : ℚ) / 10 ^ p - |x|) * 10 ^ p : ℚ)| := by rw [abs_mul, abs_of_pos h10]
      _ = |(roundEven (|x| * 10 ^ p) : ℚ) - |x| * 10 ^ p| := by congr 1; field_simp
      _ ≤ _ := h
  split_ifs with hx
  · rw [abs_of_neg hx] at key ⊢
    rw [← abs_neg]
    convert key using 2
    ring
  · rwa [abs_of_nonneg (not_lt.1 hx)] at key ⊢

/-- C97: an integer is written exactly. -/
theorem C97_integer (T : Texts) (z : ℤ) :
    ∃ s, format T (defaultFmt (.int z)) (.int z) = .ok s ∧ number (clean (defaultFmt (.int z)) s) = some (z : ℚ) := by
  refine ⟨intText z, rfl, ?_⟩
  have hp : '.' ∉ intText z := by
    rw [intText, List.mem_append]
    rintro (h | h)
    · split_ifs at h <;> simp at h
    · exact (not_mem_digits (digs_isDig _)).1 h
  have : clean .empty (intText z) = intText z := by
    simp only [clean]
    have h2 : ¬ ('e' ∉ intText z ∧ '.' ∈ intText z) := fun h => hp h.2
    rw [if_neg h2]
    exact if_neg fun h => hp (List.mem_of_getLast? h)
  change number (clean .empty (intText z)) = _
  rw [this, number_int]

/-! ### Two runs -/

theorem mapM_ok {α β : Type*} {f : α → Except String β} {l : List α} {r : List β} (h : l.mapM f = .ok r) :
    List.Forall₂ (fun a b => f a = .ok b) l r := by
  induction l generalizing r with
  | nil =>
    rw [List.mapM_nil] at h
    cases h
    exact .nil
  | cons a l ih =>
    rw [List.mapM_cons] at h
    cases ha : f a with
    | error e => rw [ha] at h; cases h
    | ok b =>
      rw [ha] at h
      cases hl : l.mapM f with
      | error e => rw [hl] at h; cases h
      | ok bs =>
        rw [hl] at h
        cases h
        exact .cons ha (ih hl)

theorem mapM_of {α β : Type*} {f : α → Except String β} {l : List α} {r : List β} (h : List.Forall₂ (fun a b => f a = .ok b) l r) :
    l.mapM f = .ok r := by
  induction h with
  | nil => rfl
  | cons hab _ ih =>
    rw [List.mapM_cons, hab]
    simp only [bind, Except.bind]
    rw [ih]
    rfl

theorem nameRun_ok {T : Texts} {m : Maker} {t s : Str} (h : nameRun T m t = .ok s) :
    ∃ l, listRepr T m = .ok l ∧ s = join '_' (l.map piece ++ [t]) := by
  simp only [nameRun] at h
  cases hl : listRepr T m with
  | error e => rw [hl] at h; cases h
  | ok l =>
    rw [hl] at h
    cases h
    exact ⟨l, rfl, rfl⟩

theorem clean_ne {p : ℕ} {x y : ℚ} (hxy : 1 / 10 ^ p < |x - y|) : clean (.fixed p) (fixedText p x) ≠ clean (.fixed p) (fixedText p y) := by
  intro h
  obtain ⟨s, q, hs, hq, hx⟩ := C97_number ⟨fun _ => [], fun _ => []⟩ p x
  obtain ⟨s', q', hs', hq', hy⟩ := C97_number ⟨fun _ => [], fun _ => []⟩ p y
  cases hs; cases hs'
  rw [h, hq'] at hq
  cases hq
  have : |x - y| ≤ 1 / 10 ^ p := by
    calc |x - y| = |(q - y) - (q - x)| := by congr 1; ring
      _ ≤ |q - y| + |q - x| := abs_sub _ _
      _ ≤ 1 / 2 / 10 ^ p + 1 / 2 / 10 ^ p := add_le_add hy hx
      _ = 1 / 10 ^ p := by ring
  linarith

/-- C97: two runs started at the same time which have the same parameters in their names, except for one written with `p` digits of which
the values differ by more than one unit of the last digit, have different names. -/
theorem C97_distinct (T : Texts) (m : Maker) (n : Str) (x y : ℚ) (p : ℕ) (t a b : Str) (hn : m.Shows n)
    (hp : (m.formats.lookup n).getD (.fixed 3) = .fixed p) (hxy : 1 / 10 ^ p < |x - y|)
    (ha : nameRun T (m.set n (.float x)) t = .ok a) (hb : nameRun T (m.set n (.float y)) t = .ok b) : a ≠ b := by
  obtain ⟨l, hl, rfl⟩ := nameRun_ok ha
  obtain ⟨l', hl', rfl⟩ := nameRun_ok hb
  have h1 := mapM_ok hl
  have h2 := mapM_ok hl'
  simp only [Maker.set] at h1 h2
  have item_n : ∀ z : ℚ, item T (m.set n (.float z)) (.param n) = .ok (n, some (clean (.fixed p) (fixedText p z))) := by
    intro z
    simp only [item, Maker.set, List.lookup_cons_self, defaultFmt, hp, format]
    rfl
  have item_o : ∀ k, k ≠ Key.param n → item T (m.set n (.float x)) k = item T (m.set n (.float y)) k := by
    intro k hk
    cases k with
    | word w => rfl
    | param n' =>
      have : ¬ n' = n := fun h => hk (by rw [h])
      have hb : (n' == n) = false := by simpa using this
      simp only [item, Maker.set, List.lookup_cons, hb]
  refine join_differ '_' (n := n) (t := clean (.fixed p) (fixedText p x)) (t' := clean (.fixed p) (fixedText p y)) ?_ (clean_ne hxy) ?_
  · have hgen : ∀ (o : List Key) (l l' : List (Str × Option Str)),
        List.Forall₂ (fun k r => item T (m.set n (.float x)) k = .ok r) o l →
        List.Forall₂ (fun k r => item T (m.set n (.float y)) k = .ok r) o l' →
        List.Forall₂ (fun a b : Str => a = b ∨ (a = n ++ clean (.fixed p) (fixedText p x) ∧ b = n ++ clean (.fixed p) (fixedText p y)))
          (l.map piece ++ [t]) (l'.map piece ++ [t]) := by
      intro o
      induction o with
      | nil =>
        intro l l' h h'
        cases h; cases h'
        exact .cons (Or.inl rfl) .nil
      | cons k o ih =>
        intro l l' h h'
        cases h with
        | cons hk h =>
          cases h' with
          | cons hk' h' =>
            refine .cons ?_ (ih _ _ h h')
            by_cases e : k = .param n
            · subst e
              rw [item_n] at hk hk'
              cases hk; cases hk'
              exact Or.inr ⟨rfl, rfl⟩
            · rw [item_o k e, hk'] at hk
              cases hk
              exact Or.inl rfl
    exact hgen _ _ _ h1 h2
  · obtain ⟨i, hi, hin⟩ := List.mem_iff_getElem.1 hn
    have L1 : i < l.length := by rw [← h1.length_eq]; exact hi
    have L2 : i < l'.length := by rw [← h2.length_eq]; exact hi
    have e1 := (List.forall₂_iff_get.1 h1).2 i hi L1
    have e2 := (List.forall₂_iff_get.1 h2).2 i hi L2
    simp only [List.get_eq_getElem, hin] at e1 e2
    have f1 := e1.symm.trans (item_n x)
    have f2 := e2.symm.trans (item_n y)
    refine ⟨i, ?_, ?_⟩
    · rw [List.getElem?_append_left (by simpa using L1), List.getElem?_map, List.getElem?_eq_getElem L1, Except.ok.inj f1]
      rfl
    · rw [List.getElem?_append_left (by simpa using L2), List.getElem?_map, List.getElem?_eq_getElem L2, Except.ok.inj f2]
      rfl

/-- C97 for ns3d.strat: two runs with Brunt-Väisälä frequencies which differ by more than 0.001 have different names. -/
theorem C97_ns3d_strat (T : Texts) (solver typeRun oper t a b : Str) (x y : ℚ) (hxy : 1 / 1000 < |x - y|)
    (ha : nameRun T (simMaker solver typeRun oper (ns3dStrat (.float x)) id) t = .ok a)
    (hb : nameRun T (simMaker solver typeRun oper (ns3dStrat (.float y)) id) t = .ok b) : a ≠ b := by
  let m : Maker := { simMaker solver typeRun oper (ns3dStrat (.float 0)) id with parameters := [] }
  have hform : ∀ z, simMaker solver typeRun oper (ns3dStrat (.float z)) id = m.set "N".toList (.float z) := by
    intro z
    have hw : ∀ (m : Maker) w, (m.addWord w).parameters = m.parameters := by
      intro m w; simp only [Maker.addWord]; split <;> rfl
    simp only [simMaker, id, ns3dStrat, Maker.addParameters, Maker.set, m, hw, List.reverse_cons, List.reverse_nil, List.nil_append,
      List.singleton_append, List.append_nil]
    rfl
  rw [hform] at ha hb
  refine C97_distinct T m "N".toList x y 3 t a b ?_ ?_ (by norm_num at hxy ⊢; exact hxy) ha hb
  · simp [m, Maker.Shows, simMaker, ns3dStrat, Maker.addParameters]
  · have hw : ∀ (m : Maker) w, (m.addWord w).formats = m.formats := by
      intro m w; simp only [Maker.addWord]; split <;> rfl
    simp [m, simMaker, ns3dStrat, Maker.addParameters, hw]

/-- C97 fails for small values (finding): with the default format `.3f` all the values below 0.0005 are written 0, so that the
names of the runs do not tell them apart. -/
theorem C97_hidden_violated (T : Texts) (solver typeRun oper t : Str) :
    nameRun T (simMaker solver typeRun oper (ns3dStrat (.float (1 / 10000))) id) t
      = nameRun T (simMaker solver typeRun oper (ns3dStrat (.float 0)) id) t := by
  have hz : clean (.fixed 3) (fixedText 3 (1 / 10000)) = clean (.fixed 3) (fixedText 3 0) := by decide +kernel
  have : ∀ k, item T (simMaker solver typeRun oper (ns3dStrat (.float (1 / 10000))) id) k
      = item T (simMaker solver typeRun oper (ns3dStrat (.float 0)) id) k := by
    intro k
    cases k with
    | word w => rfl
    | param n =>
      have hw : ∀ (m : Maker) w, (m.addWord w).formats = m.formats := by
        intro m w; simp only [Maker.addWord]; split <;> rfl
      have hw' : ∀ (m : Maker) w, (m.addWord w).parameters = m.parameters := by
        intro m w; simp only [Maker.addWord]; split <;> rfl
      simp only [item, simMaker, id, ns3dStrat, Maker.addParameters, hw, hw', List.reverse_cons, List.reverse_nil, List.nil_append,
        List.append_nil, List.lookup_cons, List.lookup_nil]
      cases (n == "N".toList)
      · rfl
      · simp only [Option.getD_none, defaultFmt, format, Except.map, hz]
  simp only [nameRun, listRepr]
  congr 1
  exact congrArg₂ (fun f l => List.mapM f l) (funext this) rfl

/-! ### The name of a simulation which is loaded -/

theorem timeFromName_append (x t : Str) (h : IsTime t) : timeFromName (x ++ '_' :: t) = t := by
  obtain ⟨d, hh, rfl, h1, h2⟩ := h
  have : splitChar '_' (x ++ '_' :: (d ++ '_' :: hh)) = splitChar '_' x ++ [d, hh] := by
    rw [splitChar_append, splitChar_append, splitChar_nil _ _ h1, splitChar_nil _ _ h2]
    rfl
  simp only [timeFromName, this, List.length_append, List.length_cons, List.length_nil]
  rw [show (splitChar '_' x).length + (0 + 1 + 1) - 2 = (splitChar '_' x).length by omega, List.drop_left]
  rfl

theorem nameRun_end {T : Texts} {m : Maker} {t s : Str} (h : nameRun T m t = .ok s) (hm : m.ordered ≠ []) : ∃ x, s = x ++ '_' :: t := by
  obtain ⟨l, hl, rfl⟩ := nameRun_ok h
  have hlen := (mapM_ok hl).length_eq
  refine ⟨_, join_concat _ _ _ ?_⟩
  intro h0
  have : l.length = 0 := by simpa using h0
  exact hm (List.length_eq_zero_iff.1 (by omega))

/-- C97: a simulation which is loaded from the directory of a run has the name of this run: the date is taken from the name of the directory
(given as a path or as a text). -/
theorem C97_loaded (T : Texts) (m : Maker) (t s parent : Str) (isPath : Bool) (ht : IsTime t) (hm : m.ordered ≠ []) (hs : '/' ∉ s)
    (h : nameRun T m t = .ok s) : nameRun T m (timeFromPath isPath (parent ++ '/' :: s)) = .ok s := by
  obtain ⟨x, rfl⟩ := nameRun_end h hm
  have : timeFromPath isPath (parent ++ '/' :: (x ++ '_' :: t)) = t := by
    cases isPath
    · simp only [timeFromPath, Bool.false_eq_true, if_false]
      rw [show parent ++ '/' :: (x ++ '_' :: t) = (parent ++ '/' :: x) ++ '_' :: t by simp]
      exact timeFromName_append _ _ ht
    · have hb : baseName (parent ++ '/' :: (x ++ '_' :: t)) = x ++ '_' :: t := by
        set z := x ++ '_' :: t
        simp only [baseName, List.reverse_append, List.reverse_cons, List.append_assoc, List.singleton_append]
        rw [List.takeWhile_append_of_pos]
        · simp
        · intro c hc
          have : c ≠ '/' := fun e => hs (by rw [← e]; exact List.mem_reverse.1 hc)
          simpa using this
      simp only [timeFromPath, if_true, hb]
      exact timeFromName_append _ _ ht
  rw [this]
  exact h

/-- C97 fails for a directory which was moved at the end of the run under a name which was already used (finding): the directory is
`name_1` (C21), the date of the loaded simulation is then `hour_1` without the day, and its name is never the one of the directory nor the
one of the run. -/
theorem C97_suffix_violated (T : Texts) (m : Maker) (day hour s s' : Str) (h1 : '_' ∉ day) (h2 : '_' ∉ hour) (hm : m.ordered ≠ [])
    (hlen : 2 < day.length) (h : nameRun T m (day ++ '_' :: hour) = .ok s) (h' : nameRun T m (timeFromName (s ++ "_1".toList)) = .ok s') :
    s' ≠ s ∧ s' ≠ s ++ "_1".toList := by
  obtain ⟨l, hl, rfl⟩ := nameRun_ok h
  have ht : timeFromName (join '_' (l.map piece ++ [day ++ '_' :: hour]) ++ "_1".toList) = hour ++ "_1".toList := by
    obtain ⟨x, hx⟩ := nameRun_end h hm
    rw [hx, show x ++ '_' :: (day ++ '_' :: hour) ++ "_1".toList = (x ++ '_' :: day) ++ '_' :: (hour ++ "_1".toList) by simp]
    exact timeFromName_append _ _ ⟨hour, ['1'], rfl, h2, by decide⟩
  rw [ht] at h'
  obtain ⟨l', hl', rfl⟩ := nameRun_ok h'
  rw [hl] at hl'
  cases hl'
  have hlm : l.map piece ≠ [] := by
    intro h0
    have : l.length = 0 := by simpa using h0
    exact hm (List.length_eq_zero_iff.1 (by rw [(mapM_ok hl).length_eq]; exact this))
  rw [join_concat _ _ _ hlm, join_concat _ _ _ hlm]
  constructor <;> intro e <;> have := congrArg List.length e <;> simp at this <;> omega

/-- C97 fails for a directory which was renamed without underscores and is given as a text (finding): the "date" is the end of the path, with
its slashes, and it is put in the name of the simulation. -/
theorem C97_renamed_violated :
    timeFromPath false "/data/user_a/mine".toList = "/data/user_a/mine".toList ∧ timeFromPath true "/data/user_a/mine".toList = "mine".toList := by
  decide +kernel

/-! ### The words -/

/-- C97: the name of a run begins with the short name of the solver, when no parameter is put at the index 0. -/
theorem C97_solver_first (T : Texts) (solver typeRun oper t s : Str) (hsol : solver ≠ [])
    (args : List (List (Str × Value) × List (Str × Fmt) × List (Str × ℕ))) (hargs : ∀ a ∈ args, ∀ i ∈ a.2.2, 0 < i.2)
    (h : nameRun T (simMaker solver typeRun oper id fun m => args.foldl (fun m a => m.addParameters a.1 a.2.1 a.2.2) m) t = .ok s) :
    ∃ r, s = solver ++ '_' :: r := by
  have head_ins : ∀ (i : ℕ) (x : Key) (o : List Key), 0 < i → o.head? = some (.word solver) → (insertAt i x o).head? = some (.word solver) := by
    intro i x o hi ho
    cases o with
    | nil => simp at ho
    | cons a o =>
      obtain ⟨j, rfl⟩ := Nat.exists_eq_succ_of_ne_zero hi.ne'
      simpa [insertAt] using ho
  have step : ∀ (m : Maker) ps fs (is : List (Str × ℕ)), (∀ i ∈ is, 0 < i.2) → m.ordered.head? = some (.word solver) →
      (m.addParameters ps fs is).ordered.head? = some (.word solver) := by
    intro m ps fs is hi hm
    simp only [Maker.addParameters]
    generalize m.ordered = o at hm
    induction ps generalizing o with
    | nil => exact hm
    | cons p ps ih =>
      rw [List.foldl_cons]
      refine ih _ ?_
      split
      · rename_i i hlk
        refine head_ins _ _ _ ?_ hm
        have : (p.1, i) ∈ is := by
          clear ih
          induction is with
          | nil => simp at hlk
          | cons a is ihs =>
            rw [List.lookup_cons] at hlk
            split at hlk
            · rename_i hb
              rw [beq_iff_eq] at hb
              cases hlk
              rw [hb]; simp
            · exact List.mem_cons_of_mem _ (ihs (fun i h => hi i (List.mem_cons_of_mem _ h)) hlk)
        exact hi _ this
      · cases o with
        | nil => simp at hm
        | cons a o => simpa using hm
  have hw : ∀ (m : Maker) w, m.ordered.head? = some (.word solver) → (m.addWord w).ordered.head? = some (.word solver) := by
    intro m w hm
    simp only [Maker.addWord]
    split
    · exact hm
    · cases ho : m.ordered with
      | nil => rw [ho] at hm; simp at hm
      | cons a o => rw [ho] at hm; simpa using hm
  have hall : ∀ (args : List (List (Str × Value) × List (Str × Fmt) × List (Str × ℕ))), (∀ a ∈ args, ∀ i ∈ a.2.2, 0 < i.2) →
      ∀ (m : Maker), m.ordered.head? = some (.word solver) → (args.foldl (fun m a => m.addParameters a.1 a.2.1 a.2.2) m).ordered.head? = some (.word solver) := by
    intro args
    induction args with
    | nil => exact fun _ m hm => hm
    | cons a args ih =>
      intro hargs m hm
      rw [List.foldl_cons]
      exact ih (fun b hb => hargs b (List.mem_cons_of_mem _ hb)) _ (step _ _ _ _ (hargs a (by simp)) hm)
  obtain ⟨l, hl, rfl⟩ := nameRun_ok h
  have hord := hall args hargs ((((({} : Maker).addWord solver).addWord typeRun).addWord oper)) (hw _ _ (hw _ _ (by simp [Maker.addWord, hsol])))
  have hf := mapM_ok hl
  simp only [simMaker, id] at hf
  generalize (args.foldl (fun m a => m.addParameters a.1 a.2.1 a.2.2) (((({} : Maker).addWord solver).addWord typeRun).addWord oper)) = mk at hf hord
  cases ho : mk.ordered with
  | nil => rw [ho] at hord; simp at hord
  | cons k o =>
    rw [ho] at hord hf
    simp only [List.head?_cons, Option.some.injEq] at hord
    subst hord
    cases hf with
    | cons h1 h2 =>
      cases h1
      rw [List.map_cons, List.cons_append, join_cons _ _ _ (by simp)]
      exact ⟨_, by rw [piece, Option.getD_none, List.append_nil]⟩

theorem mem_rstrip0_of {c : Char} (hc : c ≠ '0') {s : Str} (h : c ∈ s) : c ∈ rstrip0 s := by
  obtain ⟨k, hk⟩ := rstrip0_zeros s
  rw [hk, List.mem_append] at h
  rcases h with h | h
  · exact h
  · exact absurd (List.eq_of_mem_replicate h) hc

theorem mem_replaceE {c : Char} (hc : c ≠ '+') : ∀ {s : Str}, c ∈ s → c ∈ replaceE s
  | [], h => by simp at h
  | a :: s, h => by
    rw [replaceE.eq_def]
    split
    · rename_i s' heq
      obtain ⟨rfl, rfl⟩ := List.cons.inj heq
      simp only [List.mem_cons] at h ⊢
      rcases h with h | h | h
      · exact Or.inl h
      · exact absurd h hc
      · exact Or.inr (mem_replaceE hc h)
    · rename_i c' s' _ heq
      obtain ⟨rfl, rfl⟩ := List.cons.inj heq
      simp only [List.mem_cons] at h ⊢
      exact h.imp id (mem_replaceE hc)
    · rename_i heq; cases heq

theorem mem_clean {c : Char} (h0 : c ≠ '0') (h1 : c ≠ '.') (h2 : c ≠ '+') (f : Fmt) {s : Str} (h : c ∈ s) : c ∈ clean f s := by
  have last : ∀ w : Str, c ∈ w → c ∈ (if w.getLast? = some '.' then w.dropLast else w) := by
    intro w hB
    split_ifs with hl
    · obtain ⟨r, hr⟩ : ∃ r, w = r ++ ['.'] := by
        rcases List.eq_nil_or_concat w with h | ⟨r, y, h⟩
        · rw [h] at hl; simp at hl
        · rw [h] at hl
          simp only [List.concat_eq_append, List.getLast?_append, List.getLast?_singleton, Option.some_or, Option.some.injEq] at hl
          exact ⟨r, by rw [h, hl]; simp⟩
      rw [hr] at hB ⊢
      simp only [List.mem_append, List.mem_singleton] at hB
      rw [List.dropLast_concat]
      exact hB.resolve_right h1
    · exact hB
  have strip : ∀ u : Str, c ∈ u → c ∈ (if 'e' ∉ u ∧ '.' ∈ u then rstrip0 u else u) := by
    intro u hA
    split_ifs
    · exact mem_rstrip0_of h0 hA
    · exact hA
  cases f
  · exact last _ (strip _ h)
  · exact last _ (strip _ (mem_replaceE h2 h))
  · exact last _ (strip _ h)

theorem mem_join {c d : Char} : ∀ {l : List Str} {s : Str}, s ∈ l → c ∈ s → c ∈ join d l
  | [t], s, hs, hc => by
    rw [List.mem_singleton] at hs
    rwa [join, ← hs]
  | t :: u :: l, s, hs, hc => by
    rw [join, List.mem_append, List.mem_cons]
    rcases List.mem_cons.1 hs with rfl | hs
    · exact Or.inl hc
    · exact Or.inr (Or.inr (mem_join hs hc))

/-- C97 fails for the forced runs of plate2d (finding): the format `5.0g` fills with spaces on the left a rate written with less than five
characters, so that the name of the directory contains spaces. -/
theorem C97_spaces_violated (T : Texts) (solver typeRun oper t s : Str) (v : Value) (hv : ∀ s, v ≠ .str s) (hT : (T.general v).length < 5)
    (h : nameRun T (simMaker solver typeRun oper id (plate2d v)) t = .ok s) : ' ' ∈ s := by
  obtain ⟨l, hl, rfl⟩ := nameRun_ok h
  have hf := mapM_ok hl
  have hin : Key.param "P".toList ∈ (simMaker solver typeRun oper id (plate2d v)).ordered := by
    simp [simMaker, plate2d, Maker.addParameters, insertAt]
  obtain ⟨i, hi, hi'⟩ := List.mem_iff_getElem.1 hin
  have L1 : i < l.length := by rw [← hf.length_eq]; exact hi
  have e1 := (List.forall₂_iff_get.1 hf).2 i hi L1
  simp only [List.get_eq_getElem, hi'] at e1
  have hform : item T (simMaker solver typeRun oper id (plate2d v)) (.param "P".toList)
      = .ok ("P".toList, some (clean (.general 5) (List.replicate (5 - (T.general v).length) ' ' ++ T.general v))) := by
    simp only [item, simMaker, plate2d, Maker.addParameters, List.reverse_cons, List.reverse_nil, List.nil_append, List.singleton_append,
      List.lookup_cons_self, Option.getD_some]
    cases v with
    | str s => exact absurd rfl (hv s)
    | float x => rfl
    | int z => rfl
  rw [hform] at e1
  refine mem_join (s := piece l[i]) (List.mem_append_left _ (List.mem_map_of_mem (List.getElem_mem L1))) ?_
  rw [← Except.ok.inj e1, piece, Option.getD_some]
  refine List.mem_append_right _ (mem_clean (c := ' ') (by decide) (by decide) (by decide) _ (List.mem_append_left _ ?_))
  exact List.mem_replicate.2 ⟨by omega, rfl⟩

/-! ### The operators -/

theorem notin_join {c d : Char} (hcd : c ≠ d) : ∀ {l : List Str}, (∀ s ∈ l, c ∉ s) → c ∉ join d l
  | [], _ => by simp [join]
  | [s], h => by simpa [join] using h s (by simp)
  | s :: t :: l, h => by
    rw [join, List.mem_append, List.mem_cons]
    rintro (h1 | h1 | h1)
    · exact h s (by simp) h1
    · exact hcd h1
    · exact notin_join hcd (fun u hu => h u (List.mem_cons_of_mem _ hu)) h1

theorem notin_shape (shape : List ℕ) : '_' ∉ shapeText shape :=
  notin_join (by decide) fun s hs => by
    obtain ⟨n, -, rfl⟩ := List.mem_map.1 hs
    exact (not_mem_digits (digs_isDig n)).2.2.2

/-- C97: a simulation loaded for the plots, which has operators with few points, has the word of the operators of the run. The text of the
operators is "shape_volume" (fluidfft and the operators in one dimension). -/
theorem C97_coarse (coarse shape : List ℕ) (volume : Str) (hs : shape ≠ []) (hv : '_' ∉ volume) :
    operWord true (shapeText coarse ++ '_' :: volume) shape = operWord false (shapeText shape ++ '_' :: volume) shape := by
  simp only [operWord, Bool.false_eq_true, and_false, if_false]
  rw [if_pos ⟨hs, trivial⟩, splitChar_append, splitChar_nil _ _ (notin_shape coarse), splitChar_nil _ _ hv]
  rfl

/-- C97_coarse for the operators in one dimension. -/
theorem C97_coarse_1d (nc nx : ℕ) (pis : Option ℕ) (L : ℚ) : operWord true (repr1d nc pis L) [nx] = operWord false (repr1d nx pis L) [nx] := by
  have hv : '_' ∉ 'S' :: lengthText pis L := by
    rw [List.mem_cons]
    rintro (h | h)
    · exact absurd h (by decide)
    · cases pis with
      | some n =>
        simp only [lengthText, List.mem_append] at h
        rcases h with h | h
        · exact (not_mem_digits (digs_isDig n)).2.2.2 h
        · revert h; decide
      | none =>
        have := mem_rstrip0 h
        simp only [fixedText, List.mem_append] at this
        rcases this with (h | h) | h
        · split_ifs at h <;> simp at h
        · exact (not_mem_digits (digs_isDig _)).2.2.2 h
        · simp only [OfNat.ofNat_ne_zero, if_false, List.mem_cons] at h
          rcases h with h | h
          · exact absurd h (by decide)
          · exact (not_mem_digits (fixed_spec _ _).1).2.2.2 h
  have := C97_coarse [nc] [nx] ('S' :: lengthText pis L) (by simp) hv
  simpa [shapeText, join, repr1d] using this

/-- C97 fails for the finite differences in two dimensions (finding): their text begins with the lengths, so that the lengths, and not the
number of points, are replaced in the name of a loaded simulation. -/
theorem C97_fd2d_violated :
    operWord true (reprFd2d 4 4 none none 8 8) [48, 48] = .ok "48x48_4x4".toList ∧
      operWord false (reprFd2d 48 48 none none 8 8) [48, 48] = .ok "L=8.x8._48x48".toList := by
  decide +kernel

/-! ### The hypotheses are met -/

/-- Texts for the examples. -/
def exTexts : Texts := ⟨fun _ => ['1'], fun _ => ['1']⟩

/-- The name of a run of ns3d.strat with a forcing of Milestone. -/
example : nameRun exTexts (simMaker "ns3d.strat".toList "test".toList "48x48x12_S3x3x1".toList (ns3dStrat (.float (1 / 2)))
      (milestone (.float 1) (.float (1 / 50)) (.float (1 / 4)))) "2026-11-17_20-32-37".toList
    = .ok "ns3d.strat_test_48x48x12_S3x3x1_N0.5_Lf1_U0.02_D0.25_2026-11-17_20-32-37".toList := by
  decide +kernel

/-- The name of a run of plate2d. -/
example : nameRun exTexts (simMaker "plate2d".toList [] "48x48_S1x1".toList id (plate2d (.float 1))) "2026-11-17_20-32-37".toList
    = .ok "plate2d_48x48_S1x1_P    1_2026-11-17_20-32-37".toList := by
  decide +kernel

example : IsTime "2026-11-17_20-32-37".toList := ⟨"2026-11-17".toList, "20-32-37".toList, rfl, by decide, by decide⟩

end Verif.RunName
