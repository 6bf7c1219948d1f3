import Verif.Extend.Model
import Mathlib.Tactic.SplitIfs

/-! # C47: extending a class -/

namespace Verif.Extend

set_option linter.unusedSectionVars false

variable {ε : Type}

/-- Well-formed worlds: the classes of a `__mro__` exist, the dictionaries only contain allocated lists, each list
is in the dictionary of at most one class. -/
structure World.WF (w : World ε) : Prop where
  mro_lt : ∀ c < w.n, ∀ d ∈ w.mro c, d < w.n
  attr_lt : ∀ c a, w.attr c = some a → a < w.next
  attr_none : ∀ c, w.n ≤ c → w.attr c = none

/-- The initial world of a program: the classes of the solvers, never extended. -/
def World.solvers (n : ℕ) (mro : ℕ → List ℕ) : World ε := ⟨n, mro, fun _ => none, 0, fun _ => []⟩

theorem solvers_wf {n : ℕ} {mro : ℕ → List ℕ} (h : ∀ c < n, ∀ d ∈ mro c, d < n) :
    (World.solvers n mro : World ε).WF := ⟨h, by simp [World.solvers], by simp [World.solvers]⟩

/-- The extenders of a class (`none`: the class was never extended). -/
def World.extenders (w : World ε) (c : ℕ) : Option (List ε) := (w.getattr c).map w.lists

/-! ### Lemmas -/

theorem getattr_lt {w : World ε} (h : w.WF) {c a : ℕ} (hc : w.getattr c = some a) : a < w.next := by
  obtain ⟨d, _, hd⟩ := List.exists_of_findSome?_eq_some hc
  exact h.attr_lt d a hd

theorem findSome_congr {f g : ℕ → Option ℕ} {l : List ℕ} (h : ∀ x ∈ l, f x = g x) :
    l.findSome? f = l.findSome? g := by
  induction l with
  | nil => rfl
  | cons a l ih =>
      simp only [List.findSome?_cons, h a (List.mem_cons_self ..),
        ih fun x hx => h x (List.mem_cons_of_mem _ hx)]

theorem append_eq (w : World ε) (c : ℕ) (e : ε) :
    (w.append c e).n = w.n ∧ (w.append c e).mro = w.mro ∧ (w.append c e).attr = w.attr ∧
      (w.append c e).next = w.next ∧ (w.append c e).lists = match w.getattr c with
        | some a => Function.update w.lists a (w.lists a ++ [e])
        | none => w.lists := by
  unfold World.append
  cases w.getattr c <;> simp

theorem foldl_append (es : List ε) (w : World ε) (c : ℕ) :
    let w' := es.foldl (fun w e => w.append c e) w
    w'.n = w.n ∧ w'.mro = w.mro ∧ w'.attr = w.attr ∧ w'.next = w.next ∧
      (∀ a, w.getattr c = some a → w'.lists = Function.update w.lists a (w.lists a ++ es)) := by
  induction es generalizing w with
  | nil => refine ⟨rfl, rfl, rfl, rfl, ?_⟩; intro a _; simp
  | cons e es ih =>
      obtain ⟨h1, h2, h3, h4, h5⟩ := append_eq w c e
      obtain ⟨i1, i2, i3, i4, i5⟩ := ih (w.append c e)
      refine ⟨i1.trans h1, i2.trans h2, i3.trans h3, i4.trans h4, ?_⟩
      intro a ha
      have hg : (w.append c e).getattr c = some a := by
        rw [World.getattr, h2, h3]; exact ha
      rw [ha] at h5
      simp only at h5
      have := i5 a hg
      simp only [List.foldl_cons]
      rw [this, h5]
      simp [List.append_assoc]

/-- The world after the creation of the class and of the list. -/
theorem extend_spec {w : World ε} (h : w.WF) {c : ℕ} (hc : c < w.n) (es : List ε) :
    ∃ w', w.extend c es = some (w', w.n) ∧ w'.WF ∧ w'.n = w.n + 1 ∧
      (∀ d < w.n, w'.getattr d = w.getattr d) ∧
      w'.getattr w.n = some ((w.getattr c).getD w.next) ∧
      (∀ a, w'.lists a = if a = (w.getattr c).getD w.next then
        (match w.getattr c with
          | some a => w.lists a
          | none => []) ++ es else w.lists a) := by
  have hmro : (w.subclass c).mro w.n = w.n :: w.mro c := by simp [World.subclass]
  have hnone : w.attr w.n = none := h.attr_none _ (Nat.le_refl _)
  have hg1 : (w.subclass c).getattr w.n = w.getattr c := by
    rw [World.getattr, hmro, List.findSome?_cons]
    simp only [World.subclass, hnone]
    rfl
  have hold : ∀ d < w.n, ∀ x ∈ (w.subclass c).mro d, x < w.n := by
    intro d hd x hx
    simp only [World.subclass, Function.update_of_ne (Nat.ne_of_lt hd)] at hx
    exact h.mro_lt d hd x hx
  have hext : w.extend c es = some (es.foldl (fun w' e => w'.append w.n e)
      (if ((w.subclass c).getattr w.n).isNone then (w.subclass c).alloc w.n else w.subclass c), w.n) := by
    simp [World.extend, Nat.not_le.mpr hc]
  cases hga : w.getattr c with
  | some a =>
      have ha := getattr_lt h hga
      rw [hg1, hga] at hext
      simp only [Option.isNone_some, Bool.false_eq_true, if_false] at hext
      obtain ⟨f1, f2, f3, f4, f5⟩ := foldl_append es (w.subclass c) w.n
      refine ⟨_, hext, ⟨?_, ?_, ?_⟩, f1, ?_, ?_, ?_⟩
      · intro d hd x hx
        rw [f1] at hd ⊢
        rw [f2] at hx
        rcases Nat.lt_succ_iff_lt_or_eq.mp hd with hd | rfl
        · exact Nat.lt_succ_of_lt (hold d hd x hx)
        · rw [hmro] at hx
          rcases List.mem_cons.mp hx with rfl | hx
          · exact Nat.lt_succ_self _
          · exact Nat.lt_succ_of_lt (h.mro_lt c hc x hx)
      · intro d a hd
        rw [f3] at hd
        rw [f4]
        exact h.attr_lt d a hd
      · intro d hd
        rw [f1] at hd
        rw [f3]
        exact h.attr_none d (Nat.le_of_succ_le hd)
      · intro d hd
        rw [World.getattr, World.getattr, f2, f3]
        simp only [World.subclass, Function.update_of_ne (Nat.ne_of_lt hd)]
      · rw [World.getattr, f2, f3]
        exact hg1.trans hga
      · intro b
        rw [f5 a (hg1.trans hga)]
        simp only [Option.getD_some]
        by_cases hb : b = a
        · subst hb; simp [World.subclass]
        · simp [hb, World.subclass]
  | none =>
      rw [hg1, hga] at hext
      simp only [Option.isNone_none, if_true] at hext
      obtain ⟨f1, f2, f3, f4, f5⟩ := foldl_append es ((w.subclass c).alloc w.n) w.n
      have hg2 : ((w.subclass c).alloc w.n).getattr w.n = some w.next := by
        rw [World.getattr]
        show ((w.subclass c).mro w.n).findSome? _ = _
        rw [hmro, List.findSome?_cons]
        simp [World.alloc, World.subclass]
      refine ⟨_, hext, ⟨?_, ?_, ?_⟩, f1, ?_, ?_, ?_⟩
      · intro d hd x hx
        rw [f1] at hd ⊢
        rw [f2] at hx
        replace hd : d < w.n + 1 := hd
        replace hx : x ∈ (w.subclass c).mro d := hx
        show x < w.n + 1
        rcases Nat.lt_succ_iff_lt_or_eq.mp hd with hd | rfl
        · exact Nat.lt_succ_of_lt (hold d hd x hx)
        · rw [hmro] at hx
          rcases List.mem_cons.mp hx with rfl | hx
          · exact Nat.lt_succ_self _
          · exact Nat.lt_succ_of_lt (h.mro_lt c hc x hx)
      · intro d a hd
        rw [f3] at hd
        rw [f4]
        show a < w.next + 1
        by_cases hdn : d = w.n
        · subst hdn
          simp [World.alloc, World.subclass] at hd
          omega
        · simp [World.alloc, World.subclass, hdn] at hd
          exact Nat.lt_succ_of_lt (h.attr_lt d a hd)
      · intro d hd
        rw [f1] at hd
        replace hd : w.n + 1 ≤ d := hd
        rw [f3]
        have hdn : d ≠ w.n := by omega
        simp only [World.alloc, World.subclass, Function.update_of_ne hdn]
        exact h.attr_none d (by omega)
      · intro d hd
        rw [World.getattr, World.getattr, f2, f3]
        have e1 : ((w.subclass c).alloc w.n).mro d = w.mro d := by
          simp [World.alloc, World.subclass, Function.update_of_ne (Nat.ne_of_lt hd)]
        rw [e1]
        refine findSome_congr fun x hx => ?_
        have hx' : x ≠ w.n := Nat.ne_of_lt (h.mro_lt d hd x hx)
        simp [World.alloc, World.subclass, hx']
      · rw [World.getattr, f2, f3]
        exact hg2
      · intro b
        rw [f5 w.next hg2]
        simp only [Option.getD_none]
        by_cases hb : b = w.next
        · subst hb; simp [World.alloc, World.subclass]
        · simp [hb, World.alloc, World.subclass]

theorem extenders_eq {w : World ε} (c : ℕ) : w.extenders c = match w.getattr c with
    | some a => some (w.lists a)
    | none => none := by
  unfold World.extenders
  cases w.getattr c <;> rfl

/-- The effect of one extension on all the classes. -/
theorem extend_extenders {w : World ε} (h : w.WF) {c : ℕ} (hc : c < w.n) (es : List ε) :
    ∃ w', w.extend c es = some (w', w.n) ∧ w'.WF ∧ w'.n = w.n + 1 ∧
      w'.extenders w.n = some ((w.extenders c).getD [] ++ es) ∧
      ∀ d < w.n, w'.extenders d = if w.getattr d = w.getattr c then (w.extenders c).map (· ++ es)
        else w.extenders d := by
  obtain ⟨w', e1, e2, e3, e4, e5, e6⟩ := extend_spec h hc es
  refine ⟨w', e1, e2, e3, ?_, ?_⟩
  · rw [World.extenders, e5, Option.map_some, e6, if_pos rfl, extenders_eq]
    cases w.getattr c <;> rfl
  · intro d hd
    rw [World.extenders, e4 d hd]
    by_cases hdc : w.getattr d = w.getattr c
    · rw [if_pos hdc, hdc, extenders_eq]
      cases hga : w.getattr c with
      | none => rfl
      | some a =>
          rw [Option.map_some, e6, hga]
          simp
    · rw [if_neg hdc, World.extenders]
      cases hgd : w.getattr d with
      | none => rfl
      | some b =>
          rw [Option.map_some, Option.map_some, e6, if_neg]
          intro hb
          apply hdc
          rw [hgd]
          cases hga : w.getattr c with
          | none =>
              rw [hga, Option.getD_none] at hb
              exact absurd (getattr_lt h hgd) (by omega)
          | some a => rw [hga, Option.getD_some] at hb; rw [hb]

theorem run_wf {w : World ε} (h : w.WF) (ops : List (ℕ × List ε)) : (w.run ops).WF ∧ w.n ≤ (w.run ops).n := by
  induction ops generalizing w with
  | nil => exact ⟨h, (Nat.le_refl _)⟩
  | cons op ops ih =>
      obtain ⟨c, es⟩ := op
      rw [World.run]
      by_cases hc : c < w.n
      · obtain ⟨w', e1, e2, e3, _⟩ := extend_spec h hc es
        rw [e1]
        exact ⟨(ih e2).1, by have := (ih e2).2; simp only; omega⟩
      · have : w.extend c es = none := by simp [World.extend, Nat.not_lt.mp hc]
        rw [this]
        exact ih h

/-! ### Theorems -/

/-- C47: a class which was never extended is never modified, whatever classes are extended afterwards: its info
container stays the one of the solver. -/
theorem C47_original_unchanged {w : World ε} (h : w.WF) {c : ℕ} (hc : c < w.n) (hn : w.extenders c = none)
    (ops : List (ℕ × List ε)) {ι : Type} (modif : ε → ι → ι) (base : ι) :
    (w.run ops).extenders c = none ∧ (w.run ops).info c modif base = (base, none) := by
  have key : (w.run ops).extenders c = none := by
    induction ops generalizing w with
    | nil => exact hn
    | cons op ops ih =>
        obtain ⟨d, es⟩ := op
        rw [World.run]
        by_cases hd : d < w.n
        · obtain ⟨w', e1, e2, e3, _, e5⟩ := extend_extenders h hd es
          rw [e1]
          refine ih e2 (by omega) ?_
          rw [e5 c hc]
          have hgc : w.getattr c = none := by simpa [World.extenders] using hn
          split
          · rename_i heq
            rw [World.extenders, ← heq, hgc]; rfl
          · exact hn
        · have : w.extend d es = none := by simp [World.extend, Nat.not_lt.mp hd]
          rw [this]
          exact ih h hc hn
  refine ⟨key, ?_⟩
  have : (w.run ops).getattr c = none := by simpa [World.extenders] using key
  rw [World.info, this]

/-- C47: the new class has the extenders of the class followed by the given ones, and its info container is the
one of the class modified by the given extenders, in order. -/
theorem C47_new_class {w : World ε} (h : w.WF) {c : ℕ} (hc : c < w.n) (es : List ε) {ι : Type}
    (modif : ε → ι → ι) (base : ι) :
    ∃ w', w.extend c es = some (w', w.n) ∧
      w'.info w.n modif base = (es.foldl (fun i e => modif e i) (w.info c modif base).1,
        some ((w.info c modif base).2.getD [] ++ es)) := by
  obtain ⟨w', e1, e2, e3, e4, e5, e6⟩ := extend_spec h hc es
  refine ⟨w', e1, ?_⟩
  rw [World.info, e5]
  simp only [e6, if_true]
  rw [World.info]
  cases w.getattr c <;> simp

/-- C47: extending a class which was never extended leaves all the other classes unchanged. Missing: see
`C47_extended_class_violated`. -/
theorem C47_others_unchanged_partial {w : World ε} (h : w.WF) {c : ℕ} (hc : c < w.n) (hn : w.extenders c = none)
    (es : List ε) : ∃ w', w.extend c es = some (w', w.n) ∧ ∀ d < w.n, w'.extenders d = w.extenders d := by
  obtain ⟨w', e1, _, _, _, e5⟩ := extend_extenders h hc es
  refine ⟨w', e1, fun d hd => ?_⟩
  rw [e5 d hd]
  split
  · rename_i heq
    rw [hn, World.extenders, heq]
    have : w.getattr c = none := by simpa [World.extenders] using hn
    rw [this]; rfl
  · rfl

/-- C47, finding: extending a class which is already the result of an extension also extends this class, and all
the classes which come from the same first extension. -/
theorem C47_extended_class_violated {w : World ε} (h : w.WF) {c : ℕ} (hc : c < w.n) {l : List ε}
    (hl : w.extenders c = some l) {es : List ε} (hes : es ≠ []) :
    ∃ w', w.extend c es = some (w', w.n) ∧ w'.extenders c = some (l ++ es) ∧ w'.extenders c ≠ w.extenders c ∧
      ∀ d < w.n, w.getattr d = w.getattr c → w'.extenders d = some (l ++ es) := by
  obtain ⟨w', e1, _, _, _, e5⟩ := extend_extenders h hc es
  have hself : w'.extenders c = some (l ++ es) := by rw [e5 c hc, if_pos rfl, hl]; rfl
  refine ⟨w', e1, hself, ?_, ?_⟩
  · rw [hself, hl]
    simp [hes]
  · intro d hd hdc
    rw [e5 d hd, if_pos hdc, hl]; rfl

/-- One solver; it is extended twice in sequence: the first extended class gets the second extender. -/
example : let w : World String := World.solvers 1 (fun _ => [0])
    (w.run [(0, ["A"]), (1, ["B"])]).extenders 1 = some ["A", "B"] ∧
    (w.run [(0, ["A"])]).extenders 1 = some ["A"] ∧
    (w.run [(0, ["A"]), (1, ["B"])]).extenders 0 = none ∧ w.WF := by
  refine ⟨?_, ?_, ?_, solvers_wf ?_⟩
  · decide
  · decide
  · decide
  · decide

/-! ### Names -/

/-- C47: the names written in the files are split into the module and the class, for every module (with dots)
and class name (without dot). -/
theorem C47_names (m : List Char × List Char) (h : '.' ∉ m.2) : rsplit (fullName m) = some m := by
  obtain ⟨a, b⟩ := m
  have hb : ∀ c ∈ b.reverse, (c != '.') = true := by
    intro c hc
    simp only [bne_iff_ne, ne_eq]
    rintro rfl
    exact h (List.mem_reverse.mp hc)
  have hrev : (fullName (a, b)).reverse = b.reverse ++ '.' :: a.reverse := by simp [fullName]
  simp only [rsplit, hrev]
  rw [List.takeWhile_append_of_pos hb, List.dropWhile_append_of_pos hb]
  simp

/-- C47: loading a simulation gives a class with the extenders which were recorded in the file, if they can be
imported. The others are ignored. -/
theorem C47_from_path {w : World ε} (h : w.WF) {c : ℕ} (hc : c < w.n) (hn : w.extenders c = none)
    {mods : List (List Char × List Char)} (hm : ∀ m ∈ mods, '.' ∉ m.2)
    (importClass : List Char × List Char → Option ε) :
    ∃ w' d, w.extendFromPath c (mods.map fullName) importClass = .ok (w', d) ∧
      (w'.extenders d).getD [] = mods.filterMap importClass ∧ ∀ e < w.n, w'.extenders e = w.extenders e := by
  have hmap : (mods.map fullName).mapM splitName = Except.ok mods := by
    induction mods with
    | nil => rfl
    | cons m mods ih =>
        rw [List.map_cons, List.mapM_cons, ih fun x hx => hm x (List.mem_cons_of_mem _ hx)]
        simp only [splitName, C47_names m (hm m (List.mem_cons_self ..))]
        rfl
  by_cases he : (mods.filterMap importClass).isEmpty
  · refine ⟨w, c, ?_, ?_, fun _ _ => rfl⟩
    · unfold World.extendFromPath
      simp [bind, Except.bind, hmap, he]
    · rw [hn]; simpa using (List.isEmpty_iff.mp he).symm
  · obtain ⟨w', e1, _, _, e4, _⟩ := extend_extenders h hc (mods.filterMap importClass)
    obtain ⟨w'', e1', e5⟩ := C47_others_unchanged_partial h hc hn (mods.filterMap importClass)
    rw [e1] at e1'
    simp only [Option.some.injEq, Prod.mk.injEq, and_true] at e1'
    subst e1'
    refine ⟨w', w.n, ?_, ?_, e5⟩
    · unfold World.extendFromPath
      simp [bind, Except.bind, hmap, he, e1]
    · rw [e4, hn]; simp

example : rsplit "fluidsim.base.output.HorizMeans".toList
    = some ("fluidsim.base.output".toList, "HorizMeans".toList) := by decide

end Verif.Extend
