import Verif.Build.Spec

/-! # C99: the solvers loaded by key and the construction of the simulation objects -/

namespace Verif.Build

/-! ### Keys of the solvers -/

theorem importModule_ok {table : List Entry} (hu : OneModule table) (grp key m : List Char) :
    importModule table grp key = .ok m ↔ Registered table grp key m := by
  unfold importModule available Registered
  constructor
  · intro h
    split at h
    · rename_i e he
      cases h
      have h1 := List.mem_of_find?_eq_some he
      have h2 := List.find?_some he
      simp only [List.mem_filter, decide_eq_true_eq] at h1 h2
      obtain ⟨h1, h3⟩ := h1
      cases e
      simp_all
    · cases h
  · intro h
    split
    · rename_i e he
      have h1 := List.mem_of_find?_eq_some he
      have h2 := List.find?_some he
      simp only [List.mem_filter, decide_eq_true_eq] at h1 h2
      exact congrArg _ (hu e h1.1 _ h h1.2 h2)
    · rename_i hn
      have := List.find?_eq_none.1 hn ⟨grp, key, m⟩ (by simp [h])
      simp at this

theorem importModule_error {table : List Entry} (grp key : List Char) :
    importModule table grp key = .error .valueError ↔ ∀ m, ¬ Registered table grp key m := by
  unfold importModule available Registered
  constructor
  · intro h m hm
    split at h
    · cases h
    · rename_i hn
      have := List.find?_eq_none.1 hn ⟨grp, key, m⟩ (by simp [hm])
      simp at this
  · intro h
    split
    · rename_i e he
      have h1 := List.mem_of_find?_eq_some he
      have h2 := List.find?_some he
      simp only [List.mem_filter, decide_eq_true_eq] at h1 h2
      refine absurd (?_ : (⟨grp, key, e.module⟩ : Entry) ∈ table) (h e.module)
      obtain ⟨h1, h3⟩ := h1
      cases e
      simp_all
    · rfl

/-- **C99**: a key gives the solver registered with exactly this name, and nothing else. -/
theorem C99_key {table : List Entry} (hu : OneModule table) (grp key m : List Char)
    (hk : ¬ (grp ++ ['.']) <+: key) :
    importCls table grp key = .ok m ↔ Registered table grp key m := by
  have : (grp ++ ['.']).isPrefixOf key = false := by
    rw [Bool.eq_false_iff]; simpa [List.isPrefixOf_iff_prefix] using hk
  simp [importCls, this, importModule_ok hu]

/-- **C99**: the full name, with the name of the group, gives the same solver as the short one. -/
theorem C99_key_full (table : List Entry) (grp key : List Char) (hk : ¬ (grp ++ ['.']) <+: key) :
    importCls table grp (grp ++ '.' :: key) = importCls table grp key := by
  have h1 : (grp ++ ['.']).isPrefixOf key = false := by
    rw [Bool.eq_false_iff]; simpa [List.isPrefixOf_iff_prefix] using hk
  have h2 : (grp ++ ['.']).isPrefixOf (grp ++ '.' :: key) = true := by
    rw [List.isPrefixOf_iff_prefix]; exact ⟨key, by simp⟩
  have h3 : (grp ++ '.' :: key).drop (grp.length + 1) = key := by
    rw [List.drop_append]; simp
  simp [importCls, h1, h2, h3]

/-- **C99**: a key which is not registered is an error; another solver is never given. -/
theorem C99_key_unknown (table : List Entry) (grp key : List Char) (hk : ¬ (grp ++ ['.']) <+: key)
    (h : ∀ m, ¬ Registered table grp key m) : importCls table grp key = .error .valueError := by
  have h1 : (grp ++ ['.']).isPrefixOf key = false := by
    rw [Bool.eq_false_iff]; simpa [List.isPrefixOf_iff_prefix] using hk
  simpa [importCls, h1] using (importModule_error grp key).2 h

/-- **C99**: the solver does not depend on the order in which the packages are installed. -/
theorem C99_key_order {t t' : List Entry} (hu : OneModule t) (hp : t.Perm t') (grp key : List Char) :
    importCls t grp key = importCls t' grp key := by
  have hu' : OneModule t' := fun a ha b hb => hu a (hp.mem_iff.2 ha) b (hp.mem_iff.2 hb)
  have key' : ∀ k, importModule t grp k = importModule t' grp k := by
    intro k
    cases h : importModule t grp k with
    | ok m =>
      exact ((importModule_ok hu' grp k m).2 (hp.mem_iff.1 ((importModule_ok hu grp k m).1 h))).symm
    | error x =>
      have hx : x = .valueError := by
        unfold importModule at h; split at h <;> cases h; rfl
      subst hx
      refine ((importModule_error grp k).2 fun m hm => ?_).symm
      exact (importModule_error grp k).1 h m (hp.mem_iff.2 hm)
  simp [importCls, key']

/-- **C99**: the names of the entry points of fluidsim are not ambiguous. -/
theorem C99_pyproject_one : OneModule pyproject := by
  have h : ∀ a ∈ pyproject, ∀ b ∈ pyproject, a.group = b.group → a.name = b.name → a = b := by decide +kernel
  intro a ha b hb h1 h2
  rw [h a ha b hb h1 h2]

/-- **C99** (finding): the solvers of the subpackages (`ns2d.strat`, `ns3d.strat`, `ns3d.bouss`, `sw1l.exactlin`,
`sphere.ns2d`, ...) are registered in other groups: `import_simul_class_from_key` and `fluidsim-bench -s` refuse all of
them, with the short key as well as with the full one. The submission scripts of the documentation use
`fluidsim-bench -s ns3d.strat`. -/
theorem C99_subsolvers_violated : ∀ x ∈ pyproject, x.group ≠ "fluidsim.solvers".toList →
    importCls pyproject "fluidsim.solvers".toList (x.group ++ '.' :: x.name) = .error .valueError ∧
    importCls pyproject "fluidsim.solvers".toList ((x.group ++ '.' :: x.name).drop 17) = .error .valueError := by
  decide +kernel

example : ∃ x ∈ pyproject, x.group ≠ "fluidsim.solvers".toList ∧
    (x.group ++ '.' :: x.name).drop 17 = "ns3d.strat".toList := by decide +kernel

example : importCls pyproject "fluidsim.solvers".toList "fluidsim.solvers.ns2d".toList =
    .ok "fluidsim.solvers.ns2d.solver".toList := by decide +kernel

example : ¬ ("fluidsim.solvers".toList ++ ['.']) <+: "ns2d".toList ∧
    Registered pyproject "fluidsim.solvers".toList "ns2d".toList "fluidsim.solvers.ns2d.solver".toList := by
  constructor <;> first | (unfold Registered; decide +kernel) | decide +kernel

/-! ### Directories of results -/

theorem div_abs {p q : Path} (h : p.abs = true) : (p.div q).abs = true := by
  unfold Path.div; split <;> simp_all

theorem div_of_abs (p : Path) {q : Path} (h : q.abs = true) : p.div q = q := by simp [Path.div, h]

/-- **C99**: the directory found is the one given, seen from the current directory, if it exists, else the one of this
name under `$FLUIDSIM_PATH`. -/
theorem C99_dir {m : Machine} (hm : m.Usual) (p : Path) (hp : p.abs = true ∨ p.parts.head? ≠ some ['~']) (r : Path) :
    findDir m (some p) = .ok r ↔
      (m.isDir (m.cwd.div p) = true ∧ r = m.cwd.div p) ∨
      (m.isDir (m.cwd.div p) = false ∧ p.abs = false ∧ m.isDir (m.results.div p) = true ∧ r = m.results.div p) := by
  have he : m.expandUser p = p := by
    unfold Machine.expandUser
    split
    · simp_all
    · rfl
  have hr : m.cwd.div (m.results.div p) = m.results.div p := div_of_abs _ (div_abs hm.results)
  simp only [findDir, he, Machine.dirAt, Machine.absolute]
  cases h : m.isDir (m.cwd.div p) with
  | true =>
    simp only [if_true, Except.ok.injEq, true_and, Bool.true_eq_false, false_and, or_false]
    exact eq_comm
  | false =>
    cases ha : p.abs with
    | true => simp only [if_true, h, Bool.false_eq_true, if_false, false_and, or_false, reduceCtorEq, and_false]
    | false =>
      simp only [Bool.false_eq_true, if_false, hr]
      cases h' : m.isDir (m.results.div p) with
      | true =>
        simp only [if_true, Except.ok.injEq, true_and, false_and, false_or]
        exact eq_comm
      | false => simp

/-- **C99**: what is found is the absolute path of an existing directory; it is found again from its path, whatever the
current directory is. -/
theorem C99_dir_again {m m' : Machine} (hm : m.Usual) (hd : m'.isDir = m.isDir) (thing : Option Path) (r : Path)
    (h : findDir m thing = .ok r) : r.abs = true ∧ m.isDir r = true ∧ findDir m' (some r) = .ok r := by
  have aux : ∀ q : Path, (if m.dirAt q then Except.ok (m.absolute q) else
      if m.dirAt (if q.abs then q else m.results.div q) then .ok (if q.abs then q else m.results.div q)
      else .error Err.valueError) = .ok r → r.abs = true ∧ m.isDir r = true := by
    intro q h
    by_cases h1 : m.dirAt q = true
    · rw [if_pos h1] at h
      cases h; exact ⟨div_abs hm.cwd, h1⟩
    · rw [if_neg h1] at h
      by_cases hq : q.abs = true
      · rw [if_pos hq, if_neg h1] at h
        cases h
      · rw [if_neg hq] at h
        by_cases h2 : m.dirAt (m.results.div q) = true
        · rw [if_pos h2] at h
          rw [Machine.dirAt, Machine.absolute, div_of_abs m.cwd (div_abs hm.results)] at h2
          cases h; exact ⟨div_abs hm.results, h2⟩
        · rw [if_neg h2] at h
          cases h
  have key : r.abs = true ∧ m.isDir r = true := by
    unfold findDir at h
    split at h
    · cases h; exact ⟨hm.cwd, hm.dir⟩
    · exact aux _ h
  refine ⟨key.1, key.2, ?_⟩
  have he : m'.expandUser r = r := by
    unfold Machine.expandUser; split
    · simp_all
    · rfl
  simp [findDir, he, Machine.dirAt, Machine.absolute, div_of_abs _ key.1, hd, key.2]

/-- **C99**: the home directory can be written `~`. -/
theorem C99_dir_home {m : Machine} (hm : m.Usual) (rest : List (List Char)) :
    findDir m (some ⟨false, ['~'] :: rest⟩) = findDir m (some ⟨true, m.home.parts ++ rest⟩) := by
  simp [findDir, Machine.expandUser, hm.home]

/-- A machine with two directories, in the current directory and in the one of the results. -/
def exMachine : Machine :=
  ⟨⟨true, ["work".toList]⟩, ⟨true, ["home".toList]⟩, ⟨true, ["data".toList]⟩,
   fun p => p ∈ [⟨true, ["work".toList]⟩, ⟨true, ["work".toList, "a".toList]⟩, ⟨true, ["data".toList, "a".toList]⟩,
     (⟨true, ["data".toList, "b".toList]⟩ : Path)]⟩

example : exMachine.Usual := ⟨rfl, rfl, rfl, by decide +kernel⟩

example : (findDir exMachine (some ⟨false, ["a".toList]⟩) = .ok ⟨true, ["work".toList, "a".toList]⟩) ∧
    findDir exMachine (some ⟨false, ["b".toList]⟩) = .ok ⟨true, ["data".toList, "b".toList]⟩ ∧
    findDir exMachine (some ⟨false, ["c".toList]⟩) = .error .valueError := by
  refine ⟨?_, ?_, ?_⟩ <;> decide +kernel

/-! ### The classes of a solver -/

variable {κ σ : Type} {imp : List Char × List Char → Option κ} {complete : κ → σ → σ}

/-- The dictionary kept is right, or there is none. -/
def Fresh (imp : List Char × List Char → Option κ) (i : Info κ σ) : Prop :=
  ∀ d, i.cache = some d → importAll imp i.classes = .ok d

theorem Fresh.uses {i : Info κ σ} (h : Fresh imp i) : UsesNamed imp i := by
  intro d j hj
  unfold Info.importClasses at hj
  split at hj
  · rename_i d' hd
    cases hj
    exact h _ hd
  · split at hj
    · rename_i d' hd
      cases hj
      exact hd
    · cases hj

theorem complete_fresh {i j : Info κ σ} (h : Fresh imp i) (hj : i.complete imp complete = .ok j) :
    Fresh imp j ∧ j.classes = i.classes := by
  unfold Info.complete at hj
  split at hj
  · rename_i d i' hi
    cases hj
    unfold Info.importClasses at hi
    split at hi
    · cases hi; exact ⟨h, rfl⟩
    · split at hi
      · rename_i hd
        cases hi
        exact ⟨fun d' hd' => by cases hd'; exact hd, rfl⟩
      · cases hi
  · cases hj

theorem modifs_fresh {l : List (Info κ σ → Info κ σ)} (hl : ∀ f ∈ l, Careful f) {i : Info κ σ} (h : Fresh imp i) :
    Fresh imp (l.foldl (fun i f => f i) i) := by
  induction l generalizing i with
  | nil => exact h
  | cons f l ih =>
    refine ih (fun g hg => hl g (List.mem_cons_of_mem _ hg)) ?_
    intro d hd
    rcases hl f List.mem_cons_self i with h0 | ⟨h1, h2⟩
    · rw [h0] at hd; cases hd
    · rw [h1]; exact h d (h2 ▸ hd)

/-- C99, the classes which are imported: `import_classes` gives, in the order of the tree, one class for each tag with a module and a class
name, and fails only if one of them cannot be imported; the tags without these names are left out and do not hide the following ones. -/
theorem C99_imported {κ : Type} (imp : List Char × List Char → Option κ) (l : List (List Char × Option (List Char × List Char))) :
    (∀ d, importAll imp l = .ok d ↔
      d.map (fun x => (x.1, some x.2)) = (l.filterMap fun x => x.2.map fun ref => (x.1, imp ref))) ∧
    (importAll imp l = .error .importError ↔ ∃ x ∈ l, ∃ ref, x.2 = some ref ∧ imp ref = none) := by
  induction l with
  | nil =>
    refine ⟨fun d => ?_, by simp [importAll]⟩
    cases d <;> simp [importAll]
  | cons x l ih =>
    obtain ⟨tag, ref⟩ := x
    cases ref with
    | none => exact ⟨by simpa [importAll] using ih.1, by simpa [importAll] using ih.2⟩
    | some ref =>
      have hex : (∃ x ∈ (tag, some ref) :: l, ∃ r, x.2 = some r ∧ imp r = none) ↔
          imp ref = none ∨ ∃ x ∈ l, ∃ r, x.2 = some r ∧ imp r = none := by
        constructor
        · rintro ⟨x, hx, r, h1, h2⟩
          rcases List.mem_cons.1 hx with rfl | hx
          · cases h1
            exact Or.inl h2
          · exact Or.inr ⟨x, hx, r, h1, h2⟩
        · rintro (h | ⟨x, hx, r, h1, h2⟩)
          · exact ⟨_, List.mem_cons_self, ref, rfl, h⟩
          · exact ⟨x, List.mem_cons_of_mem _ hx, r, h1, h2⟩
      rw [hex]
      cases hi : imp ref with
      | none =>
        refine ⟨fun d => ?_, ?_⟩
        · simp only [importAll, hi, reduceCtorEq, false_iff]
          cases d <;> simp [hi]
        · simp [importAll, hi]
      | some c =>
        have hmap : ∀ y (d : List (List Char × κ)), (y :: d).map (fun x => (x.1, some x.2))
            = ((tag, some ref) :: l).filterMap (fun x => x.2.map fun ref => (x.1, imp ref)) ↔
              y = (tag, c) ∧ d.map (fun x => (x.1, some x.2)) = l.filterMap (fun x => x.2.map fun ref => (x.1, imp ref)) := by
          intro y d
          obtain ⟨y1, y2⟩ := y
          simp [hi]
        cases hr : importAll imp l with
        | error e =>
          refine ⟨fun d => ?_, ?_⟩
          · simp only [importAll, hi, hr, reduceCtorEq, false_iff]
            intro h
            cases d with
            | nil => simp at h
            | cons y d =>
              have := (ih.1 d).2 ((hmap y d).1 h).2
              rw [hr] at this
              cases this
          · have := ih.2
            rw [hr] at this
            simp only [importAll, hi, hr, this, reduceCtorEq, false_or]
        | ok d' =>
          refine ⟨fun d => ?_, ?_⟩
          · simp only [importAll, hi, hr, Except.ok.injEq]
            cases d with
            | nil => simp
            | cons y d =>
              rw [hmap, ← ih.1 d, hr, Except.ok.injEq, List.cons.injEq]
              exact and_congr eq_comm Iff.rfl
          · have := ih.2
            rw [hr] at this
            simp only [importAll, hi, hr, reduceCtorEq, false_or, false_iff] at this ⊢
            exact this

example : importAll (fun r => if r.1 = "a".toList then some 1 else none)
    [("X".toList, some ("a".toList, "A".toList)), ("Y".toList, none), ("Z".toList, some ("a".toList, "B".toList))]
      = .ok [("X".toList, 1), ("Z".toList, 1)] := by decide +kernel

/-- **C99**: with extenders which forget the dictionary kept when they change the classes, the classes used by the solver
are those which are named in its description (and written in the file of the description). -/
theorem C99_classes_partial {modifs : List (Info κ σ → Info κ σ)} (hm : ∀ f ∈ modifs, Careful f) {root info : Info κ σ}
    (hr : root.cache = none) (h : Info.create imp complete modifs root = .ok info) : UsesNamed imp info := by
  unfold Info.create at h
  split at h
  · rename_i i hi
    cases h
    refine (modifs_fresh hm (complete_fresh ?_ hi).1).uses
    intro d hd
    rw [hr] at hd; cases hd
  · cases h

/-- **C99**: it is the case of the extenders of the repository: outputs, forcings and turbulence models. -/
theorem C99_extenders (f : σ → σ) : Careful (modifSub (κ := κ) f) ∧ Careful (modifTurb (κ := κ) f) := by
  constructor
  · intro i; exact .inr ⟨rfl, rfl⟩
  · intro i
    unfold modifTurb
    split
    · exact .inr ⟨rfl, rfl⟩
    · exact .inl rfl

/-- **C99**: the classes are the same each time they are asked. -/
theorem C99_classes_again {i j : Info κ σ} {d : List (List Char × κ)} (h : i.importClasses imp = .ok (d, j)) :
    j.importClasses imp = .ok (d, j) ∧ j.classes = i.classes := by
  unfold Info.importClasses at h
  split at h
  · rename_i d' hd
    cases h
    exact ⟨by simp [Info.importClasses, hd], rfl⟩
  · split at h
    · cases h; exact ⟨by simp [Info.importClasses], rfl⟩
    · cases h

theorem complete_cache {root i : Info κ σ} (hr : root.cache = none) (h : root.complete imp complete = .ok i) :
    ∃ d, importAll imp root.classes = .ok d ∧ i.cache = some d ∧ i.classes = root.classes := by
  unfold Info.complete Info.importClasses at h
  rw [hr] at h
  simp only at h
  split at h
  · rename_i d i' hi
    split at hi
    · rename_i hd
      cases hi; cases h
      exact ⟨_, hd, rfl, rfl⟩
    · cases hi
  · cases h

/-- **C99** (finding): an extender which replaces a class of the solver, as the solvers do for the classes of their
parents, has no effect: the classes used are the ones of the solver which is extended, whereas the description of the
solver, which is saved in the files, names the new class. -/
theorem C99_replace_violated {root info : Info κ σ} (hr : root.cache = none) (tag : List Char)
    (ref : List Char × List Char) (h : Info.create imp complete [modifClass tag ref] root = .ok info) (d : List (List Char × κ))
    (j : Info κ σ) (hd : info.importClasses imp = .ok (d, j)) :
    importAll imp root.classes = .ok d ∧ (∀ x ∈ info.classes, x.1 = tag → x.2 = some ref) := by
  unfold Info.create at h
  split at h
  · rename_i i hi
    cases h
    obtain ⟨d0, h1, h2, h3⟩ := complete_cache hr hi
    simp only [List.foldl_cons, List.foldl_nil] at hd ⊢
    simp only [Info.importClasses, modifClass, h2] at hd
    cases hd
    refine ⟨h1, fun x hx ht => ?_⟩
    simp only [modifClass, List.mem_map] at hx
    obtain ⟨y, _, hy⟩ := hx
    split at hy
    · rw [← hy]
    · rename_i hne; rw [hy] at hne; exact absurd ht hne
  · cases h

/-- **C99**: the same extender has its effect if a turbulence model is added to a solver which has none, before or after
it. -/
theorem C99_replace_turb {root info : Info κ σ} (hr : root.cache = none)
    (ht : "TurbModel".toList ∉ root.classes.map (·.1)) (tag : List Char) (ref : List Char × List Char) (f : σ → σ)
    (h : Info.create imp complete [modifClass tag ref, modifTurb f] root = .ok info ∨
      Info.create imp complete [modifTurb f, modifClass tag ref] root = .ok info) : UsesNamed imp info := by
  have key : ∀ l : List (List Char × Option (List Char × List Char)), l.map (·.1) =
      (l.map fun x => if x.1 = tag then (tag, some ref) else x).map (·.1) := by
    intro l
    rw [List.map_map]
    refine List.map_congr_left fun x _ => ?_
    simp only [Function.comp]
    split
    · simp [*]
    · rfl
  have hc : info.cache = none := by
    rcases h with h | h
    all_goals
      unfold Info.create at h
      split at h
      · rename_i i hi
        cases h
        obtain ⟨d0, h1, h2, h3⟩ := complete_cache hr hi
        simp only [List.foldl_cons, List.foldl_nil, modifTurb, modifClass]
        first
          | rw [← key, h3, if_neg (by simpa using ht)]
          | rw [h3, if_neg (by simpa using ht)]
      · cases h
  exact Fresh.uses fun d hd => by rw [hc] at hd; cases hd

/-- Three classes. -/
def exRoot : Info ℕ Unit :=
  ⟨[("State".toList, some ("m".toList, "A".toList)), ("Output".toList, some ("m".toList, "B".toList))], none, ()⟩

def exImp (r : List Char × List Char) : Option ℕ :=
  if r.2 = "A".toList then some 0 else if r.2 = "B".toList then some 1 else if r.2 = "New".toList then some 2 else some 3

/-- A new class of the state which is ignored. -/
example : (match Info.create exImp (fun _ s => s) [modifClass "State".toList ("m".toList, "New".toList)] exRoot with
    | .ok i => match i.importClasses exImp with
      | .ok (d, _) => d == [("State".toList, 0), ("Output".toList, 1)]
      | .error _ => false
    | .error _ => false) = true := by decide +kernel

example : (match Info.create exImp (fun _ s => s) [modifClass "State".toList ("m".toList, "New".toList),
      modifTurb fun s => s] exRoot with
    | .ok i => match i.importClasses exImp with
      | .ok (d, _) => d == [("State".toList, 2), ("Output".toList, 1), ("TurbModel".toList, 3)]
      | .error _ => false
    | .error _ => false) = true := by decide +kernel

/-! ### The attribute `info_solver` of the classes -/

theorem history_eq (h : Hier) (calls : List ℕ) (d : ℕ) (i : ℕ) (hi : h.history calls d = some i) : i = h.infoCls d := by
  unfold Hier.history at hi
  have gen : ∀ (l : List ℕ) (a : Attrs), (∀ d i, a d = some i → i = h.infoCls d) →
      ∀ d i, l.foldl h.createDefaultParams a d = some i → i = h.infoCls d := by
    intro l
    induction l with
    | nil => intro a ha; exact ha
    | cons c l ih =>
      intro a ha
      refine ih _ fun d i hd => ?_
      unfold Hier.createDefaultParams at hd
      split at hd
      · rename_i e; cases hd; rw [e]
      · exact ha d i hd
  exact gen calls _ (fun _ _ h => by cases h) d i hi

/-- **C99**: whatever the parameters which have been created before, for this solver, for its ancestors, for its
descendants or for the extensions of these classes, a simulation uses a description of its own class. -/
theorem C99_info (h : Hier) (hd : h.Derives) (calls : List ℕ) (c : ℕ) : h.infoUsed (h.history calls) c = h.infoCls c := by
  unfold Hier.infoUsed
  split
  · rfl
  · rename_i i hi
    obtain ⟨d, hm, hdi⟩ := List.exists_of_findSome?_eq_some hi
    split
    · rename_i hs
      rw [history_eq h calls d i hdi] at hs ⊢
      exact hd.antisymm _ _ hs (hd.anc c d hm)
    · rfl

/-- The base class, a solver and an extension of this solver. -/
def exHier : Hier :=
  ⟨fun c => (List.range (c + 1)).reverse, fun c => c + 10, fun i j => decide (j ≤ i)⟩

example : exHier.Derives :=
  ⟨fun c d hd => by simp [exHier] at hd ⊢; omega, fun i j h1 h2 => by simp [exHier] at h1 h2; omega⟩

example : (exHier.mro 2).findSome? (exHier.history [1, 0]) = some 11 ∧ exHier.infoUsed (exHier.history [1, 0]) 2 = 12 := by
  decide +kernel

end Verif.Build
