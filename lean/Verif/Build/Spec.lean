import Verif.Build.Model

/-! # Specification of the loading and of the construction of the solvers -/

namespace Verif.Build

/-- The module `m` is registered with the name `key` in the group. -/
def Registered (table : List Entry) (grp key m : List Char) : Prop := (⟨grp, key, m⟩ : Entry) ∈ table

/-- No two modules are registered with the same name in the same group. -/
def OneModule (table : List Entry) : Prop :=
  ∀ a ∈ table, ∀ b ∈ table, a.group = b.group → a.name = b.name → a.module = b.module

/-- The usual machine: the paths of the current directory, of the home and of the results are absolute, and the current
directory exists. -/
structure Machine.Usual (m : Machine) : Prop where
  cwd : m.cwd.abs = true
  home : m.home.abs = true
  results : m.results.abs = true
  dir : m.isDir m.cwd = true

variable {κ σ : Type}

/-- A function of an extender which forgets the dictionary kept or does not change the names of the classes. -/
def Careful (f : Info κ σ → Info κ σ) : Prop :=
  ∀ i, (f i).cache = none ∨ ((f i).classes = i.classes ∧ (f i).cache = i.cache)

/-- The classes used by the solver are those which are named in the object `info_solver`. -/
def UsesNamed (imp : List Char × List Char → Option κ) (info : Info κ σ) : Prop :=
  ∀ d i, info.importClasses imp = .ok (d, i) → importAll imp info.classes = .ok d

/-- The class of this child which is used. -/
def Uses (imp : List Char × List Char → Option κ) (info : Info κ σ) (tag : List Char) (c : κ) : Prop :=
  ∃ d i, info.importClasses imp = .ok (d, i) ∧ d.find? (·.1 = tag) = some (tag, c)

/-- The hierarchy of the classes: the class `InfoSolver` of a solver derives from the ones of its ancestors, and two
classes which derive from each other are the same. -/
structure Hier.Derives (h : Hier) : Prop where
  anc : ∀ c, ∀ d ∈ h.mro c, h.sub (h.infoCls c) (h.infoCls d) = true
  antisymm : ∀ i j, h.sub i j = true → h.sub j i = true → i = j

/-- The attributes after some calls of `create_default_params`, at the beginning no class has the attribute. -/
def Hier.history (h : Hier) (calls : List ℕ) : Attrs := calls.foldl h.createDefaultParams fun _ => none

/-- A class which is neither one of the five classes of every solver nor the preprocessing. -/
def Other (x : List Char × κ) : Prop := x.1 ∉ simpleTags

/-- The user enables this task. -/
def Env.On (env : Env κ) (t : List Char) : Prop := env.enable t = some (some true)

instance (env : Env κ) (t : List Char) : Decidable (env.On t) := by unfold Env.On; infer_instance

/-- The tasks which are built, in the order of the classes. -/
def tasksOf (env : Env κ) (d : List (List Char × κ)) : List (Event κ) :=
  (d.filter fun x => decide (x.1 ∉ simpleTags)).filterMap fun x =>
    match env.nameTask x.2 with
    | some t => if env.On t then some (.task t x.2) else none
    | none => none

end Verif.Build
