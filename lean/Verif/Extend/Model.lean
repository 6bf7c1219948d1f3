import Mathlib.Logic.Function.Basic
import Mathlib.Data.List.Basic

/-! # Model of `extend_simul_class` -/

namespace Verif.Extend

/-- The classes `InfoSolver` (numbers smaller than `n`) and the heap of the lists `_extenders` (and `_modificators`,
which is always filled at the same time with the functions given by the extenders: it is represented by the
same list). `ε` is the type of the extenders. -/
structure World (ε : Type) where
  /-- number of classes -/
  n : ℕ
  /-- `__mro__` of each class -/
  mro : ℕ → List ℕ
  /-- the attribute `_extenders` in the dictionary of the class: address of a list -/
  attr : ℕ → Option ℕ
  /-- number of allocated lists -/
  next : ℕ
  /-- content of the lists -/
  lists : ℕ → List ε

variable {ε : Type}

/-- Attribute lookup: the first class of the `__mro__` which has the attribute. -/
def World.getattr (w : World ε) (c : ℕ) : Option ℕ := (w.mro c).findSome? w.attr

/-- `class NewInfoSolver(Simul.InfoSolver)` (lib/fluidsim_core/extend_simul.py 34-35): a new class. -/
def World.subclass (w : World ε) (c : ℕ) : World ε :=
  { w with n := w.n + 1, mro := Function.update w.mro w.n (w.n :: w.mro c) }

/-- `NewInfoSolver._extenders = []` (extend_simul.py 37-39). -/
def World.alloc (w : World ε) (c : ℕ) : World ε :=
  { w with attr := Function.update w.attr c (some w.next), next := w.next + 1,
           lists := Function.update w.lists w.next [] }

/-- `NewInfoSolver._extenders.append(extender)` (extend_simul.py 41-44). -/
def World.append (w : World ε) (c : ℕ) (e : ε) : World ε :=
  match w.getattr c with
  | some a => { w with lists := Function.update w.lists a (w.lists a ++ [e]) }
  | none => w

/-- `extend_simul_class` (extend_simul.py 23-49); the result is the new class (`none`: no such class). -/
def World.extend (w : World ε) (c : ℕ) (es : List ε) : Option (World ε × ℕ) :=
  if w.n ≤ c then none
  else
    let new := w.n
    let w1 := w.subclass c
    let w2 := if (w1.getattr new).isNone then w1.alloc new else w1
    some (es.foldl (fun w e => w.append new e) w2, new)

/-- A program which extends classes, one after the other. -/
def World.run (w : World ε) : List (ℕ × List ε) → World ε
  | [] => w
  | (c, es) :: ops => match w.extend c es with
    | some (w', _) => w'.run ops
    | none => w.run ops

/-- The result of `InfoSolver()` (lib/fluidsim_core/info.py 48-76): `base` is the container completed by
`complete_with_classes`, then each function of `_modificators` is applied and the attribute `extenders` is set. -/
def World.info {ι : Type} (w : World ε) (c : ℕ) (modif : ε → ι → ι) (base : ι) : ι × Option (List ε) :=
  match w.getattr c with
  | some a => ((w.lists a).foldl (fun i e => modif e i) base, some (w.lists a))
  | none => (base, none)

/-! ### Names in the files -/

/-- The full name of an extender (info.py 70-75). -/
def fullName (m : List Char × List Char) : List Char := m.1 ++ '.' :: m.2

/-- `name.rsplit(".", 1)`: module and class (`none`: the unpacking raises `ValueError`)
(extend_simul.py 115). -/
def rsplit (name : List Char) : Option (List Char × List Char) :=
  let cls := (name.reverse.takeWhile (· != '.')).reverse
  match name.reverse.dropWhile (· != '.') with
  | [] => none
  | _ :: rest => some (rest.reverse, cls)

/-- `module_name, class_name = extender_full_name.rsplit(".", 1)` (extend_simul.py 115). -/
def splitName (name : List Char) : Except String (List Char × List Char) :=
  match rsplit name with
  | some m => .ok m
  | none => .error "ValueError"

/-- `_extend_simul_class_from_path` (extend_simul.py 88-127) for the extenders read in a file. `importClass` is
`import_class` (`none`: `ImportError`). -/
def World.extendFromPath (w : World ε) (c : ℕ) (names : List (List Char))
    (importClass : List Char × List Char → Option ε) : Except String (World ε × ℕ) := do
  let mods ← names.mapM splitName
  let classes := mods.filterMap importClass
  if classes.isEmpty then .ok (w, c)
  else match w.extend c classes with
    | some r => .ok r
    | none => .error "NameError"

end Verif.Extend
