import Mathlib.Algebra.Order.Floor.Ring
import Mathlib.Algebra.Order.Field.Basic
import Mathlib.Data.List.Lex
import Mathlib.Data.Char

/-!
# The description of the files of physical fields for Paraview (C78)

`create_description_xmf_file` (fluidsim/base/output/__init__.py 65-225). The xmf file is a structure: for each file a
grid with its time, dimensions, spacing, scalars and vectors; the text around the values is not modelled.
Names are lists of characters.
-/

namespace Verif.Xmf

abbrev Str := List Char

/-- Exceptions. -/
inductive Err where
  | value
  | unbound
  deriving DecidableEq, Repr

/-- A file of physical fields: its name, the attributes of "/info_simul/params/oper" (number of points and length;
`none`: the attributes are missing), the datasets of "/state_phys" and the time. -/
structure File (K : Type*) where
  name : Str
  x : ℕ × K
  y : Option (ℕ × K)
  z : Option (ℕ × K)
  keys : List Str
  time : K

/-- A reference to a dataset of a file: "{file_name}:/state_phys/{key}" (base/output/__init__.py 179, 192-198). -/
structure Ref where
  file : Str
  key : Str
  deriving DecidableEq, Repr

/-- One `<Grid>` of the xmf file (base/output/__init__.py 153-210). `join` is the number of components of
`JOIN(...)`. -/
structure Grid (K : Type*) where
  time : K
  ndim : ℕ
  dims : List ℕ
  origins : List K
  deltas : List K
  scalars : List (Str × Ref)
  join : ℕ
  vectors : List (Str × List Ref)

variable {K : Type*} [Field K] [LinearOrder K] [FloorRing K]

/-- `{time:.9f}` (base/output/__init__.py 155, 167). Simplification: ties go up. -/
def round9 (t : K) : K := ⌊t * 10 ^ 9 + 1 / 2⌋ / 10 ^ 9

/-- `ndim` (base/output/__init__.py 87-103): the second `except` replaces the value of the first one. -/
def ndim (f : File K) : ℕ :=
  if f.z.isNone then 2 else if f.y.isNone then 1 else 3

/-- The variables `dims_data`, `origins` and `deltaxs` (base/output/__init__.py 107-121). Reading `ny`, `Ly` or `nz`
when the attributes were missing raises UnboundLocalError. -/
def geometry (f : File K) : Except Err (List ℕ × List K × List K) :=
  if ndim f = 1 then .ok ([f.x.1], [0], [f.x.2 / f.x.1])
  else if ndim f = 2 then
    match f.y with
    | some y => .ok ([y.1, f.x.1], [0, 0], [y.2 / y.1, f.x.2 / f.x.1])
    | none => .error .unbound
  else
    match f.z, f.y with
    | some z, some y => .ok ([z.1, y.1, f.x.1], [0, 0, 0], [z.2 / z.1, y.2 / y.1, f.x.2 / f.x.1])
    | _, _ => .error .unbound

/-- `components` (base/output/__init__.py 125-130). -/
def components (nd : ℕ) : List Char := if nd = 2 then ['x', 'y'] else ['x', 'y', 'z']

/-- `vectors` (base/output/__init__.py 123-137): `none` if the variable is not defined (one dimension). -/
def vectors (nd : ℕ) (keys : List Str) : Option (List Str) :=
  if nd = 2 ∨ nd = 3 then
    some (keys.filterMap fun key =>
      if key.getLast? = some 'x' then
        if (components nd).all fun c => (key.dropLast ++ [c]) ∈ keys then some key.dropLast else none
      else none)
  else none

/-- The grid of one file (base/output/__init__.py 147-210). The components of a vector are always three. -/
def gridOf (nd : ℕ) (geo : List ℕ × List K × List K) (keys vecs : List Str) (f : File K) : Grid K where
  time := round9 f.time
  ndim := nd
  dims := geo.1
  origins := geo.2.1
  deltas := geo.2.2
  scalars := keys.map fun k => (k, ⟨f.name, k⟩)
  join := if nd = 2 then 2 else 3
  vectors := vecs.map fun v => (v, [⟨f.name, v ++ ['x']⟩, ⟨f.name, v ++ ['y']⟩, ⟨f.name, v ++ ['z']⟩])

/-- `paths.sort()` (base/output/__init__.py 83). -/
def sorted (files : List (File K)) : List (File K) := files.mergeSort fun f g => decide (f.name ≤ g.name)

/-- `create_description_xmf_file` (base/output/__init__.py 65-225) for the files found by `glob`: the geometry and the
names of the datasets are those of the first file. -/
def create (files : List (File K)) : Except Err (List (Grid K)) :=
  match sorted files with
  | [] => .error .value
  | f0 :: l =>
    match geometry f0 with
    | .error e => .error e
    | .ok geo =>
      match vectors (ndim f0) f0.keys with
      | none => .error .unbound
      | some vecs => .ok ((f0 :: l).map (gridOf (ndim f0) geo f0.keys vecs))

end Verif.Xmf
