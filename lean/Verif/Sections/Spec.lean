import Verif.Sections.Model

/-! Specification vocabulary for C70. -/

namespace Verif.Sections

open Verif.PhysFiles (Str)

variable {F : Type*}

/-- The value of the field at the grid point of indices `p .x`, `p .y`, `p .z`. -/
def Arr3.at (a : Arr3 F) (p : Axis → ℕ) : F := a.get (p .z) (p .y) (p .x)

/-- Number of grid points along an axis. -/
def Arr3.len (a : Arr3 F) : Axis → ℕ
  | .x => a.nx
  | .y => a.ny
  | .z => a.nz

/-- `s` is the section of `a` normal to the axis `m` at the index `k`, with the axis `h` along the columns and the
axis `v` along the rows. -/
def IsSection (a : Arr3 F) (m h v : Axis) (k : ℕ) (s : Arr2 F) : Prop :=
  s.n0 = a.len v ∧ s.n1 = a.len h ∧
    ∀ p : Axis → ℕ, p m = k → p h < a.len h → p v < a.len v → s.get (p v) (p h) = a.at p

/-- The letter of an axis. -/
def Axis.letter : Axis → Char
  | .x => 'x'
  | .y => 'y'
  | .z => 'z'

/-- The equation `i<axis>=text` (`byIndex`) or `<axis>=text`. -/
def equation (byIndex : Bool) (m : Axis) (text : Str) : Str :=
  (if byIndex then ['i'] else []) ++ m.letter :: '=' :: text

/-- The axes of the figure of a section normal to `m`: the two others, in the order x, y, z. -/
def figureAxes : Axis → Axis × Axis
  | .x => (.y, .z)
  | .y => (.x, .z)
  | .z => (.x, .y)

/-- The coordinate of the grid point `i` of an axis of length `L` with `n` points of a periodic domain. -/
def coord {Q : Type*} [Field Q] (L : Q) (n i : ℕ) : Q := i * (L / n)

end Verif.Sections
