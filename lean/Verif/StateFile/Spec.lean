import Verif.StateFile.Model

/-! # Specification for C80 -/

namespace Verif.StateFile

variable {G V T : Type*}

/-- The processes have together the field `a` for the variable `k`: each one has exactly its points. -/
def Has (s : Sim G V T) (k : Str) (a : G → V) : Prop :=
  ∀ r g, s.arrays k r g = if s.owner g = r then some (a g) else none

/-- Two simulations have the same grid: numbers of points and lengths. -/
def SameGrid (oper oper' : Str → Option T) (axes : List Str) : Prop :=
  ∀ r ∈ axes, oper ('n' :: r) = oper' ('n' :: r) ∧ oper ('L' :: r) = oper' ('L' :: r)

/-- A complete array is read as it is. -/
def Reads (read : (G → Option V) → Option (G → V)) : Prop := ∀ a : G → V, read (fun g => some (a g)) = some a

/-- The blocks tile the array of shape `n0 × n1`: each point is in the block of one and only one process. -/
def Tiles (blocks : ℕ → Block) (nb n0 n1 : ℕ) : Prop :=
  ∀ i < n0, ∀ j < n1, ∃ r < nb, ∀ r' < nb, r' = r ↔
    (blocks r').x0 ≤ i ∧ i < (blocks r').x0 + (blocks r').s0 ∧ (blocks r').y0 ≤ j ∧ j < (blocks r').y0 + (blocks r').s1

end Verif.StateFile
