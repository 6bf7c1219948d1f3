import Verif.Hexa.Model

/-! # Specification for C76 -/

namespace Verif.Hexa

variable {Q : Type*} [Field Q] [LinearOrder Q]

/-- A box aligned with the axes, with a tensor-product grid. -/
structure Cartesian (e : Elem Q) (xs ys zs : ℕ → Q) : Prop where
  x : ∀ i j k, e.data .pos 0 i j k = xs k
  y : ∀ i j k, e.data .pos 1 i j k = ys j
  z : ∀ i j k, e.data .pos 2 i j k = zs i
  nx : 0 < e.nx
  ny : 0 < e.ny
  nz : 0 < e.nz

/-- The plane `d = t` meets the range of the coordinate `d` of the element. -/
def Meets (e : Elem Q) (d : Dir) (t : Q) : Prop :=
  (∃ i < e.nz, ∃ j < e.ny, ∃ k < e.nx, e.data .pos d.comp i j k ≤ t) ∧
  ∃ i < e.nz, ∃ j < e.ny, ∃ k < e.nx, t ≤ e.data .pos d.comp i j k

/-- `i` is the index of a layer of `n` which is the closest to `t`. -/
def Closest (n : ℕ) (c : ℕ → Q) (t : Q) (i : ℕ) : Prop := i < n ∧ ∀ j < n, |c i - t| ≤ |c j - t|

/-- Squared distance. -/
def dist2 (x y a b : Q) : Q := (a - x) ^ 2 + (b - y) ^ 2

/-- The smallest and largest values of a list are around `t`. -/
def InRange (l : List Q) (t : Q) : Prop := (∃ a ∈ l, a ≤ t) ∧ ∃ b ∈ l, t ≤ b

/-- Decimal value of a list of digits. -/
def decimal : List Char → ℕ
  | [] => 0
  | c :: l => (c.toNat - '0'.toNat) * 10 ^ l.length + decimal l

end Verif.Hexa
