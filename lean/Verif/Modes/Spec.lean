import Mathlib.Data.Int.ModEq
import Mathlib.Algebra.Order.Field.Basic

/-!
# Specification: where a Fourier mode is stored

Nothing here refers to the program.
-/

namespace Verif.Modes

/-- On an axis of `n` points, index `i` holds the wavenumber `k`: `i` is a valid index, equal
to `k` modulo `n`, and `k` is the representative with `-n/2 < k ≤ n/2`. -/
def Holds (n i : ℕ) (k : ℤ) : Prop :=
  i < n ∧ (i : ℤ) ≡ k [ZMOD n] ∧ -(n : ℤ) < 2 * k ∧ 2 * k ≤ n

/-- On the half axis (real-to-complex transform) of `n` stored modes, index `i` holds the
wavenumber `i`. -/
def HoldsHalf (n i : ℕ) (k : ℤ) : Prop := i < n ∧ (i : ℤ) = k

/-- `o` on a grid of shape `nO` holds the 2D modes of `f` (shape `nI`) that exist on both
grids, each one at its wavenumber, and zero elsewhere. -/
def SameModes2 {A : Type*} [Zero A] (nI nO : ℕ × ℕ) (f o : ℕ × ℕ → A) : Prop :=
  ∀ ky kx j0 j1, Holds nO.1 j0 ky → HoldsHalf nO.2 j1 kx →
    (∀ i0 i1, Holds nI.1 i0 ky → HoldsHalf nI.2 i1 kx → o (j0, j1) = f (i0, i1)) ∧
    ((¬ ∃ i0 i1, Holds nI.1 i0 ky ∧ HoldsHalf nI.2 i1 kx) → o (j0, j1) = 0)

/-- The same in 3D (two full axes and a half one). -/
def SameModes3 {A : Type*} [Zero A] (nI nO : ℕ × ℕ × ℕ) (f o : ℕ × ℕ × ℕ → A) : Prop :=
  ∀ kz ky kx j0 j1 j2, Holds nO.1 j0 kz → Holds nO.2.1 j1 ky → HoldsHalf nO.2.2 j2 kx →
    (∀ i0 i1 i2, Holds nI.1 i0 kz → Holds nI.2.1 i1 ky → HoldsHalf nI.2.2 i2 kx →
      o (j0, j1, j2) = f (i0, i1, i2)) ∧
    ((¬ ∃ i0 i1 i2, Holds nI.1 i0 kz ∧ Holds nI.2.1 i1 ky ∧ HoldsHalf nI.2.2 i2 kx) →
      o (j0, j1, j2) = 0)

/-- A distribution of `0, …, n-1` over `p` processes in consecutive slabs (some may be empty):
process `r` holds the indices from `start r` to `start (r+1) - 1`. -/
structure SlabLayout (n p : ℕ) (start : ℕ → ℕ) : Prop where
  pos : 0 < p
  first : start 0 = 0
  mono : ∀ r, r < p → start r ≤ start (r + 1)
  last : start p = n

end Verif.Modes
