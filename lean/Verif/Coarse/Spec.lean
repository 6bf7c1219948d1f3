import Verif.Modes.Props

/-!
# Specification for C26: the modes of a coarse array inside a full one
-/

namespace Verif.Coarse
open Verif.Modes

/-- Index `i` of an axis of `n` stored modes holds the wavenumber `k`; `x` says that it is the
half axis. -/
def AxisHolds (x : Prop) (n i : ℕ) (k : ℤ) : Prop :=
  (x → HoldsHalf n i k) ∧ (¬ x → Holds n i k)

/-- `o` is `arr` in which the modes of the 2D coarse array (y, x) have been written at their
wavenumbers, the others being untouched. -/
def PutModes2 {A : Type*} (nC nF : ℕ × ℕ) (coarse arr o : ℕ × ℕ → A) : Prop :=
  ∀ ky kx j0 j1, Holds nF.1 j0 ky → HoldsHalf nF.2 j1 kx →
    (∀ i0 i1, Holds nC.1 i0 ky → HoldsHalf nC.2 i1 kx → o (j0, j1) = coarse (i0, i1)) ∧
    ((¬ ∃ i0 i1, Holds nC.1 i0 ky ∧ HoldsHalf nC.2 i1 kx) → o (j0, j1) = arr (j0, j1))

/-- The same in 3D (z, y, x). -/
def PutModes3 {A : Type*} (nC nF : ℕ × ℕ × ℕ) (coarse arr o : ℕ × ℕ × ℕ → A) : Prop :=
  ∀ kz ky kx j0 j1 j2, Holds nF.1 j0 kz → Holds nF.2.1 j1 ky → HoldsHalf nF.2.2 j2 kx →
    (∀ i0 i1 i2, Holds nC.1 i0 kz → Holds nC.2.1 i1 ky → HoldsHalf nC.2.2 i2 kx →
      o (j0, j1, j2) = coarse (i0, i1, i2)) ∧
    ((¬ ∃ i0 i1 i2, Holds nC.1 i0 kz ∧ Holds nC.2.1 i1 ky ∧ HoldsHalf nC.2.2 i2 kx) →
      o (j0, j1, j2) = arr (j0, j1, j2))

/-- Component `j` (0 = z, 1 = y, 2 = x) of a triple (z, y, x). -/
def pick {X : Type*} (j : ℕ) (t : X × X × X) : X :=
  if j = 0 then t.1 else if j = 1 then t.2.1 else t.2.2

/-- A triple (z, y, x) in the storage order `d`: axis `j` is the physical axis `d[j]`. -/
def inOrder {X : Type*} (d : ℕ × ℕ × ℕ) (t : X × X × X) : X × X × X :=
  (pick d.1 t, pick d.2.1 t, pick d.2.2 t)

/-- The global index `g` of a distributed array in storage order `d` and of shape `seq` holds
the wavenumbers `k = (kz, ky, kx)`. -/
def GlobalHolds (d seq g : ℕ × ℕ × ℕ) (k : ℤ × ℤ × ℤ) : Prop :=
  AxisHolds (d.1 = 2) seq.1 g.1 (inOrder d k).1 ∧
  AxisHolds (d.2.1 = 2) seq.2.1 g.2.1 (inOrder d k).2.1 ∧
  AxisHolds (d.2.2 = 2) seq.2.2 g.2.2 (inOrder d k).2.2

/-- The coarse index `(iz, iy, ix)` holds the wavenumbers `k = (kz, ky, kx)`. -/
def CoarseHolds (nC i : ℕ × ℕ × ℕ) (k : ℤ × ℤ × ℤ) : Prop :=
  Holds nC.1 i.1 k.1 ∧ Holds nC.2.1 i.2.1 k.2.1 ∧ HoldsHalf nC.2.2 i.2.2 k.2.2

/-- Process `r` holds the global index `g` at the local index `l`. -/
def LocalAt (blocks : List Block) (r : ℕ) (l g : ℕ × ℕ × ℕ) : Prop :=
  ∃ B, blocks[r]? = some B ∧
    (l.1 < B.shape.1 ∧ B.first.1 + l.1 = g.1) ∧
    (l.2.1 < B.shape.2.1 ∧ B.first.2.1 + l.2.1 = g.2.1) ∧
    (l.2.2 < B.shape.2.2 ∧ B.first.2.2 + l.2.2 = g.2.2)

end Verif.Coarse
