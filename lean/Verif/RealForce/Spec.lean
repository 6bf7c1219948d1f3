import Verif.Modes.Props
import Verif.Energy.Model

/-!
# C111: specification
-/

namespace Verif.RealForce

open Verif.Modes Verif.Energy

noncomputable section

/-- The array `o` of shape (`nky`, ...), in which the modes `kx < 0` are not stored, can be the half spectrum of a real field: in the
column `kx = 0` opposite modes have conjugate values. -/
def ConjugateColumn (nky : ℕ) (o : ℕ × ℕ → ℂ) : Prop :=
  ∀ ky j j', Holds nky j ky → Holds nky j' (-ky) → o (j', 0) = (starRingEnd ℂ) (o (j, 0))

/-- Only modes with `kx < mx` and `|ky| < m` are not zero. -/
def Inside (m mx nky nkx : ℕ) (o : ℕ × ℕ → ℂ) : Prop :=
  ∀ (ky kx : ℤ) j0 j1, Holds nky j0 ky → HoldsHalf nkx j1 kx → ((m : ℤ) ≤ |ky| ∨ (mx : ℤ) ≤ kx) → o (j0, j1) = 0

/-- The field whose half spectrum is stored in `o` (index 0: x, index 1: y), on the modes `S`. -/
def storedField (S : Finset (Fin 2 → ℤ)) (nky : ℕ) (o : ℕ × ℕ → ℂ) : Fld (Fin 2) := fun k =>
  if k ∈ S then
    if 0 ≤ k 0 then o ((k 1 % nky).toNat, (k 0).toNat) else (starRingEnd ℂ) (o ((-k 1 % nky).toNat, (-k 0).toNat))
  else 0

end

end Verif.RealForce
