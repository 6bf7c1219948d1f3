import Verif.ForcedRegion.Model

/-!
# Specification vocabulary for the forced modes

A mode is a vector of integers (the wavenumber divided by `deltak`), with a non-negative first
component (the negative ones are not stored). `CoarseIndex` says where a mode is in an array.
-/

namespace Verif.ForcedRegion

/-- The index `i` of an axis of even size `2 * m` holds the integer wavenumber `a`, which is not the
Nyquist one. -/
def AxisIndex (m : ℕ) (i : ℕ) (a : ℤ) : Prop :=
  i < 2 * m ∧ -(m : ℤ) < a ∧ a < m ∧ ((i : ℤ) = a ∨ (i : ℤ) = a + 2 * m)

/-- Horizontal/vertical magnitudes in the documented box, possibly mirrored. -/
def InBox (khmin khmax kvmin kvmax : ℝ) (kzNegative : Bool) (kh kv : ℝ) : Prop :=
  (khmin ≤ kh ∧ kh ≤ khmax) ∧
    ((kvmin ≤ kv ∧ kv ≤ kvmax) ∨ (kzNegative = true ∧ kvmin ≤ -kv ∧ -kv ≤ kvmax))

/-- The wavevector of norm `k` and angle `theta` with the vertical is in the documented sector:
`kmin ≤ k ≤ kmax` and the angle at most `delta / 2` from `angle`, possibly mirrored. -/
def InSector (kmin kmax angle delta : ℝ) (kzNegative : Bool) (k theta : ℝ) : Prop :=
  (kmin ≤ k ∧ k ≤ kmax) ∧
    (|theta - angle| ≤ delta / 2 ∨ (kzNegative = true ∧ |(Real.pi - theta) - angle| ≤ delta / 2))

end Verif.ForcedRegion
