import Verif.Energy.Model
import Verif.Vectors.Spec

/-! # Specification for C37, C38, C41 -/

namespace Verif.Energy

open Verif.Fourier Verif.Vectors Finset

noncomputable section

variable {D : Type*} [Fintype D] [DecidableEq D]

/-- `S` contains the opposite of each of its modes and the field with coefficients `u` on `S` is
real. -/
def RealOn (S : Finset (D → ℤ)) (u : Fld D) : Prop :=
  ∀ k ∈ S, -k ∈ S ∧ u (-k) = (starRingEnd ℂ) (u k)

def RealVecOn (S : Finset (D → ℤ)) (v : (D → ℤ) → V3) : Prop :=
  RealOn S (fun k => (v k).x) ∧ RealOn S (fun k => (v k).y) ∧ RealOn S (fun k => (v k).z)

/-- No aliasing in the quadratic terms: three modes of `S` whose sum is zero on the grid have a zero
sum. (With `S` closed under negation: `p + q` is seen on the grid as the mode `k` of `S` only if
`p + q = k`.) -/
def TriadExact (n : D → ℕ) (S : Finset (D → ℤ)) : Prop :=
  ∀ p ∈ S, ∀ q ∈ S, ∀ m ∈ S, (∀ d, (n d : ℤ) ∣ p d + q d + m d) → ∀ d, p d + q d + m d = 0

/-- Two different modes of `S` are different on the grid. -/
def Distinct (n : D → ℕ) (S : Finset (D → ℤ)) : Prop :=
  ∀ p ∈ S, ∀ q ∈ S, (∀ d, (n d : ℤ) ∣ p d - q d) → p = q

/-- Rate of change of `1/2 Σ |v|²` when `v` has the tendency `T`. -/
def rateV (S : Finset (D → ℤ)) (v T : (D → ℤ) → V3) : ℝ := ∑ k ∈ S, (inner (T k) (v k)).re

/-- Rate of change of `1/2 Σ |u|²` when `u` has the tendency `T`. -/
def rate (S : Finset (D → ℤ)) (u T : Fld D) : ℝ := ∑ k ∈ S, (T k * (starRingEnd ℂ) (u k)).re

/-- Rate of change of the kinetic energy `1/2 Σ |rot|²/k²` of a 2D flow (no mean flow). -/
def rateEnergy2 (S : Finset (Fin 2 → ℤ)) (δ : Fin 2 → ℝ) (rot T : Fld (Fin 2)) : ℝ :=
  ∑ k ∈ S with k ≠ 0,
    (T k * (starRingEnd ℂ) (rot k)).re / ((δ 0 * k 0) ^ 2 + (δ 1 * k 1) ^ 2)

/-- Elastic and kinetic energy of a plate: `1/2 Σ |w|² + 1/2 Σ k⁴ |z|² + 1/4 Σ k⁴ |χ|²`. -/
def plateEnergy (δ : Fin 2 → ℝ) (S G : Finset (Fin 2 → ℤ)) (w z chi : Fld (Fin 2)) : ℝ :=
  1 / 2 * ∑ k ∈ S, ‖w k‖ ^ 2
    + 1 / 2 * ∑ k ∈ S, ((δ 0 * k 0) ^ 2 + (δ 1 * k 1) ^ 2) ^ 2 * ‖z k‖ ^ 2
    + 1 / 4 * ∑ k ∈ G, ((δ 0 * k 0) ^ 2 + (δ 1 * k 1) ^ 2) ^ 2 * ‖chi k‖ ^ 2

end

end Verif.Energy
