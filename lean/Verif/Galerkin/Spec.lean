import Verif.Galerkin.Model
import Verif.Fourier.Spec
import Verif.Energy.Spec

/-!
# Specification for C57: the equations, truncated to the modes of `S`

`exactProduct S u v k` is the coefficient `k` of the product of the two trigonometric polynomials with
coefficients `u` and `v` on `S` (no grid).
-/

namespace Verif.Galerkin

open Verif.Fourier Verif.Energy Verif.Vectors Finset

noncomputable section

variable {D : Type*} [Fintype D] [DecidableEq D]

/-- The grid is fine enough for the quadratic terms: the sum of two kept modes is not seen as another
kept mode, and two kept modes are not seen as the same one. -/
structure NoAlias (n : D → ℕ) (S : Finset (D → ℤ)) : Prop where
  sum : ∀ p ∈ S, ∀ q ∈ S, ∀ k ∈ S, Seen n p q k → p + q = k
  distinct : Distinct n S

/-- `∂_d a`. -/
def pd (δ : D → ℝ) (d : D) (a : Fld D) : Fld D := fun k => Complex.I * ((δ d * k d : ℝ) : ℂ) * a k

/-- `(u · ∇) a`. -/
def advect (S : Finset (D → ℤ)) (δ : D → ℝ) (u : D → Fld D) (a : Fld D) (k : D → ℤ) : ℂ :=
  ∑ d, exactProduct S (u d) (pd δ d a) k

/-- `(ux, uy)` is the velocity of the flow with the vorticity `rot` and no mean velocity:
`∂x ux + ∂y uy = 0` and `∂x uy - ∂y ux = rot` for all modes but the mean. -/
structure Velocity2 (S : Finset (Fin 2 → ℤ)) (δ : Fin 2 → ℝ) (rot ux uy : Fld (Fin 2)) : Prop where
  div : ∀ k ∈ S, pd δ 0 ux k + pd δ 1 uy k = 0
  rot : ∀ k ∈ S, k ≠ 0 → pd δ 0 uy k - pd δ 1 ux k = rot k
  mean : ux 0 = 0 ∧ uy 0 = 0

/-- Components of the velocity in 3D. -/
def comp (v : (Fin 3 → ℤ) → V3) : Fin 3 → Fld (Fin 3)
  | 0 => fun k => (v k).x
  | 1 => fun k => (v k).y
  | 2 => fun k => (v k).z

/-- `-(v · ∇) v - f ez × v`. -/
def navierStokes (S : Finset (Fin 3 → ℤ)) (δ : Fin 3 → ℝ) (f : ℝ) (v : (Fin 3 → ℤ) → V3)
    (k : Fin 3 → ℤ) : V3 :=
  ⟨-advect S δ (comp v) (comp v 0) k + f * (v k).y,
   -advect S δ (comp v) (comp v 1) k - f * (v k).x,
   -advect S δ (comp v) (comp v 2) k⟩

/-! ### Plates -/

/-- Sums of two modes. -/
def sums (S : Finset (Fin 2 → ℤ)) : Finset (Fin 2 → ℤ) := (S ×ˢ S).image fun p => p.1 + p.2

/-- Coefficient `k` of the Monge-Ampère bracket `{a, b} = ∂xx a ∂yy b + ∂yy a ∂xx b - 2 ∂xy a ∂xy b` of
two trigonometric polynomials with modes in `S` and in `H`. -/
def bracket (S H : Finset (Fin 2 → ℤ)) (δ : Fin 2 → ℝ) (a b : Fld (Fin 2)) (k : Fin 2 → ℤ) : ℂ :=
  ∑ p ∈ S, ∑ q ∈ H, if p + q = k then
    pd δ 0 (pd δ 0 a) p * pd δ 1 (pd δ 1 b) q + pd δ 1 (pd δ 1 a) p * pd δ 0 (pd δ 0 b) q
      - 2 * pd δ 0 (pd δ 1 a) p * pd δ 0 (pd δ 1 b) q
  else 0

/-- `∇⁴`: `(∂xx + ∂yy)²`. -/
def bilap (δ : Fin 2 → ℝ) (a : Fld (Fin 2)) : Fld (Fin 2) :=
  let l := fun c : Fld (Fin 2) => fun k => pd δ 0 (pd δ 0 c) k + pd δ 1 (pd δ 1 c) k
  l (l a)

/-- Airy stress function: `∇⁴ χ = -{z, z}`, with no mean. -/
structure Airy (S : Finset (Fin 2 → ℤ)) (δ : Fin 2 → ℝ) (z chi : Fld (Fin 2)) : Prop where
  mean : chi 0 = 0
  eq : ∀ k ∈ sums S, bilap δ chi k = -bracket S S δ z z k

end

end Verif.Galerkin
