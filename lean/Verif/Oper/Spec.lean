import Verif.Fourier.Model
import Verif.Oper.Model

/-! # C91: specification -/

namespace Verif.Oper

open Verif.Fourier

noncomputable section

/-- The mean of a field over the direction `d`, at a grid point: the mean over the points which differ from it only by their coordinate in
this direction. -/
def meanAlong {D : Type*} [DecidableEq D] {n : D → ℕ} (d : D) (x : Pt n → ℂ) (j : Pt n) : ℂ :=
  (∑ i : Fin (n d), x (Function.update j d i)) / n d

/-- The numbers of points are integers. -/
def Integers {D : Type*} (p : Params D) : Prop := ∀ d, ∃ m : ℤ, p.n d = m

/-- The shapes of truncation which exist. -/
def knownShape : Option String → Prop
  | none => True
  | some s => s = "cubic" ∨ s = "spherical" ∨ s = "no_multiple_aliases"

/-- The modes removed because of the shape of the truncation. -/
def RemovedByShape {D : Type*} [Fintype D] (cubic : Set (D → ℤ)) (p : Params D) (n : D → ℕ) (x : D) (k : D → ℤ) : Prop :=
  ((p.shape = none ∨ p.shape = some "cubic") ∧ k ∈ cubic) ∨
  (p.shape = some "spherical" ∧ ¬keptSpherical (deltak p) n x p.coef k) ∨
  (p.shape = some "no_multiple_aliases" ∧ ¬keptNoMultipleAliases (deltak p) n x (some p.coef) k)

end

end Verif.Oper
