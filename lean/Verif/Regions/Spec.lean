import Verif.Regions.Model
import Verif.Galerkin.Spec
import Verif.Reduce.Props

/-!
# Specification for C81

`whole` is the whole array: its row `i` contains the points at the index `i` of the x axis.
-/

namespace Verif.Regions

open Verif.Reduce

variable {K : Type} [Field K]

/-- The points with an index between `a` and `b` (included). -/
def points {β : Type} (whole : List (List β)) (a b : ℕ) : List β :=
  ((List.range' a (b + 1 - a)).map fun i => whole.getD i []).flatten

/-- The mean of `g` over a list of points. -/
def avg {β : Type} (g : β → K) (l : List β) : K := (l.map g).sum / (l.length : K)

/-- Mean over a region. -/
def avgRegion (whole : List (List (Cell K))) (r : ℕ × ℕ) (g : Cell K → K) : K := avg g (points whole r.1 r.2)

/-- What enters in the region through its two surfaces, for the transport of `g` by `vx`, divided by the length of
the region: the surfaces are the planes of the first and last indices, the region has the length
`(last - first) * dx`. -/
def enters (whole : List (List (Cell K))) (dx : K) (r : ℕ × ℕ) (g : Cell K → K) : K × K :=
  let s := fun i => avg (fun p => p.vx * g p) (whole.getD i [])
  (s r.1 / (((r.2 : K) - r.1) * dx), -(s r.2 / (((r.2 : K) - r.1) * dx)))

/-- The region is the whole domain. -/
def IsWhole {β : Type} (whole : List (List β)) (r : ℕ × ℕ) : Prop := r.1 = 0 ∧ r.2 + 1 = whole.length

/-- The processes have all the x axis (the distributions of the fft libraries over y and z). -/
def NotSplit {β : Type} (blocks : List (Block β)) (whole : List (List β)) : Prop :=
  ∀ b ∈ blocks, b.start = 0 ∧ b.rows.length = whole.length

end Verif.Regions

namespace Verif.Regions

open Verif.Fourier Verif.Energy Verif.Vectors Verif.Galerkin

noncomputable section

/-- `-∇P` for the coefficient `P` at the wavevector `k`. -/
def minusGrad (k : K3) (P : ℂ) : V3 := ⟨-(Complex.I * k.x * P), -(Complex.I * k.y * P), -(Complex.I * k.z * P)⟩

/-- The coefficient `k` of `|v|²/2`. -/
def halfSquare (S : Finset (Fin 3 → ℤ)) (v : (Fin 3 → ℤ) → V3) (k : Fin 3 → ℤ) : ℂ :=
  (exactProduct S (comp v 0) (comp v 0) k + exactProduct S (comp v 1) (comp v 1) k
    + exactProduct S (comp v 2) (comp v 2) k) / 2

end

end Verif.Regions
