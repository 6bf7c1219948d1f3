import Verif.Xmf.Model

/-! Specification vocabulary for C78: what a reader of the xmf file finds. -/

namespace Verif.Xmf

variable {K : Type*} [Field K] [LinearOrder K]

/-- The shape of the datasets of a file, and the length of the domain along each axis, slowest index first. -/
def axes (f : File K) : List (ℕ × K) := f.z.toList ++ f.y.toList ++ [f.x]

/-- The number of dimensions of a file. -/
def TwoD (f : File K) : Prop := f.y.isSome = true ∧ f.z = none
def ThreeD (f : File K) : Prop := f.y.isSome = true ∧ f.z.isSome = true
def OneD (f : File K) : Prop := f.y = none ∧ f.z = none

/-- The position given by the xmf file for the point of index `i` along the axis `d`. -/
def position (g : Grid K) (d i : ℕ) : Option K :=
  match g.origins[d]?, g.deltas[d]? with
  | some o, some h => some (o + i * h)
  | _, _ => none

/-- The dataset exists. -/
def Exists (files : List (File K)) (r : Ref) : Prop := ∃ f ∈ files, f.name = r.file ∧ r.key ∈ f.keys

/-- Files of one simulation: the same grid and the same variables. -/
def OneRun (files : List (File K)) : Prop :=
  (files.map File.name).Nodup ∧ ∀ f ∈ files, ∀ g ∈ files, f.x = g.x ∧ f.y = g.y ∧ f.z = g.z ∧ f.keys = g.keys

/-- The grid describes the file: time up to half a billionth, the shape of the datasets and, for each axis, the
positions `i L / n`; each variable is a scalar which refers to the dataset of this variable in this file. -/
structure Describes (g : Grid K) (f : File K) : Prop where
  time : |g.time - f.time| ≤ 1 / (2 * 10 ^ 9)
  shape : g.dims = (axes f).map Prod.fst
  ndim : g.ndim = (axes f).length
  position : ∀ (d n : ℕ) (L : K), (axes f)[d]? = some (n, L) → ∀ i : ℕ, Xmf.position g d i = some ((i : K) * (L / (n : K)))
  scalars : ∀ k r, (k, r) ∈ g.scalars ↔ k ∈ f.keys ∧ r = ⟨f.name, k⟩

end Verif.Xmf
