import Verif.Probes.Model

/-! # Specification for C93: the probes -/

namespace Verif.Probes

/-- The points of a block, as indices of the grid. -/
def Block.Has (b : Block) (g : ℕ × ℕ × ℕ) : Prop :=
  (b.z.lo ≤ g.1 ∧ g.1 < b.z.lo + b.z.len) ∧ (b.y.lo ≤ g.2.1 ∧ g.2.1 < b.y.lo + b.y.len) ∧ (b.x.lo ≤ g.2.2 ∧ g.2.2 < b.x.lo + b.x.len)

/-- The points of the grid. -/
def Setup.Has (s : Setup) (g : ℕ × ℕ × ℕ) : Prop := g.1 < s.az.n ∧ g.2.1 < s.ay.n ∧ g.2.2 < s.ax.n

/-- The grid is shared between the processes. -/
structure Shared (s : Setup) (bs : List Block) : Prop where
  inside : ∀ b ∈ bs, ∀ g, b.Has g → s.Has g
  cover : ∀ g, s.Has g → ∃ b ∈ bs, b.Has g

/-- Positive grid spacings. -/
def Setup.Ok (s : Setup) : Prop := 0 < s.az.delta ∧ 0 < s.ay.delta ∧ 0 < s.ax.delta

/-- The position of a point of the grid. -/
def Setup.position (s : Setup) (g : ℕ × ℕ × ℕ) : ℚ × ℚ × ℚ := (s.az.delta * g.1, s.ay.delta * g.2.1, s.ax.delta * g.2.2)

/-- The positions of the probes: those written in the datasets `z`, `y` and `x` of the files, for the cell `c` of the arrays. -/
def Setup.probeAt (s : Setup) (c : ℕ × ℕ × ℕ) (q : ℚ × ℚ × ℚ) : Prop :=
  (seq s.az s.pz)[c.1]? = some q.1 ∧ (seq s.ay s.py)[c.2.1]? = some q.2.1 ∧ (seq s.ax s.px)[c.2.2]? = some q.2.2

/-- The array which is wanted for the field `u`: at each probe which is at a point of the grid the value of the field at this point; nothing elsewhere. -/
def Setup.Wanted {V : Type*} (s : Setup) (u : ℕ × ℕ × ℕ → V) (a : Arr V) : Prop :=
  (∀ c g, s.Has g → s.probeAt c (s.position g) → a c = some (u g)) ∧
  (∀ c, (∀ g, s.Has g → ¬s.probeAt c (s.position g)) → a c = none)

/-- The states saved by one process: the same for all of them, divided into files (never empty) in a way which can depend on the process. -/
def Divided {V : Type*} (hist : List (ℚ × (ℕ × ℕ × ℕ → V))) (chunks : List (List (ℚ × (ℕ × ℕ × ℕ → V)))) : Prop :=
  chunks.flatten = hist ∧ ∀ ch ∈ chunks, ch ≠ []

end Verif.Probes
