import Verif.Loading.Model

/-!
# Specification: what the user expects from the results on the disk
-/

namespace Verif.Loading.Spec

open RunDirs (Path Fs hasDir content)
open PhysFiles (Str)

/-- A directory is kept: it is still there and its files, except `files`, contain what they contained, possibly followed by
new records. -/
def Extends (files : List Str) (fs fs' : Fs Dir) : Prop :=
  ∀ p d, content fs p = some d → ∃ d', content fs' p = some d' ∧ ∀ f, f ∉ files → d f <+: d' f

/-- The directories other than `p` are unchanged. -/
def OthersKept (p : Path) (fs fs' : Fs Dir) : Prop :=
  ∀ q, q ≠ p → ∀ d, content fs q = some d → content fs' q = some d

end Verif.Loading.Spec
