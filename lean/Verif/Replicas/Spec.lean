import Verif.Symmetry.SpecMirror

/-!
# C107: specification

A periodic flow in a small box is also a flow in the box made of several copies of the small box.
-/

namespace Verif.Replicas

open Verif.Fourier Verif.Energy Verif.Schemes Verif.EndToEnd Verif.Symmetry Finset

noncomputable section

variable {D V : Type*} [Fintype D]

/-- The mode of the large box which is the mode `k` of the small box: with `m d` copies in the direction `d`, `m d` times more wavelengths. -/
def times (m : D → ℕ) (k : D → ℤ) : D → ℤ := fun d => m d * k d

/-- The fields in the large box which repeat those of the small box (see `C107_copies`). -/
def copies (m : D → ℕ) (u : V → Fld D) : V → Fld D := fun v q => if ∀ d, (m d : ℤ) ∣ q d then u v fun d => q d / m d else 0

/-- The smallest wavenumbers of the small box: its lengths are those of the large box divided by `m d`. -/
def small (m : D → ℕ) (δ : D → ℝ) : D → ℝ := fun d => m d * δ d

/-- The two simulations keep the same waves of the small box. -/
def SameWaves (m : D → ℕ) (S S' : Finset (D → ℤ)) : Prop := ∀ k, times m k ∈ S' ↔ k ∈ S

/-- The same scheme and time steps, and phase shifts which are the same for the same waves. -/
def CopyNumerics (m : D → ℕ) (c c' : Numerics D V) : Prop :=
  c'.sc = c.sc ∧ c'.cfl = c.cfl ∧ c'.dt = c.dt ∧
    ∀ j k, c'.ps j (times m k) = c.ps j k ∧ c'.pa j (times m k) = c.pa j k ∧ c'.pb j (times m k) = c.pb j k

end

end Verif.Replicas
