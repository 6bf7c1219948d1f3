import Verif.Forcing.Model

/-!
# Specification vocabulary for the forcings
-/

namespace Verif.Forcing

noncomputable section

/-- The quadratic quantity of a field: half the sum over the wavenumbers of the squared modulus. -/
def quad {ι : Type*} [Fintype ι] (w : ι → ℝ) (v : ι → ℂ) : ℝ := ∑ i, w i * ‖v i‖ ^ 2 / 2

/-- Mean input of the quadratic quantity during one explicit step of length `dt` with the forcing
`f` alone. -/
def energyInput {ι : Type*} [Fintype ι] (w : ι → ℝ) (dt : ℝ) (v f : ι → ℂ) : ℝ :=
  (quad w (fun i => v i + dt * f i) - quad w v) / dt

/-- Kinetic energy of a field of vorticity: half the sum of `|rot|^2 / k^2` over the modes with
non-zero wavenumber. -/
def energyK {ι : Type*} [Fintype ι] (w kx ky : ι → ℝ) (rot : ι → ℂ) : ℝ :=
  ∑ i, w i * (if kx i ^ 2 + ky i ^ 2 = 0 then 0 else ‖rot i‖ ^ 2 / (kx i ^ 2 + ky i ^ 2)) / 2

/-- Potential energy: half the sum of `|b|^2 / N^2`. -/
def energyA {ι : Type*} [Fintype ι] (w : ι → ℝ) (N : ℝ) (b : ι → ℂ) : ℝ :=
  ∑ i, w i * ‖b i‖ ^ 2 / N ^ 2 / 2

/-- The same quantity on positions. -/
def quadXY (w : ℕ → ℝ) (nky nkx : ℕ) (v : ℕ → ℕ → ℂ) : ℝ :=
  ∑ ix ∈ Finset.range nkx, ∑ iy ∈ Finset.range nky, w ix * ‖v iy ix‖ ^ 2 / 2

/-- Mean input during one step. -/
def energyInputXY (w : ℕ → ℝ) (nky nkx : ℕ) (dt : ℝ) (v f : ℕ → ℕ → ℂ) : ℝ :=
  (quadXY w nky nkx (fun y x => v y x + dt * f y x) - quadXY w nky nkx v) / dt

/-- The stored half spectrum is that of a real field: on the two columns `kx = 0` and `kx` maximal,
opposite rows hold conjugate values. -/
def RealField (nky nkx : ℕ) (v : ℕ → ℕ → ℂ) : Prop :=
  ∀ ix, ix = 0 ∨ ix = nkx - 1 → (v 0 ix).im = 0 ∧
    ∀ iy, 0 < iy → iy < nky → v (nky - iy) ix = (starRingEnd ℂ) (v iy ix)

/-- A sequence of calls of `compute` at given times: the forcings after each call and the times at
which the maker was called. -/
def cacheRun {F : Type} (maker : ℝ → F → F) : List ℝ → Cache F → List F × List ℝ
  | [], _ => ([], [])
  | t :: ts, s =>
    let (s', called) := computeCached maker t s
    let (fs, cs) := cacheRun maker ts s'
    (s'.forcing :: fs, if called then t :: cs else cs)

end

end Verif.Forcing

namespace Verif.Forcing

noncomputable section

/-- A run of the time-correlated forcing in which other code uses the global generator after each
call (as the choice of the particular mode, fluidsim/base/forcing/specific.py 553). -/
def tcrRunNoise {G F : Type} [AddCommGroup F] [Module ℝ F] (r : Rng G F) (hasToSave : Bool)
    (period : ℝ) : List (ℝ × (G → G)) → Tcr G F → Tcr G F × List F
  | [], s => (s, [])
  | (t, noise) :: ts, s =>
    let (s', f) := tcrEach r hasToSave period t s
    let (s'', fs) := tcrRunNoise r hasToSave period ts { s' with g := noise s'.g }
    (s'', f :: fs)

/-- Contents of the file at the possible crash points of `_save_state`: before, after the truncation
by `open(..., "w")`, after the write. -/
def crashPoints (old : StateFile) (tlc : ℝ) (s0 s1 : ℕ) : List StateFile :=
  [old, .empty, .written tlc s0 s1]

end

end Verif.Forcing
