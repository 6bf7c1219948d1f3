import Verif.TimeLoop.Model
import Verif.Schemes.Model
import Verif.Cfl.Model
import Verif.Fourier.Model

/-!
# A simulation which is stopped and restarted from one of its files (C82)

The parts modelled elsewhere are put together: the time loop (`Verif.TimeLoop`), the time schemes with their work
arrays and the cache of the coefficients (`Verif.Schemes`), the time increment (`Verif.Cfl`), the saving of states
(`base/output/phys_fields.py`) and the loading (`base/init_fields.py`).

What a solver computes is a parameter (`Solver`). Arrays are functions of an index; numbers are real and complex
numbers (floats idealised: the text and binary files lose nothing). One process.
-/

namespace Verif.Continuation

open Verif Schemes

noncomputable section

/-- What the time loop uses of a solver: the scheme, the linear frequencies (pseudo_spect.py 179-189), the truncated
modes, the phase shift, the random phase shifts of the draw number `n`, the tendencies (with the array of the
forcing), the forcing as a function of the time and of the state, `statephys_from_statespect`,
`statespect_from_statephys`, the test of nan (pseudo_spect.py 242-243) and the increment of the CFL condition
`maybe_new_dt` (base/time_stepping/base.py 345-350). -/
structure Solver (ι Φ : Type*) where
  scheme : Scheme
  freq : Arr ι
  mask : ι → Bool
  ps : Arr ι
  rnd : ℕ → Arr ι × Arr ι
  tend : Arr ι → Bool → Arr ι → Arr ι
  force : ℝ → Arr ι → Arr ι
  toPhys : Arr ι → Φ
  toSpect : Φ → Arr ι
  isNan : Arr ι → Bool
  dtCfl : Φ → ℝ

/-- A saved state: "time", "it" and the arrays of "/state_phys" (util/output.py 109-123). -/
structure File (Φ : Type*) where
  t : ℝ
  it : ℕ
  phys : Φ

/-- The simulation seen from the time loop: the arrays of the time stepping, `state_phys`, the array of the forcing,
the number of random draws and the saved files. -/
structure Sim (ι Φ : Type*) where
  ts : TS ι
  phys : Φ
  force : Arr ι
  draws : ℕ
  files : List (File Φ)

/-- Contents of the memory which is not initialised (`np.empty_like`) or not related to the previous run. -/
structure Garbage (ι : Type*) where
  heap : Heap ι
  g1 : Arr ι
  g2 : Arr ι
  force : Arr ι
  draws : ℕ

variable {ι Φ : Type*}

/-- The functions called by `one_time_step` (base/time_stepping/base.py 208-244): the CFL condition (341-354), the
forcing, the output, which saves `state_phys` when `sched` decides (base/output/phys_fields.py 130-190; `sched` is
any function of the files saved before, of the time and of the iteration) and the computation
(pseudo_spect.py 236-243). -/
def calls (S : Solver ι Φ) (forcingEnabled : Bool) (sched : List (File Φ) → ℝ → ℕ → Bool) :
    TimeLoop.Calls (Sim ι Φ) ℝ where
  incrementCFL s dt := Cfl.hysteresis dt (S.dtCfl s.phys)
  forcing s t := { s with force := S.force t (s.ts.heap .state) }
  output s t it := if sched s.files t it then { s with files := s.files ++ [⟨t, it, s.phys⟩] } else s
  compute s _ dt :=
    let ts := oneStep S.scheme (S.tend (if forcingEnabled then s.force else 0)) S.mask S.ps (S.rnd s.draws).1
      (S.rnd s.draws).2 s.ts dt
    let u := ts.heap .state
    if S.isNan u then .error "ValueError: nan"
    else .ok { s with ts := ts, phys := S.toPhys u, draws := s.draws + 1 }

/-- A simulation just before the main loop: the spectral state `u` and the physical state computed from it, the time
increment `deltat0` (base/time_stepping/base.py 264-267), a new object for the coefficients
(pseudo_spect.py 106-120) and no stop request (base.py 100-104). -/
def launch (S : Solver ι Φ) (useCFL : Bool) (dt0 : ℝ) (g : Garbage ι) (t : ℝ) (it : ℕ) (u : Arr ι) :
    TimeLoop.St (Sim ι Φ) ℝ :=
  TimeLoop.fresh
    { ts := ⟨g.heap.set .state u, Coefs.init S.freq useCFL dt0 g.g1 g.g2⟩
      phys := S.toPhys u, force := g.force, draws := g.draws, files := [] } t it dt0

/-- `InitFieldsFromFile` (base/init_fields.py 257-297): `state_phys` is read, `statespect_from_statephys` then
`statephys_from_statespect`, the time and the iteration of the file. -/
def restart (S : Solver ι Φ) (useCFL : Bool) (dt0 : ℝ) (g : Garbage ι) (f : File Φ) : TimeLoop.St (Sim ι Φ) ℝ :=
  launch S useCFL dt0 g f.t f.it (S.toSpect f.phys)

/-- The file written at the end of a run (`end_of_simul`, base/output/base.py 466-475, saves the last state). -/
def finalFile (s : TimeLoop.St (Sim ι Φ) ℝ) : File Φ := ⟨s.t, s.it, s.sim.phys⟩

/-! ### Real fields on a periodic grid -/

variable {D V : Type*} [Fintype D] [DecidableEq D]

/-- `ifft_as_arg` for each variable: the real fields on the points of the grid (base/state.py 326-332). The arrays of
Fourier modes are on all the wavenumbers of a set `M`, with both signs of kx. -/
def fieldsOf (n : D → ℕ) (M : Finset (D → ℤ)) (u : Arr (V × (D → ℤ))) : V → Fourier.Pt n → ℝ :=
  fun v j => (Fourier.gridVal n M (fun k => u (v, k)) j).re

/-- `fft_as_arg` for each variable (base/state.py 318-324). -/
def modesOf (n : D → ℕ) (M : Finset (D → ℤ)) [DecidableEq (D → ℤ)] (x : V → Fourier.Pt n → ℝ) :
    Arr (V × (D → ℤ)) :=
  fun q => if q.2 ∈ M then Fourier.fftCoef n (fun j => (x q.1 j : ℂ)) q.2 else 0

end

end Verif.Continuation
