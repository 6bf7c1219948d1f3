import Verif.SpatioTemporal.ModelValues
import Verif.CorrelFreq.Model
import Mathlib.Analysis.SpecialFunctions.Log.Base

/-!
# Frequency spectra of the time signals of the modes (C92)

`TimeSignalsK.compute_spectra` and `time_spectrum` (fluidsim/base/output/time_signals_fft.py 358-444). Real numbers instead of floats. The
transform of `easypyfft.FFTW1D` (fluiddyn) is divided by the number of points; it fails for an array of another size.
-/

namespace Verif.TimeSignals

open Verif.SpatioTemporal Verif.CorrelFreq Finset

noncomputable section

/-- `np.fix` followed by `int`. -/
def fix (x : ℝ) : ℤ := if 0 ≤ x then ⌊x⌋ else ⌈x⌉

/-- `nt` (388-394), for `Nt > 0` times; `2 ** e` is a float for a negative `e`, then replaced by 2. -/
def windowSize (Nt : ℕ) : ℕ :=
  let e := fix (Real.logb 2 ((Nt : ℝ) / 10))
  let nt : ℕ := if (2 : ℝ) ^ e < 2 then 2 else 2 ^ e.toNat
  if nt % 2 = 1 then nt - 1 else nt

/-- `self.deltaomega` (399-401); `t` are the times. -/
def deltaOmega (t : ℕ → ℝ) (nt : ℕ) : ℝ := 2 * Real.pi / (t (nt - 1) - t 0)

/-- `self.omega` (405). -/
def omega (t : ℕ → ℝ) (nt i : ℕ) : ℝ := deltaOmega t nt * i

/-- The values of `it0` in the loop of `time_spectrum` (360-366, 380). With `nt < 2` the loop would not end; here it is then empty (`nt` is
never smaller than 2). -/
def starts (nt Nt it0 : ℕ) : List ℕ :=
  if _h : 0 < nt / 2 ∧ it0 + nt < Nt then it0 :: starts nt Nt (it0 + nt / 2) else []
termination_by Nt - it0

/-- `spect_raw` (368-370) of the window which starts at `it0`. -/
def raw (dw : ℝ) (nt : ℕ) (sig : ℕ → ℂ) (it0 : ℕ) (m : ℕ) : ℝ :=
  if h : m < nt then
    Complex.normSq (dft nt (fun j => hanning nt j * sig (it0 + j)) ⟨m, h⟩ / nt) / 2 / dw
  else 0

/-- What one window adds to `spect` (371-379), for `0 <= i <= nt // 2`. -/
def folded (nt : ℕ) (s : ℕ → ℝ) (i : ℕ) : ℝ :=
  s i + (if nt % 2 = 0 then (if 1 ≤ i ∧ i < nt / 2 then s (nt - i) else 0) else (if 1 ≤ i ∧ i < nt / 2 + 1 then s (nt - i) else 0))

/-- `time_spectrum` (358-382); `none`: an array of nan (0 / 0). -/
def timeSpectrum (dw : ℝ) (nt Nt : ℕ) (sig : ℕ → ℂ) : Option (ℕ → ℝ) :=
  let l := starts nt Nt 0
  if l = [] then none else some fun i => (l.map fun it0 => folded nt (raw dw nt sig it0) i).sum / l.length

/-- The spectra of the loaded signals for one key and one shell (417-436): the mean over the signals of the shell; for the key `a`, the signals
are multiplied by `coef`. -/
def shellSpectrum (dw : ℝ) (nt Nt nbK : ℕ) (coef : ℝ) (sig : ℕ → ℕ → ℂ) (ish i : ℕ) : Option ℝ :=
  match (List.range nbK).mapM fun ikps => timeSpectrum dw nt Nt fun j => coef * sig (ish * nbK + ikps) j with
  | none => none
  | some l => some ((l.map fun s => s i).sum / nbK)

/-- The exceptions of `compute_spectra`. -/
inductive Err
  /-- `int(-inf)` (388), without any time -/
  | overflow
  /-- `t[nt - 1]` (399), with one time -/
  | index
  /-- the array is not of the size of the transform -/
  | shape
  deriving DecidableEq, Repr

/-- The size of the windows of one call of `compute_spectra` (384-407) and the size of `self.opfft1d` after the call; `cached` is its size
before the call, if it exists. The transform of a window fails if its size is another one (it is called if there is at least one window,
that is if `nt < Nt`). -/
def call (cached : Option ℕ) (Nt : ℕ) : Except Err (ℕ × ℕ) :=
  if Nt = 0 then .error .overflow
  else
    let nt := windowSize Nt
    let size := cached.getD nt
    if Nt ≤ nt - 1 then .error .index
    else if nt < Nt ∧ size ≠ nt then .error .shape
    else .ok (nt, size)

end

end Verif.TimeSignals
