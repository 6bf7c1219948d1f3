import Mathlib.Algebra.BigOperators.Fin
import Mathlib.Analysis.SpecialFunctions.Complex.Circle
import Mathlib.Algebra.Order.Floor.Ring
import Mathlib.Algebra.Order.Archimedean.Real.Basic
import Verif.Increm.Model

/-!
Model of the spectra computed from the loaded series
(/repo/fluidsim/base/output/spatiotemporal_spectra.py 643-680, 701-825, 917-960, 1194-1230;
/repo/fluidsim/base/output/temporal_spectra.py 513-570;
/repo/fluidsim/solvers/ns3d/output/spatiotemporal_spectra.py 29-95;
/repo/fluidsim/solvers/ns2d/output/spatiotemporal_spectra.py 27-85).
Real numbers instead of floats.
-/

namespace Verif.SpatioTemporal

open Finset

noncomputable section

/-! ### Periodogram -/

/-- Discrete Fourier transform of a time series, as in `scipy.signal.periodogram`. -/
def dft (n : ℕ) (x : Fin n → ℂ) (m : Fin n) : ℂ :=
  ∑ j : Fin n, x j * Complex.exp (-(2 * Real.pi * Complex.I * (((m : ℕ) : ℂ) * ((j : ℕ) : ℂ) / n)))

/-- `scipy.signal.periodogram(data, scaling="spectrum", detrend=False,
return_onesided=False)` with the default boxcar window (contract): `|X_m|² / n²`. -/
def periodogram (n : ℕ) (x : Fin n → ℂ) (m : Fin n) : ℝ := Complex.normSq (dft n x m) / (n : ℝ) ^ 2

/-- `_compute_spectrum(data)` (spatiotemporal_spectra.py 643-659, temporal_spectra.py 513-530).
`cache` is the value of the attribute `domega` of the object (`none`: not yet set),
`fs = 1 / period_save`. Returns the spectrum and the new value of the attribute. -/
def computeSpectrum (fs : ℝ) (cache : Option ℝ) (n : ℕ) (x : Fin n → ℂ) : (Fin n → ℝ) × Option ℝ :=
  let domega := cache.getD (2 * Real.pi * fs / n)
  (fun m => periodogram n x m / domega, some domega)

/-! ### One-sided frequencies -/

/-- The one-sided spectrum of the spatiotemporal spectra (spatiotemporal_spectra.py 791-813,
1207-1227; ns3d spatiotemporal_spectra.py 72-79) of a spectrum `s` with `n` frequencies: number of
frequencies `(n + 1) // 2` and values (`s[-i]` is `s[n - i]`). -/
def oneSided (n : ℕ) (s : ℕ → ℝ) : ℕ × (ℕ → ℝ) :=
  ((n + 1) / 2, fun i => if i = 0 then s 0 else s i + s (n - i))

/-- The one-sided spectrum of the temporal spectra (temporal_spectra.py 551-558). -/
def oneSidedT (n : ℕ) (s : ℕ → ℝ) : ℕ × (ℕ → ℝ) :=
  (n / 2 + 1, fun i => if i = 0 then s 0 else s i + s (n - i))

/-- `freq` of `scipy.signal.periodogram(..., return_onesided=False)` (contract):
`0, 1, ..., (n-1)/2, -n/2, ..., -1` in units of `fs / n`. -/
def fftFreq (fs : ℝ) (n i : ℕ) : ℝ :=
  if i < (n + 1) / 2 then i * (fs / n) else ((i : ℝ) - n) * (fs / n)

/-- Total over the frequencies of a one-sided spectrum. -/
def total (s : ℕ × (ℕ → ℝ)) : ℝ := ∑ i ∈ range s.1, s.2 i

/-! ### Sums over the wavenumbers -/

/-- One cell of the spectral arrays: the wavenumbers `KX`, `KZ`, `KH` and the spectrum at one
frequency. -/
structure Mode where
  kx : ℝ
  kz : ℝ
  kh : ℝ
  v : ℝ

/-- `_sum_wavenumber3D`, `_sum_wavenumber2D` (ns3d spatiotemporal_spectra.py 83-94, ns2d 74-84) at
one frequency. `unit` converts `KX` of the mode in the numbers given to the function. -/
def sumWavenumber (unit kxMax : ℝ) (modes : List Mode) : ℝ :=
  modes.foldl (fun r m =>
    let kx := m.kx / unit
    r + if kx ≠ 0 ∧ kx ≠ kxMax then 2 * m.v else m.v) 0

/-- The call in `save_spectra_kzkhomega` (spatiotemporal_spectra.py 763-764, 806): `KX` and
`kx_max = nx // 2 * deltakx` have dimensions. -/
def tspectrumSave (nx : ℕ) (deltakx : ℝ) (modes : List Mode) : ℝ :=
  sumWavenumber 1 ((nx / 2 : ℕ) * deltakx) modes

/-- The call in `compute_temporal_spectra` (spatiotemporal_spectra.py 1211-1220): `KX` is
`K{order[-1]}_adim`, without dimension, and `kx_max` has one. -/
def tspectrumCompute (nx : ℕ) (deltakx : ℝ) (modes : List Mode) : ℝ :=
  sumWavenumber deltakx ((nx / 2 : ℕ) * deltakx) modes

/-- `spectrum_kzkhomega[ikz, ikh, i] += value` at one frequency. -/
def addAt (S : ℕ → ℕ → ℝ) (ikz ikh : ℕ) (v : ℝ) : ℕ → ℕ → ℝ :=
  fun a b => if a = ikz ∧ b = ikh then S a b + v else S a b

/-- Body of the loop of `compute_spectrum_kzkhomega` (ns3d spatiotemporal_spectra.py 42-70, ns2d
39-62); `int` of a non-negative number is its floor, `round` rounds half to even. -/
def addMode (nkz nkh : ℕ) (dkz dkh : ℝ) (S : ℕ → ℕ → ℝ) (m : Mode) : ℕ → ℕ → ℝ :=
  let value := if m.kx ≠ 0 then 2 * m.v else m.v
  let ikh := ⌊m.kh / dkh⌋₊
  let ikz := (Increm.npRound (|m.kz| / dkz)).toNat
  let ikz := if ikz ≥ nkz - 1 then nkz - 1 else ikz
  if ikh ≥ nkh - 1 then addAt S ikz (nkh - 1) value
  else
    let c := (m.kh - dkh * ikh) / dkh
    addAt (addAt S ikz ikh ((1 - c) * value)) ikz (ikh + 1) (c * value)

/-- `compute_spectrum_kzkhomega` at one frequency, before the folding of the frequencies, with
`khs = deltakh * arange(nkh)` and `kzs = deltakz * arange(nkz)`. -/
def kzkh (nkz nkh : ℕ) (dkz dkh : ℝ) (modes : List Mode) : ℕ → ℕ → ℝ :=
  fun a b => (modes.foldl (addMode nkz nkh dkz dkh) fun _ _ => 0) a b / (dkz * dkh)

/-! ### Empirical frequency -/

/-- `omega_emp` of `compute_omega_emp_vs_kzkh` (spatiotemporal_spectra.py 945-951) at one
`(kz, kh)`. -/
def omegaEmp (n : ℕ) (omega S : ℕ → ℝ) : ℝ :=
  (∑ i ∈ range n, omega i * S i) / ∑ i ∈ range n, S i

/-- `delta_omega_emp` (953-959). -/
def deltaOmegaEmp (n : ℕ) (omega S : ℕ → ℝ) : ℝ :=
  Real.sqrt ((∑ i ∈ range n, (omega i - omegaEmp n omega S) ^ 2 * S i) / ∑ i ∈ range n, S i)

end

/-! ### Names of the files of spectra -/

/-- A file `periodogram_[temporal_]<tmin>_<tmax>[_<dtype>][_urud].h5`. -/
structure PFile where
  temporal : Bool
  tmin : ℚ
  tmax : ℚ
  dtype : Option String
  urud : Bool
  deriving DecidableEq, Repr

/-- The pattern `_complete_name("periodogram_*_*", dtype, save_urud)`
(spatiotemporal_spectra.py 701-706, 716): the end of the name has to be
`[_<dtype>][_urud].h5` and `*` matches anything, in particular numbers followed by more
suffixes. -/
def globMatch (dtype : Option String) (urud : Bool) (f : PFile) : Bool :=
  match dtype, urud with
  | none, false => true
  | none, true => f.urud
  | some d, false => f.dtype == some d && !f.urud
  | some d, true => f.dtype == some d && f.urud

/-- `_get_path_saved_spectra` (spatiotemporal_spectra.py 710-726), for the files of the directory
in the order of `glob`. -/
def getPath (dir : List PFile) (tmin tmax : ℚ) (dtype : Option String) (urud : Bool) : PFile :=
  match dir.find? fun f =>
    globMatch dtype urud f && !f.temporal && f.tmin == tmin && f.tmax == tmax with
  | some f => f
  | none => ⟨false, tmin, tmax, dtype, urud⟩

/-- `_get_path_saved_tspectra` (spatiotemporal_spectra.py 728-742). -/
def getPathT (dir : List PFile) (tmin tmax : ℚ) (dtype : Option String) (urud : Bool) : PFile :=
  match dir.find? fun f =>
    globMatch dtype urud f && f.temporal && f.tmin == tmin && f.tmax == tmax with
  | some f => f
  | none => ⟨true, tmin, tmax, dtype, urud⟩

/-! ### Single precision times -/

/-- A number in `[1/2, 1)` written in the dataset `times`, which `create_dataset("times", (1,),
maxshape=(None,))` (spatiotemporal_spectra.py 420, temporal_spectra.py 348) makes of single
precision: 24 bits, rounded to the nearest. -/
def f32Half (q : ℚ) : ℚ := ⌊q * 2 ^ 24 + 1 / 2⌋ / 2 ^ 24

end Verif.SpatioTemporal
