import Verif.Spectra.Model

/-!
Model of the cross-correlations of the 3D solvers (/repo/fluidsim/base/output/cross_corr3d.py).
The files are those of the spectra (`BaseSpectra`, see `Verif.Spectra.Model`).
-/

namespace Verif.Spectra

/-- `_make_small_key` (cross_corr3d.py 21-25): without the last four characters (`_fft`), and
without the `v` of a velocity component. Strings are lists of characters. -/
def smallKey (key : List Char) : List Char :=
  let small := key.take (key.length - 4)
  if small.length = 2 && small.head? = some 'v' then small.drop 1 else small

/-- `itertools.combinations(keys, 2)` (cross_corr3d.py 36). -/
def combinations {A : Type*} : List A → List (A × A)
  | [] => []
  | a :: l => l.map (fun b => (a, b)) ++ combinations l

/-- Names of the cross-correlations (cross_corr3d.py 49). -/
def crossKeys (keys : List (List Char)) : List (List Char) :=
  (combinations keys).map fun p => smallKey p.1 ++ smallKey p.2

noncomputable section

/-- `cross_corr_tmp` (cross_corr3d.py 54) of one mode. -/
def crossMode (f g : ℂ) : ℝ := -((starRingEnd ℂ) f * g).re

/-- One of the spectra of `compute` (cross_corr3d.py 56-66): `sp` is fluidfft's function. -/
def crossSpectrum {M B : Type*} (sp : (M → ℝ) → B → ℝ) (f g : M → ℂ) : B → ℝ :=
  sp fun m => crossMode (f m) (g m)

end

end Verif.Spectra
