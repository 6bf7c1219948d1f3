import Verif.Increm.Model
import Verif.PhysFiles.Model
import Mathlib.Analysis.SpecialFunctions.Pow.Real

/-! # C102: the figures of the spectra

The curves drawn by the methods `plot*` of the outputs `spectra`. A point which is nan is `none`. Exact arithmetic; the reference lines, the
texts and the colors are not modelled. The values of the files are those of C61 and C65. -/

namespace Verif.SpecFigs

open Verif.PhysFiles (closest)
open Verif.Increm (npRound)

/-- A file of spectra of `m` wavenumbers: the times, the wavenumbers and one spectrum. -/
structure SpecFile (m : ℕ) where
  times : List ℝ
  ks : Fin m → ℝ
  spectra : List (Fin m → ℝ)

/-- `np.mean(times[1:] - times[0:-1])` (for example fluidsim/base/output/spectra.py 210). -/
noncomputable def meanStep (times : List ℝ) : ℝ :=
  (List.zipWith (fun a b => b - a) times times.tail).sum / (times.length - 1 : ℕ)

/-- `int(np.round(delta_t / delta_t_save))` (spectra.py 210-211): with less than two records the mean of an empty array is nan and `int(nan)`
raises. The argument is positive or zero. -/
noncomputable def stepOf (times : List ℝ) (dt : ℝ) : Except String ℕ :=
  if times.length < 2 then .error "ValueError" else .ok (npRound (dt / meanStep times)).toNat

/-- `range(imin_plot, imax_plot + 1, delta_i_plot)` for a step which is not zero (spectra.py 302). -/
def indices (imin imax step : ℕ) : List ℕ :=
  ((List.range (imax + 1 - imin)).filter fun j => j % step = 0).map (imin + ·)

/-- `ks_no0 ** coef_compensate`: nan for `k = 0` (spectra.py 286-289). -/
noncomputable def comp (coef k : ℝ) : Option ℝ := if k = 0 then none else some (k ^ coef)

/-- `spectrum * coef_norm`. -/
noncomputable def compensated {m : ℕ} (coef : ℝ) (ks : Fin m → ℝ) (s : Fin m → Option ℝ) (i : Fin m) : Option ℝ :=
  match s i, comp coef (ks i) with
  | some x, some c => some (x * c)
  | _, _ => none

/-- `spectrum[spectrum < 10e-16] = np.nan` (spectra.py 304, 347). -/
noncomputable def maskNan (x : ℝ) : Option ℝ := if x < 10e-16 then none else some x

/-- `spectrum[spectrum < 10e-16] = 0.0` (fluidsim/solvers/ns3d/output/spectra.py 250, 255). -/
noncomputable def maskZero (x : ℝ) : ℝ := if x < 10e-16 then 0 else x

/-- `dset[imin_plot : imax_plot + 1]`. -/
def slice {A : Type} (l : List A) (imin imax : ℕ) : List A := (l.take (imax + 1)).drop imin

/-- `.mean(0)`: nan without record. -/
noncomputable def average {m : ℕ} (l : List (Fin m → ℝ)) (i : Fin m) : Option ℝ :=
  if l = [] then none else some ((l.map (· i)).sum / l.length)

/-- The curve of the record number `i`. -/
noncomputable def recordCurve {m : ℕ} (mask : ℝ → Option ℝ) (coef : ℝ) (f : SpecFile m) (i : ℕ) : Option (Fin m → Option ℝ) :=
  (f.spectra[i]?).map fun s => compensated coef f.ks fun j => mask (s j)

/-- The curve of the average (spectra.py 338-363). -/
noncomputable def averageCurve {m : ℕ} (mask : ℝ → Option ℝ) (coef : ℝ) (f : SpecFile m) (imin imax : ℕ) : Fin m → Option ℝ :=
  compensated coef f.ks fun j => (average (slice f.spectra imin imax) j).bind mask

/-- A figure: the thin curves, with the number of the record and its transparency, and the thick curve. -/
structure Figure (m : ℕ) where
  thin : List (ℕ × ℝ × Option (Fin m → Option ℝ))
  thick : Option (Fin m → Option ℝ)

/-- `_plot_ndim_direction` (fluidsim/base/output/spectra.py 268-336). With `imax_plot = imin_plot` the slope of the transparency is infinite
and matplotlib refuses the transparency nan. -/
noncomputable def plotDirection {m : ℕ} (f : SpecFile m) (imin imax : ℕ) (step : Option ℕ) (withAverage : Bool) (coef : ℝ) :
    Except String (Figure m) :=
  let thick := if withAverage then some (averageCurve maskNan coef f imin imax) else none
  match step with
  | none => .ok ⟨[], thick⟩
  | some s =>
    if imax = imin then .error "ValueError"
    else
      let slope := (1.0 - 0.1 : ℝ) / ((imax : ℝ) - imin)
      let alpha0 := 0.1 - slope * imin
      .ok ⟨(indices imin imax s).map fun i => (i, alpha0 + slope * i, recordCurve maskNan coef f i), thick⟩

/-- `SpectraBase._plot_ndim` for one direction (spectra.py 159-266), used by `plot1d` and `plot2d` of ns2d and `plot1d` and `plot3d` of ns3d. -/
noncomputable def plotNdim {m : ℕ} (f : SpecFile m) (tmin : ℝ) (tmax dt : Option ℝ) (withAverage : Bool) (coef : ℝ) :
    Except String (Figure m) :=
  if f.times = [] then .error "ValueError"
  else
    let imin := closest f.times tmin
    let imax := closest f.times (tmax.getD (f.times.max?.getD 0))
    match dt with
    | none => plotDirection f imin imax none withAverage coef
    | some d =>
      if d = 0 then plotDirection f imin imax none withAverage coef
      else match stepOf f.times d with
        | .error e => .error e
        | .ok s => plotDirection f imin imax (some (if s = 0 then 1 else s)) withAverage coef

/-- `_plot_times` of ns3d (fluidsim/solvers/ns3d/output/spectra.py 165-278): the number of the color of a thin curve has to be smaller than the
number of records of the range. -/
noncomputable def plotTimes {m : ℕ} (f : SpecFile m) (tmin : ℝ) (tmax dt : Option ℝ) (onlyAverage : Bool) (coef : ℝ) :
    Except String (List (ℕ × Option (Fin m → Option ℝ)) × (Fin m → Option ℝ)) :=
  let imin := closest f.times tmin
  let imax := closest f.times (tmax.getD (f.times.max?.getD 0))
  let d := dt.getD (((f.times[imax]?).getD 0 - (f.times[imin]?).getD 0) / (min 20 f.times.length : ℕ))
  match stepOf f.times d with
  | .error e => .error e
  | .ok s0 =>
    let s := if s0 = 0 then 1 else s0
    if imax + 1 < imin then .error "ValueError"
    else
      let l := if onlyAverage then [] else indices imin imax s
      if imax + 1 - imin < l.length then .error "IndexError"
      else .ok (l.map fun i => (i, recordCurve (fun x => some (maskZero x)) coef f i), averageCurve (fun x => some (maskZero x)) coef f imin imax)

/-! ### sw1l and plate2d -/

/-- The sum of two arrays of numpy; `ValueError` if the lengths differ (there are at least two wavenumbers in each direction). -/
def addArrays {a b : ℕ} (x : Fin a → ℝ) (y : Fin b → ℝ) : Except String (Fin a → ℝ) :=
  if h : a = b then .ok fun i => x i + y (Fin.cast h i) else .error "ValueError"

/-- The file spectra1D.h5 of sw1l and plate2d for one energy: the spectra versus `kx` and versus `ky`. -/
structure SpecFile1d (a b : ℕ) where
  times : List ℝ
  kx : Fin a → ℝ
  ky : Fin b → ℝ
  spectraX : List (Fin a → ℝ)
  spectraY : List (Fin b → ℝ)

/-- `dset_spectrum1Dkx_EK[it] + dset_spectrum1Dky_EK[it]` for all the records. -/
def sumRecords {a b : ℕ} (f : SpecFile1d a b) : Except String (List (Fin a → ℝ)) :=
  (List.zipWith addArrays f.spectraX f.spectraY).mapM id

/-- `plot1d` of sw1l (fluidsim/solvers/sw1l/output/spectra.py 145-243) for one energy: the sums, drawn versus `kx`. -/
noncomputable def plot1dSw {a b : ℕ} (f : SpecFile1d a b) (tmin tmax dt coef : ℝ) :
    Except String (List (Fin a → ℝ) × (Fin a → Option ℝ)) := do
  let s0 ← stepOf f.times dt
  let s := if s0 = 0 ∧ dt ≠ 0 then 1 else s0
  let imin := closest f.times tmin
  let imax := closest f.times tmax
  let l ← sumRecords f
  let thin := if s * meanStep f.times ≠ 0 then (indices imin imax s).filterMap fun i => l[i]? else []
  .ok (thin.map fun v i => v i * f.kx i ^ coef, fun i => (average (slice l imin imax) i).map (· * f.kx i ^ coef))

/-- `plot1d` of plate2d (fluidsim/solvers/plate2d/output/spectra.py 72-144): the curves; the average is computed and not drawn. -/
noncomputable def plot1dPlate {a b : ℕ} (f : SpecFile1d a b) (tmin tmax dt coef : ℝ) :
    Except String (List (Fin a → ℝ) × Option (Fin a → Option ℝ)) := do
  let s0 ← stepOf f.times dt
  let dt' := meanStep f.times * s0
  let s := if s0 = 0 then 1 else s0
  let imin := closest f.times tmin
  let imax := closest f.times tmax
  let l ← sumRecords f
  let thin := if dt' ≠ 0 then (indices imin imax s).filterMap fun i => l[i]? else []
  .ok (thin.map fun v i => maskZero (v i) * (if f.kx i = 0 then 1e-15 else f.kx i) ^ coef, none)

/-- The file spectra2D.h5 of plate2d. -/
structure PlateFile (m : ℕ) where
  times : List ℝ
  ks : Fin m → ℝ
  EK : List (Fin m → ℝ)
  EL : List (Fin m → ℝ)
  EE : List (Fin m → ℝ)

/-- The thick curves of `plot2d` of plate2d (plate2d/output/spectra.py 146-237): red, blue and yellow. `EL[EK < 10e-16] = 0.0` and
`EE[EK < 10e-16] = 0.0` (lines 228-231). With one record, `delta_i_plot` is not defined. -/
noncomputable def plot2dPlate {m : ℕ} (f : PlateFile m) (tmin tmax coef : ℝ) :
    Except String ((Fin m → Option ℝ) × (Fin m → Option ℝ) × (Fin m → Option ℝ)) :=
  if f.times.length = 0 then .error "ValueError"
  else if f.times.length = 1 then .error "UnboundLocalError"
  else
    let imin := closest f.times tmin
    let imax := closest f.times tmax
    let c := fun i => (if f.ks i = 0 then (1e-15 : ℝ) else f.ks i) ^ coef
    let EK := fun i => (average (slice f.EK imin imax) i).map maskZero
    let cut := fun (i : Fin m) (x : ℝ) => match EK i with
      | some e => if e < 10e-16 then 0 else x
      | none => x
    let EL := fun i => (average (slice f.EL imin imax) i).map (cut i)
    let EE := fun i => (average (slice f.EE imin imax) i).map (cut i)
    .ok (fun i => (EK i).map (· * c i), fun i => (EL i).map (· * c i), fun i => (EE i).map (· * c i))

/-! ### ns2d.strat -/

/-- `load2d_means` and `plot2d` of ns2d.strat (fluidsim/solvers/ns2d/strat/output/spectra.py 337-410), for one spectrum: the argument
`coef_compensate` is not used. -/
noncomputable def plot2dStrat {m : ℕ} (f : SpecFile m) (tmin tmax dt _coef : ℝ) : Except String (Fin m → Option ℝ) := do
  let _ ← stepOf f.times dt
  .ok (average (slice f.spectra (closest f.times tmin) (closest f.times tmax)))

/-- The wavenumbers drawn by `plot1d` of ns2d.strat: `kx[:id_kx_dealiasing]` with `id_kx_dealiasing = argmin(abs(kx - kx.max() * coef)) - 1`
(ns2d/strat/output/spectra.py 205-217), without the first one for `NO_SHEAR_MODES` (219-224). A negative index removes the end. -/
noncomputable def drawnWavenumbers (kx : List ℝ) (coefDealiasing : ℝ) (noShear : Bool) : List ℝ :=
  let i := closest kx (kx.max?.getD 0 * coefDealiasing)
  let l := if i = 0 then kx.dropLast else kx.take (i - 1)
  if noShear then l.drop 1 else l

/-! ### ns3d -/

/-- The curves of `plot3d_cumul_diss` (fluidsim/solvers/ns3d/output/spectra.py 436-460) for the mean spectrum `E`: of `nu_2` and of `nu_4`. -/
noncomputable def cumulDiss {m : ℕ} (nu2 nu4 deltak : ℝ) (k E : Fin m → ℝ) : (Fin m → ℝ) × (Fin m → ℝ) :=
  let f2 := fun i => deltak * ∑ j ∈ Finset.univ.filter (· ≤ i), nu2 * k j ^ 2 * E j
  let f4 := fun i => deltak * ∑ j ∈ Finset.univ.filter (· ≤ i), nu4 * k j ^ 4 * E j
  let tot := deltak * ∑ j, nu2 * k j ^ 2 * E j + deltak * ∑ j, nu4 * k j ^ 4 * E j
  (fun i => f2 i / tot, fun i => f4 i / tot)

/-- The four curves of `plot_kzkh_cumul_diss` (fluidsim/solvers/ns3d/strat/output/spectra.py 172-224) for the mean spectrum `E`: versus `kh` and
`kz` for `nu_2`, then for `nu_4`. The number of wavenumbers is not zero. -/
noncomputable def cumulDissKzkh {mz mh : ℕ} (nu2 nu4 dkz dkh : ℝ) (kz : Fin mz → ℝ) (kh : Fin mh → ℝ) (E : Fin mz → Fin mh → ℝ) :
    (Fin mh → ℝ) × (Fin mz → ℝ) × (Fin mh → ℝ) × (Fin mz → ℝ) :=
  let d2 := fun z h => nu2 * (kh h ^ 2 + kz z ^ 2) * E z h
  let d4 := fun z h => nu4 * (kh h ^ 2 + kz z ^ 2) ^ 2 * E z h
  let ch := fun (d : Fin mz → Fin mh → ℝ) (i : Fin mh) => dkh * ∑ h ∈ Finset.univ.filter (· ≤ i), dkz * ∑ z, d z h
  let cz := fun (d : Fin mz → Fin mh → ℝ) (i : Fin mz) => dkz * ∑ z ∈ Finset.univ.filter (· ≤ i), dkh * ∑ h, d z h
  let tot := (dkh * ∑ h, dkz * ∑ z, d2 z h) + dkh * ∑ h, dkz * ∑ z, d4 z h
  (fun i => ch d2 i / tot, fun i => cz d2 i / tot, fun i => ch d4 i / tot, fun i => cz d4 i / tot)

/-- `kd_2`, `kd_4`, `kd_8` of `plot1d` of ns3d (fluidsim/solvers/ns3d/output/spectra.py 372-397): the exponents are `3/4`, `3/10`, `3/22`. -/
noncomputable def kd2 (nu P : ℝ) : ℝ := 1 / (nu / P ^ (1.0 / 3.0 : ℝ)) ^ (3.0 / 4.0 : ℝ)
noncomputable def kd4 (nu P : ℝ) : ℝ := 1 / (nu / P ^ (1.0 / 3.0 : ℝ)) ^ (3.0 / 10.0 : ℝ)
noncomputable def kd8 (nu P : ℝ) : ℝ := 1 / (nu / P ^ (1.0 / 3.0 : ℝ)) ^ (3.0 / 22.0 : ℝ)

/-- The bands of the forcing in the figure of `plot1d` of ns3d, for `tcrandom_anisotropic` (ns3d/output/spectra.py 318-341): the bounds of the
horizontal and of the vertical wavenumbers. -/
noncomputable def forcingBands (angle : ℝ) (deltaAngle : Option ℝ) (kfmin kfmax : ℝ) : (ℝ × ℝ) × (ℝ × ℝ) :=
  match deltaAngle with
  | none => ((Real.sin angle * kfmin, Real.sin angle * kfmax), (Real.cos angle * kfmin, Real.cos angle * kfmax))
  | some d => ((Real.sin (angle - 0.5 * d) * kfmin, Real.sin (angle + 0.5 * d) * kfmax),
      (Real.cos (angle + 0.5 * d) * kfmin, Real.cos (angle - 0.5 * d) * kfmax))

end Verif.SpecFigs
