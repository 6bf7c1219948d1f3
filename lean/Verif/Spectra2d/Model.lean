import Verif.Spectra.Model
import Verif.SpatialMeans.Model
import Verif.Sw1l.Model

/-!
# The spectra of the 2D solvers (C65)

`fluidsim/base/output/spectra.py` (`spectra1D.h5` and `spectra2D.h5`),
`fluidsim/base/output/spectra_multidim.py` (`spectra_multidim.h5`), and the classes of ns2d, ns2d.strat,
plate2d and sw1l.

As in C61, a record is an element of an arbitrary type and one append to one file is atomic. The root
process is modelled (the others write nothing). The functions of fluidfft that make a spectrum from an
array of Fourier space are parameters (`sp`).
-/

namespace Verif.Spectra2d

open Verif.Spectra (Err slice mean)

/-! ## Files -/

section files

variable {R : Type*}

/-- The files of one output, in the order in which they are written: `spectra1D.h5` and `spectra2D.h5`
(spectra.py 384-387), or `spectra_multidim.h5` alone (spectra_multidim.py 51-53); `none`: no such
file. -/
abbrev Disk (R : Type*) := List (Option (List R))

/-- `_add_dict_arrays_to_file` on the files one after the other (spectra.py 411-414, 425-428;
spectra_multidim.py 72, 84), stopped after `m` of them; `ValueError` on a missing file
(base/output/base.py 646-647). -/
def addAll (r : R) : ℕ → Disk R → Disk R × Option Err
  | 0, d => (d, none)
  | _ + 1, [] => ([], none)
  | _ + 1, none :: d => (none :: d, some .value)
  | m + 1, some l :: d => ((some (l ++ [r]) :: (addAll r m d).1), (addAll r m d).2)

/-- `_create_file_from_dict_arrays` on the files one after the other (spectra.py 396-402;
spectra_multidim.py 62-64), stopped after `m` of them; nothing for a file that exists
(base/output/base.py 615-617). -/
def createAll (r : R) : ℕ → Disk R → Disk R
  | 0, d => d
  | _ + 1, [] => []
  | m + 1, none :: d => some [r] :: createAll r m d
  | m + 1, some l :: d => some l :: createAll r m d

/-- `_init_files` (spectra.py 389-416; spectra_multidim.py 55-74), stopped after `m` writings: the
existence of the first file decides. -/
def initFiles (r : R) (m : ℕ) : Disk R → Disk R × Option Err
  | some l :: d => addAll r m (some l :: d)
  | d => (createAll r m d, none)

/-- Life of a directory. `start r`: a process builds its output object, in the state `r`. `save r`: a
record is due. `killStart m r`, `killSave m r`: the process is killed in the course of these, after `m`
writings. -/
inductive Ev (R : Type*) where
  | start (r : R)
  | save (r : R)
  | killStart (m : ℕ) (r : R)
  | killSave (m : ℕ) (r : R)

/-- The disk, whether a process is alive, and the exceptions raised so far. -/
structure St (R : Type*) where
  disk : Disk R
  alive : Bool
  errs : List Err

/-- One event; an exception ends the process (spectra.py 389-429). -/
def step (s : St R) : Ev R → St R
  | .start r =>
    match initFiles r s.disk.length s.disk with
    | (d, none) => ⟨d, true, s.errs⟩
    | (d, some e) => ⟨d, false, s.errs ++ [e]⟩
  | .save r =>
    if s.alive then
      match addAll r s.disk.length s.disk with
      | (d, none) => ⟨d, true, s.errs⟩
      | (d, some e) => ⟨d, false, s.errs ++ [e]⟩
    else s
  | .killStart m r => ⟨(initFiles r m s.disk).1, false, s.errs⟩
  | .killSave m r => if s.alive then ⟨(addAll r m s.disk).1, false, s.errs⟩ else s

/-- A history from a directory without any of the `n` files. -/
def run (n : ℕ) (h : List (Ev R)) : St R := h.foldl step ⟨List.replicate n none, false, []⟩

end files

/-! ## Loading -/

/-- A file of spectra: its times, its axes of wavenumbers, and its other datasets, with one array (of
length `width`) per time. -/
structure File (Q : Type*) where
  times : List Q
  axes : List (String × List Q)
  data : List (String × ℕ × List (ℕ → Q))

/-- The averages of `load2d_mean`, `load1d_mean`, `SpectraMultiDim.load_mean`, for the datasets whose
name starts with `spectr` (spectra.py 485-490, 525-530; spectra_multidim.py 143-147). -/
def loadMean {Q : Type*} [Field Q] [LinearOrder Q] (f : File Q) (tmin tmax : Option Q) :
    List (String × ℕ × Option (ℕ → Q)) :=
  (f.data.filter fun d => d.1.startsWith "spectr").map fun d =>
    (d.1, d.2.1, mean (slice f.times d.2.2 tmin tmax))

/-- The result of `load1d_mean` (spectra.py 492-530): one axis, `kxE`, under the name `kh`, and the
averages; `KeyError` is `none`. -/
def load1dMean {Q : Type*} [Field Q] [LinearOrder Q] (f : File Q) (tmin tmax : Option Q) :
    Option (List Q × List (String × ℕ × Option (ℕ → Q))) :=
  (f.axes.lookup "kxE").map fun kx => (kx, loadMean f tmin tmax)

/-- The result of `load2d_mean` (spectra.py 452-490). -/
def load2dMean {Q : Type*} [Field Q] [LinearOrder Q] (f : File Q) (tmin tmax : Option Q) :
    Option (List Q × List (String × ℕ × Option (ℕ → Q))) :=
  (f.axes.lookup "khE").map fun kh => (kh, loadMean f tmin tmax)

/-- The exceptions of the functions which read the spectra: `int(nan)`, `int(inf)`, a name without
dataset, an unknown key, a variable without value. -/
inductive LoadErr where
  | value
  | overflow
  | key
  | unboundLocal
  deriving DecidableEq, Repr

/-- `int(np.round(delta_t / delta_t_save))` with `delta_t_save = np.mean(times[1:] - times[0:-1])`, as
far as it can fail: one record gives `nan`; equal first and last times give `inf`, or `nan` if
`delta_t = 0` (ns2d/strat/output/spectra.py 111-112; the same in plot1d and plot2d of sw1l and plate2d
and in `_plot_ndim` when `delta_t` is given). Rounding of the floats is left out. -/
def deltaI {Q : Type*} [Field Q] [DecidableEq Q] (round : Q → ℤ) (times : List Q) (dt : Q) :
    Except LoadErr ℤ :=
  if times.length ≤ 1 then .error .value
  else
    let d := (times.zip times.tail).map fun p => p.2 - p.1
    let save := d.sum / d.length
    if save = 0 then (if dt = 0 then .error .value else .error .overflow)
    else .ok (round (dt / save))

/-- One of the averages of `load1d_means` of ns2d.strat, by the name of the dataset
(ns2d/strat/output/spectra.py 121-160). -/
def means1 {Q : Type*} [Field Q] [LinearOrder Q] (f : File Q) (tmin tmax : Q) (key : String) :
    Except LoadErr (Option (ℕ → Q)) :=
  match f.data.lookup key with
  | none => .error .key
  | some d => .ok (mean (slice f.times d.2 (some tmin) (some tmax)))

/-- `load1d_means` of ns2d.strat (ns2d/strat/output/spectra.py 94-170) with its defaults `tmin = 0`,
`tmax = max(times)`: the averages under the names `E_kx`, `EK_kx`, `EA_kx`, `E_ky`, `EK_ky`, `EA_ky`.
(`max` of an empty list of times is an error before.) -/
def load1dMeans {Q : Type} [Field Q] [LinearOrder Q] (round : Q → ℤ) (f : File Q)
    (tmin tmax : Option Q) (dt : Q) (versusKx versusKy : Bool) :
    Except LoadErr (List (String × Option (ℕ → Q))) := do
  let t0 := tmin.getD 0
  let t1 := tmax.getD (f.times.max?.getD 0)
  let _ ← deltaI round f.times dt
  let a ← (if versusKx then
    (do
      let e ← means1 f t0 t1 "spectrum1Dkx_E"
      let k ← means1 f t0 t1 "spectrum1Dkx_EK"
      let p ← means1 f t0 t1 "spectrum1Dkx_EA"
      pure [("E_kx", e), ("EK_kx", k), ("EA_kx", p)])
    else pure [])
  let b ← (if versusKy then
    (do
      let e ← means1 f t0 t1 "spectrum1Dky_E"
      let k ← means1 f t0 t1 "spectrum1Dky_EK"
      let p ← means1 f t0 t1 "spectrum1Dky_EA"
      pure [("E_ky", e), ("EK_ky", k), ("EA_ky", p)])
    else pure [])
  pure (a ++ b)

/-! ## Figure of the (ky, kx) spectra of ns2d.strat -/

/-- The dataset plotted by `plot(key)` (ns2d/strat/output/spectra_multidim.py 85-103, 248-254): the
variable `text_plot`, which is written on the figure at the end, has no value for `EK` and `EA`. -/
def plotKey : Option String → Except LoadErr String
  | none => .ok "spectrumkykx_ap"
  | some k =>
    if k = "EK" then .error .unboundLocal
    else if k = "EA" then .error .unboundLocal
    else if k = "ap_fft" ∨ k = "" then .ok "spectrumkykx_ap"
    else if k = "am_fft" then .ok "spectrumkykx_am"
    else .error .value

/-- The records averaged by `plot(tmin, tmax)` (spectra_multidim.py 105-118): `data[itmin]` alone if
`tmin == tmax`, else `data[itmin:itmax]`. -/
def plotSlice {Q : Type*} [Field Q] [LinearOrder Q] {A : Type*} (times : List Q) (vals : List A)
    (tmin tmax : Option Q) : List A :=
  let t0 := tmin.getD (times.head?.getD 0)
  let t1 := tmax.getD (times.getLast?.getD 0)
  let i0 := Verif.PhysFiles.closest times t0
  if t0 = t1 then (vals[i0]?).toList
  else (vals.take (Verif.PhysFiles.closest times t1)).drop i0

/-- `kz` in units of `2 π / Ly` (spectra_multidim.py 125-126): `np.fft.fftfreq(ny, 1 / ny)`, the element
number `ny // 2` with the opposite sign. -/
def kz (ny : ℕ) : List ℤ :=
  ((List.range ny).map fun i : ℕ => if i < (ny + 1) / 2 then (i : ℤ) else (i : ℤ) - ny).modify (ny / 2)
    fun x => -x

/-- `kz_modified`, `data_plot_modified` (spectra_multidim.py 151-166), along the first axis: `none` if
the assignment is between arrays of different lengths. -/
def reorder {A : Type*} (l : List A) : Option (List A) :=
  if l.length % 2 = 0 then some (l.drop (l.length / 2 + 1) ++ l.take (l.length / 2 + 1)) else none

/-! ## Curves -/

/-- The transparency of the curve number `i` of `_plot_ndim_direction` (spectra.py 292-303); `none` if
the slope is a division by zero. -/
def alpha {Q : Type*} [Field Q] (imin imax i : ℕ) : Option Q :=
  if imax = imin then none
  else
    let slope : Q := (1 - 0.1) / ((imax : Q) - (imin : Q))
    let alpha0 := 0.1 - slope * imin
    some (alpha0 + slope * i)

/-- The numbers of the curves: `range(imin_plot, imax_plot + 1, delta_i_plot)` (spectra.py 300; sw1l
and plate2d the same). -/
def curves (imin imax di : ℕ) : List ℕ :=
  (List.range (imax + 1)).filter fun i => imin ≤ i ∧ (i - imin) % di = 0

/-- The three averaged curves of `SpectraPlate2D.plot2d` (plate2d/output/spectra.py 209-214): small
values of `EK` are replaced by zero, then those of the other two where `EK` is small. -/
def plateCurves {Q : Type*} [Zero Q] [LT Q] [DecidableLT Q] (eps : Q) (EK EL EE : ℕ → Q) :
    (ℕ → Q) × (ℕ → Q) × (ℕ → Q) :=
  let EK' := fun b => if EK b < eps then 0 else EK b
  (EK', fun b => if EK' b < eps then 0 else EL b, fun b => if EK' b < eps then 0 else EE b)

/-- `_get_field_to_plot` of sw1l (sw1l/output/spectra.py 413-440). -/
def select {Q : Type*} [Field Q] (rec_ : List (String × (ℕ → Q))) (key : String) :
    Except LoadErr (ℕ → Q) :=
  let get := fun k => match rec_.lookup ("spectrum2D_" ++ k) with
    | some y => Except.ok y
    | none => Except.error LoadErr.key
  if key = "Etot" then do
    let a ← get "EK"
    let b ← get "EA"
    pure fun i => a i + b i
  else if key = "EKd" then do
    let a ← get "EK"
    let b ← get "EKr"
    pure fun i => a i - b i
  else get key

/-- The factor of `plot_diss` of sw1l (sw1l/output/spectra.py 362-378): `2 nu kh**order` for the first
positive one of `nu_2`, `nu_4`, `nu_8`. -/
def dissFactor {Q : Type*} [Field Q] [LinearOrder Q] (nu2 nu4 nu8 k : Q) : Except LoadErr Q :=
  if 0 < nu2 then .ok (2 * nu2 * k ^ 2)
  else if 0 < nu4 then .ok (2 * nu4 * k ^ 4)
  else if 0 < nu8 then .ok (2 * nu8 * k ^ 8)
  else .error .value

/-! ## The values -/

noncomputable section

open Verif.Fourier Verif.Energy Verif.SpatialMeans Verif.Sw1l Verif.Forcing Finset

/-- The spectra of ns2d.strat, along one axis or of one kind. -/
structure StratSpectra (B : Type*) where
  EKux : B → ℝ
  EKuy : B → ℝ
  EK : B → ℝ
  EA : B → ℝ
  E : B → ℝ

/-- `SpectraNS2D.compute` (ns2d/output/spectra.py 16-28; spectra_multidim.py 18-27): `M` is the set of
all the modes of the arrays. -/
def ns2dSpectrum {B : Type*} {M : Finset (Fin 2 → ℤ)} (sp : (M → ℝ) → B → ℝ) (δ : Fin 2 → ℝ)
    (rot : Fld (Fin 2)) : B → ℝ := sp fun k => energy2 δ rot k

/-- `SpectraNS2DStrat.compute` (ns2d/strat/output/spectra.py 19-72) with `compute_energies_fft` and
`compute_energies2_fft` (ns2d/strat/output/__init__.py 85-106). -/
def stratSpectra {B : Type*} {M : Finset (Fin 2 → ℤ)} (sp : (M → ℝ) → B → ℝ) (δ : Fin 2 → ℝ) (N : ℝ)
    (rot b : Fld (Fin 2)) : StratSpectra B where
  EKux := sp fun k => ‖ux2 δ rot k‖ ^ 2 / 2
  EKuy := sp fun k => ‖uy2 δ rot k‖ ^ 2 / 2
  EK := sp fun k => energy2 δ rot k
  EA := sp fun k => energyA2 N b k
  E := sp fun k => energy2 δ rot k + energyA2 N b k

structure PlateSpectra (B : Type*) where
  EK : B → ℝ
  EL : B → ℝ
  EE : B → ℝ

/-- `SpectraPlate2D.compute` (plate2d/output/spectra.py 22-49) with `compute_energies_fft`
(plate2d/output/__init__.py 111-122); `S` is the set of the kept modes. -/
def plateSpectra {B : Type*} {M : Finset (Fin 2 → ℤ)} (sp : (M → ℝ) → B → ℝ) (n : Fin 2 → ℕ)
    (δ : Fin 2 → ℝ) (S : Finset (Fin 2 → ℤ)) (w z : Fld (Fin 2)) : PlateSpectra B :=
  let K4 := fun k : Fin 2 → ℤ => ((δ 0 * (k 0 : ℝ)) ^ 2 + (δ 1 * (k 1 : ℝ)) ^ 2) ^ 2
  let chi := chiFft n δ S z
  { EK := sp fun k => 0.5 * ‖w k‖ ^ 2
    EL := sp fun k => ‖(0.5 : ℂ) * ((K4 k : ℂ) * ((‖z k‖ ^ 2 : ℝ) : ℂ))‖
    EE := sp fun k => ‖(0.25 : ℂ) * ((K4 k : ℂ) * ((‖chi k‖ ^ 2 : ℝ) : ℂ))‖ }

/-- The energies of one mode of the shallow-water solvers in the three parts of
`compute_lin_energies_fft` (sw1l/output/base.py 189-222). -/
structure LinEnergies where
  g : ℝ
  d : ℝ
  a : ℝ

/-- `½ (|ux|² + |uy|² + c2 |eta|²)`. -/
def energyU (p : Par) (u : UEta) : ℝ := 0.5 * (‖u.ux‖ ^ 2 + ‖u.uy‖ ^ 2 + p.c2 * ‖u.eta‖ ^ 2)

/-- `compute_lin_energies_fft` (sw1l/output/base.py 189-222), `qdafft_from_uxuyetafft`
(sw1l/operators.py 294-303). -/
def linEnergies (p : Par) (k : Mode) (u : UEta) : LinEnergies :=
  let v := vecFromDiv p k (divOf p k u.ux u.uy)
  { g := energyU p (fromQ p k (qOf p k u))
    d := 0.5 * (‖v.1‖ ^ 2 + ‖v.2‖ ^ 2)
    a := energyU p (fromA p k (aOf p k u)) }

/-- `NormalModeBase.sigma` (sw1l/output/normal_mode.py 32-39). -/
def sigma (p : Par) (k : Mode) : ℝ :=
  let ck := p.c2 ^ (0.5 : ℝ) * √(k2not0 (p.kx k) (p.ky k))
  if p.f = 0 then ck else √(p.f ^ 2 + ck ^ 2)

/-- `bvecfft_from_qapamfft` (sw1l/output/normal_mode.py 62-78). -/
def bvec (p : Par) (k : Mode) (s : QA) : QA :=
  if k = 0 then ⟨0, 0, 0⟩
  else
    let K := √(k2not0 (p.kx k) (p.ky k))
    ⟨-s.q * (p.c2 ^ (0.5 : ℝ) : ℝ) / sigma p k,
      s.ap * ((2 : ℝ) ^ (0.5 : ℝ) : ℝ) * p.c2 / (sigma p k * K : ℝ),
      s.am * ((2 : ℝ) ^ (0.5 : ℝ) : ℝ) * p.c2 / (sigma p k * K : ℝ)⟩

/-- `compute_qapam_energies_fft` (sw1l/output/normal_mode.py 102-109). -/
def qapamEnergies (p : Par) (k : Mode) (u : UEta) : ℝ × ℝ × ℝ :=
  let b := bvec p k (qapam p k u)
  (0.5 * ‖b.q‖ ^ 2, 0.5 * ‖b.ap‖ ^ 2, 0.5 * ‖b.am‖ ^ 2)

/-- `compute_qda_energies_fft` (sw1l/output/normal_mode.py 90-100). -/
def qdaEnergies (p : Par) (k : Mode) (u : UEta) : LinEnergies :=
  let b := bvec p k (qapam p k u)
  { g := 0.5 * ‖b.q‖ ^ 2
    d := 0.5 * ‖0.5 * (b.ap - b.am)‖ ^ 2
    a := 0.5 * ‖0.5 * (b.ap + b.am)‖ ^ 2 }

/-- The spectra of the shallow-water solvers, along one axis or of one kind. -/
structure SwSpectra (B : Type*) where
  EK : B → ℝ
  EA : B → ℝ
  EKr : B → ℝ
  CPE : B → ℝ
  Eglin : B → ℝ
  Edlin : B → ℝ
  Ealin : B → ℝ

/-- `SpectraSW1L.compute` and `compute_lin_spectra` (sw1l/output/spectra.py 29-118) for sw1l.modified
(energies of sw1l/modified/output.py 24-34); without the Ertel potential enstrophy. -/
def mswSpectra {B : Type*} {M : Finset (Fin 2 → ℤ)} (sp : (M → ℝ) → B → ℝ) (p : Par) (s : Sw) :
    SwSpectra B :=
  let u := fun k => UEta.mk (s.ux k) (s.uy k) (s.eta k)
  let r := rotational p.δ s.ux s.uy
  { EK := sp fun k => ‖s.ux k‖ ^ 2 / 2 + ‖s.uy k‖ ^ 2 / 2
    EA := sp fun k => p.c2 * ‖s.eta k‖ ^ 2 / 2
    EKr := sp fun k => ‖(r k).1‖ ^ 2 / 2 + ‖(r k).2‖ ^ 2 / 2
    CPE := sp fun k => ‖qOf p k (u k)‖ ^ 2 / 2
    Eglin := sp fun k => (linEnergies p k (u k)).g
    Edlin := sp fun k => (linEnergies p k (u k)).d
    Ealin := sp fun k => (linEnergies p k (u k)).a }

/-- `SpectraSW1L.compute` for sw1l (energies of sw1l/output/base.py 225-252). -/
def swSpectra {B : Type*} {M : Finset (Fin 2 → ℤ)} (sp : (M → ℝ) → B → ℝ) (n : Fin 2 → ℕ)
    (S : Finset (Fin 2 → ℤ)) (p : Par) (s : Sw) : SwSpectra B :=
  let u := fun k => UEta.mk (s.ux k) (s.uy k) (s.eta k)
  let Jx := fluxFft n S s.eta s.ux
  let Jy := fluxFft n S s.eta s.uy
  let r := rotational p.δ s.ux s.uy
  let rJ := rotational p.δ Jx Jy
  { EK := sp fun k => ((starRingEnd ℂ) (Jx k) * s.ux k + (starRingEnd ℂ) (Jy k) * s.uy k).re / 2
    EA := sp fun k => p.c2 * ‖s.eta k‖ ^ 2 / 2
    EKr := sp fun k =>
      ((starRingEnd ℂ) (rJ k).1 * (r k).1 + (starRingEnd ℂ) (rJ k).2 * (r k).2).re / 2
    CPE := sp fun k => ‖qOf p k (u k)‖ ^ 2 / 2
    Eglin := sp fun k => (linEnergies p k (u k)).g
    Edlin := sp fun k => (linEnergies p k (u k)).d
    Ealin := sp fun k => (linEnergies p k (u k)).a }

/-- `SpectraSW1LNormalMode.compute_lin_spectra` (sw1l/output/spectra.py 446-484): `(Eglin, Ealin)`. -/
def normalModeSpectra {B : Type*} {M : Finset (Fin 2 → ℤ)} (sp : (M → ℝ) → B → ℝ) (p : Par) (s : Sw) :
    (B → ℝ) × (B → ℝ) :=
  let u := fun k => UEta.mk (s.ux k) (s.uy k) (s.eta k)
  (sp fun k => (qapamEnergies p k (u k)).1,
   sp fun k => (qapamEnergies p k (u k)).2.1 + (qapamEnergies p k (u k)).2.2)

end

end Verif.Spectra2d
