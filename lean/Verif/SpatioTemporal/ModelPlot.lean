import Mathlib.Analysis.SpecialFunctions.Pow.Real
import Verif.SpatioTemporal.ModelValues
import Verif.PhysFiles.Model

/-!
Model of the toroidal / poloidal spectra
(/repo/fluidsim/solvers/ns3d/output/spatiotemporal_spectra.py 102-165), of the figures of the
spatiotemporal spectra (/repo/fluidsim/base/output/spatiotemporal_spectra.py 963-1189, 1256-1450)
and of the reuse of the saved spectra (same file 1250-1254, 1284-1294, 1487-1523;
/repo/fluidsim/base/output/temporal_spectra.py 592-612, 795-845).
-/

namespace Verif.SpatioTemporal

open Finset

noncomputable section

/-! ### Toroidal and poloidal spectra -/

/-- `inv_Kh_square_nozero` (ns3d spatiotemporal_spectra.py 130-132). -/
def invKh (kx ky : ℝ) : ℝ := 1 / (if kx ^ 2 + ky ^ 2 = 0 then 1e-14 else kx ^ 2 + ky ^ 2)

/-- `udx_fft` and `udy_fft` (134-136) at one time. -/
def ud (kx ky : ℝ) (vx vy : ℂ) : ℂ × ℂ :=
  ((kx * vx + ky * vy) * kx * invKh kx ky, (kx * vx + ky * vy) * ky * invKh kx ky)

/-- `urx_fft` and `ury_fft` (138-139) at one time. -/
def ur (kx ky : ℝ) (vx vy : ℂ) : ℂ × ℂ := (vx - (ud kx ky vx vy).1, vy - (ud kx ky vx vy).2)

/-- Value of `_compute_spectrum` with the frequency step `domega`. -/
def spec (domega : ℝ) (n : ℕ) (x : Fin n → ℂ) (m : Fin n) : ℝ := periodogram n x m / domega

/-- `spectrum_Khd` (150-154). -/
def khd (domega : ℝ) (n : ℕ) (kx ky : ℝ) (vx vy : Fin n → ℂ) (m : Fin n) : ℝ :=
  0 + 0.5 * spec domega n (fun j => (ud kx ky (vx j) (vy j)).1) m
    + 0.5 * spec domega n (fun j => (ud kx ky (vx j) (vy j)).2) m

/-- `spectrum_Khr` (157-161). -/
def khr (domega : ℝ) (n : ℕ) (kx ky : ℝ) (vx vy : Fin n → ℂ) (m : Fin n) : ℝ :=
  0 + 0.5 * spec domega n (fun j => (ur kx ky (vx j) (vy j)).1) m
    + 0.5 * spec domega n (fun j => (ur kx ky (vx j) (vy j)).2) m

/-- The modes of an array of spectra `v` on the grid `grid`. -/
def onGrid {ι : Type*} (grid : List ι) (geo : ι → ℝ × ℝ × ℝ) (v : ι → ℝ) : List Mode :=
  grid.map fun i => ⟨(geo i).1, (geo i).2.1, (geo i).2.2, v i⟩

/-! ### `plot_kzkhomega` -/

/-- The text of the argument `equation`. -/
inductive Equation where
  | default
  | omega (w : ℝ)
  | kh (k : ℝ)
  | kz (k : ℝ)
  | ikh (i : ℕ)
  | ikz (i : ℕ)
  | other

/-- Arrays read in the file of spectra (1018-1032). -/
structure KzFile where
  kzs : List ℝ
  khs : List ℝ
  omegas : List ℝ
  spect : ℕ → ℕ → ℕ → ℝ

/-- Exceptions of the figures. -/
inductive PlotErr where
  | notImplemented
  | index
  | unbound
  | type
  deriving DecidableEq, Repr

/-- `abs(xs - x).argmin()`. -/
def nearestIdx (xs : List ℝ) (x : ℝ) : ℕ := PhysFiles.argmin (xs.map fun y => |y - x|)

/-- What is drawn: axes, colours (`row` of the ordinate, `column` of the abscissa), and the line
of the dispersion relation. -/
structure Figure where
  xaxis : List ℝ
  yaxis : List ℝ
  colours : ℕ → ℕ → ℝ
  disp : Option (ℝ → ℝ)

/-- The choice of the cut (1041-1052): `kh=` and `kz=` are replaced by an index. -/
def resolve (f : KzFile) : Equation → Equation
  | .default => .omega 0
  | .kh k => .ikh (nearestIdx f.khs k)
  | .kz k => .ikz (nearestIdx f.kzs k)
  | e => e

/-- `np.arange(n)`. -/
def aranger (n : ℕ) : List ℝ := (List.range n).map fun (i : ℕ) => (i : ℝ)

/-- `plot_kzkhomega` of a stratified solver (1040-1189) with linear colours (`linscale=True`), as
far as the returned figure. `emp` is the argument `plot_omega_emp`. In the cut at constant
frequency the variable `omega_disp` of the return value is not bound; when the two axes have
different sizes, the `ValueError` raised before by `ax.plot` is not distinguished. -/
def plotKzkh (N : ℝ) (f : KzFile) (e : Equation) (emp : Bool) : Except PlotErr Figure :=
  let ratio := f.kzs.getD 1 0 / f.khs.getD 1 0
  let short : Bool := f.kzs.length ≤ 1 || f.khs.length ≤ 1
  match resolve f e with
  | .omega w =>
    let i := nearestIdx f.omegas w
    let w := f.omegas.getD i 0
    if f.omegas.isEmpty || short then .error .index
    else if emp then .error .unbound
    else .ok
      { xaxis := aranger f.khs.length
        yaxis := aranger f.kzs.length
        colours := fun y x => f.spect y x i + 1e-15
        disp := if 0 < w ∧ w ≤ N then some fun x => Real.sqrt (N ^ 2 / w ^ 2 - 1) / ratio * x
          else none }
  | .ikh i =>
    if i ≥ f.khs.length || short then .error .index
    else .ok
      { xaxis := aranger f.kzs.length
        yaxis := f.omegas.map (· / N)
        colours := fun y x => f.spect x i y + 1e-15
        disp := some fun x => i / Real.sqrt ((i : ℝ) ^ 2 + ratio ^ 2 * x ^ 2) }
  | .ikz i =>
    if i ≥ f.kzs.length || short then .error .index
    else .ok
      { xaxis := aranger f.khs.length
        yaxis := f.omegas.map (· / N)
        colours := fun y x => f.spect i x y + 1e-15
        disp := some fun x => x / Real.sqrt (x ^ 2 + ratio ^ 2 * (i : ℝ) ^ 2) }
  | _ => .error .notImplemented

/-! ### `plot_temporal_spectra` -/

/-- `modes(nx, nz)` (1375-1376): abscissa of the marks of the resonant modes. -/
def resonant (Lx Lz : ℝ) (nx nz : ℕ) : ℝ :=
  Real.sqrt ((nx : ℝ) ^ 2 / ((nx : ℝ) ^ 2 + (Lx / Lz) ^ 2 * (nz : ℝ) ^ 2))

/-- The ordinate drawn at a frequency `w ≠ 0` (1299-1306, 1335). -/
def compensated (c w E : ℝ) : ℝ := E / (if c = 0 then 1 else w ^ (-c))

/-- `scaling_y` (1387-1388) at the abscissa `x` (frequency over `N`). -/
def scalingLine (c EKN x : ℝ) : ℝ := EKN * x ^ (-2 + c)

end

/-! ### Reuse of the saved spectra -/

/-- `_get_default_tmin_periodogram(tmin)` (1250-1254) called with `tmin = None`: the third part of
the last name in alphabetical order; `names` are the sorted names of the files, split at `_`.
`none` is `None`. -/
def defaultTmin (names : List (List String)) (toFloat : String → Option ℚ) :
    Except PlotErr (Option ℚ) :=
  match names.getLast? with
  | none => .ok none
  | some parts =>
    match parts[2]? with
    | none => .error .index
    | some s => match toFloat s with
      | none => .error .type
      | some q => .ok (some q)

/-- The beginning of `plot_temporal_spectra` without `tmin` (1284-1286), when no saved file has the
times: `float(tmin)` raises `TypeError` for `None`. -/
def plotTemporalTmin (names : List (List String)) (toFloat : String → Option ℚ) :
    Except PlotErr ℚ :=
  match defaultTmin names toFloat with
  | .error e => .error e
  | .ok none => .error .type
  | .ok (some q) => .ok q

section cache

variable {Q V R : Type*} [LinearOrder Q]

/-- State: the records of the probes and the files of spectra with their interval. -/
structure Store (Q V R : Type*) where
  recs : List (Q × V)
  files : List ((Q × Q) × R)

/-- Events: a record of the probes; a request of the spectra (`plot_spectra`, `get_spectra`,
`plot_temporal_spectra`). -/
inductive Ev (Q V : Type*) where
  | record (t : Q) (v : V)
  | ask (tmin : Q) (tmax : Option Q)

/-- The records in an interval. -/
def within (recs : List (Q × V)) (a b : Q) : List (Q × V) :=
  recs.filter fun r => a ≤ r.1 && r.1 ≤ b

/-- The file of an interval. -/
def fileOf (files : List ((Q × Q) × R)) (k : Q × Q) : Option R :=
  (files.find? fun f => f.1.1 == k.1 && f.1.2 == k.2).map Prod.snd

/-- A request: the file of the interval if there is one, otherwise computed and saved. -/
def answer (F : List (Q × V) → R) (dflt : List (Q × V) → Q) (s : Store Q V R) (tmin : Q)
    (tmax : Option Q) : R × Store Q V R :=
  let b := tmax.getD (dflt s.recs)
  match fileOf s.files (tmin, b) with
  | some r => (r, s)
  | none =>
    let r := F (within s.recs tmin b)
    (r, { s with files := s.files ++ [((tmin, b), r)] })

/-- The answers given along a history. -/
def answers (F : List (Q × V) → R) (dflt : List (Q × V) → Q) :
    Store Q V R → List (Ev Q V) → List R
  | _, [] => []
  | s, .record t v :: es => answers F dflt { s with recs := s.recs ++ [(t, v)] } es
  | s, .ask a b :: es =>
    let (r, s') := answer F dflt s a b
    r :: answers F dflt s' es

/-- Default `tmax` of the spatiotemporal spectra (`_get_default_tmax`, 1487-1503): the last
recorded time. -/
def lastTime [Zero Q] (recs : List (Q × V)) : Q := (recs.getLast?.map Prod.fst).getD 0

end cache

end Verif.SpatioTemporal
