import Verif.SpecFigs.Model
import Verif.SpectBudget.Model

/-! # C109: the figures of the spectral energy budgets

The curves drawn by the methods `plot` and `plot_fluxes` of the outputs `spect_energy_budg`. The files contain the quantities of C58 and C74.
`none` stands for nan. Exact arithmetic; the texts, the colors, the vertical lines of the forcing range and of the Ozmidov scale and the online
figures are not modelled. -/

namespace Verif.BudgetFigs

open Verif.PhysFiles (closest argmin)
open Verif.SpecFigs (SpecFile stepOf meanStep slice)
open Verif.SpectBudget (cumsum cumsumInv flux2 hflux zflux)

/-! ### ns2d and sw1l -/

/-- `dset[imin_plot:imax_plot]` (fluidsim/solvers/ns2d/output/spect_energy_budget.py 146). -/
def sliceTo {A : Type} (l : List A) (imin imax : ℕ) : List A := (l.take imax).drop imin

/-- `range(imin_plot, imax_plot, delta_i_plot)` (ns2d/output/spect_energy_budget.py 136). -/
def indicesTo (imin imax step : ℕ) : List ℕ := ((List.range (imax - imin)).filter fun j => j % step = 0).map (imin + ·)

/-- `cumsum_inv(transfer) * self.oper.deltak` for an array of `m` values (ns2d/output/spect_energy_budget.py 140). -/
noncomputable def pi {m : ℕ} (deltak : ℝ) (s : Fin m → ℝ) (i : Fin m) : ℝ := (flux2 deltak (List.ofFn s)).getD i 0

/-- `.mean(0)` (ns2d/output/spect_energy_budget.py 146): nan without record. -/
noncomputable def mean0 {m : ℕ} (l : List (Fin m → ℝ)) : Option (Fin m → ℝ) :=
  if l = [] then none else some fun i => (l.map (· i)).sum / l.length

/-- A curve: the abscissas and the values. -/
structure Curve (m : ℕ) where
  ks : Fin m → ℝ
  values : Option (Fin m → ℝ)

/-- The thin curves, with the numbers of their records, and the thick one. -/
structure Figure (m : ℕ) where
  thin : List (ℕ × Curve m)
  thick : Curve m

/-- The step of the records (ns2d/output/spect_energy_budget.py 109-114; the same in sw1l/output/spect_energy_budget.py 210-214): `none` if
`delta_t` becomes 0. -/
noncomputable def plotStep (times : List ℝ) (dt : ℝ) : Except String (Option ℕ) :=
  match stepOf times dt with
  | .error e => .error e
  | .ok s0 =>
    let s := if s0 = 0 ∧ dt ≠ 0 then 1 else s0
    .ok (if s * meanStep times ≠ 0 then some s else none)

/-- The figure with the abscissas `ks`. -/
noncomputable def figure {m : ℕ} (ks : Fin m → ℝ) (deltak : ℝ) (records : List (Fin m → ℝ)) (imin imax : ℕ) (step : Option ℕ) : Figure m where
  thin := match step with
    | none => []
    | some s => (indicesTo imin imax s).map fun it => (it, ⟨ks, (records[it]?).map (pi deltak)⟩)
  thick := ⟨ks, (mean0 (sliceTo records imin imax)).map (pi deltak)⟩

/-- `plot` of ns2d (ns2d/output/spect_energy_budget.py 95-153) for the energy (the same for the enstrophy). -/
noncomputable def plotNs2d {m : ℕ} (f : SpecFile (m + 2)) (deltak tmin tmax dt : ℝ) : Except String (Figure (m + 2)) :=
  match plotStep f.times dt with
  | .error e => .error e
  | .ok step => .ok (figure (fun i => f.ks i + f.ks 1) deltak f.spectra (closest f.times tmin) (closest f.times tmax) step)

/-- The file of sw1l: the transfers of the kinetic and of the available potential energies, the conversion and the transfer of the Charney
potential enstrophy. -/
structure SwFile (m : ℕ) where
  times : List ℝ
  ks : Fin m → ℝ
  EK : List (Fin m → ℝ)
  EA : List (Fin m → ℝ)
  conv : List (Fin m → ℝ)
  CPE : List (Fin m → ℝ)

/-- `PiEK + PiEA`. -/
def addValues {m : ℕ} (a b : Option (Fin m → ℝ)) : Option (Fin m → ℝ) :=
  match a, b with
  | some x, some y => some fun i => x i + y i
  | _, _ => none

/-- The figures of `SpectralEnergyBudgetMSW1L`. -/
structure SwFigure (m : ℕ) where
  thinE : List (ℕ × Curve m)
  E : Curve m
  EK : Curve m
  EA : Curve m
  conv : Curve m
  thinCPE : List (ℕ × Curve m)
  CPE : Curve m

/-- `plot` of the class `SpectralEnergyBudgetMSW1L` (fluidsim/solvers/sw1l/output/spect_energy_budget.py 190-298), without the three thin curves
of the parts of the transfer of kinetic energy. -/
noncomputable def plotSw {m : ℕ} (f : SwFile (m + 2)) (deltak tmin tmax dt : ℝ) : Except String (SwFigure (m + 2)) :=
  match plotStep f.times dt with
  | .error e => .error e
  | .ok step =>
    let imin := closest f.times tmin
    let imax := closest f.times tmax
    let K := figure f.ks deltak f.EK imin imax step
    let A := figure f.ks deltak f.EA imin imax step
    .ok {
      thinE := List.zipWith (fun a b => (a.1, ⟨f.ks, addValues a.2.values b.2.values⟩)) K.thin A.thin
      E := ⟨f.ks, addValues K.thick.values A.thick.values⟩
      EK := K.thick
      EA := A.thick
      conv := (figure (fun i => f.ks i + f.ks 1) deltak f.conv imin imax step).thick
      thinCPE := (figure f.ks deltak f.CPE imin (imax + 1) step).thin
      CPE := (figure f.ks deltak f.CPE imin imax step).thick }

/-- The normal modes of the transfers (`Tq_GGG`, ..., sw1l/output/spect_energy_budget.py 595). -/
inductive Triad | GGG | AGG | GAAs | GAAd | AAA
  deriving DecidableEq

/-- The transfers of the file of `SpectralEnergyBudgetSW1L`. -/
structure ModesFile (m : ℕ) where
  times : List ℝ
  ks : Fin m → ℝ
  Tq : Triad → List (Fin m → ℝ)

/-- `norm = 1 if P == 0 else P` (sw1l/output/spect_energy_budget.py 589-590). -/
noncomputable def normOf (P : ℝ) : ℝ := if P = 0 then 1 else P

/-- `Pi_tot` of `plot` of `SpectralEnergyBudgetSW1L` (sw1l/output/spect_energy_budget.py 541-629): the sum of the fluxes of the five parts divided
by `norm`, drawn with the abscissas `khE + 0.1`. -/
noncomputable def plotModes {m : ℕ} (f : ModesFile m) (deltak P tmin tmax dt : ℝ) : Except String (Curve m × (Triad → Curve m)) :=
  match plotStep f.times dt with
  | .error e => .error e
  | .ok _ =>
    let imin := closest f.times tmin
    let imax := closest f.times tmax
    let ks := fun i => f.ks i + 0.1
    let P' := fun key => ((mean0 (sliceTo (f.Tq key) imin imax)).map fun v i => v i / normOf P).map (pi deltak)
    .ok (⟨ks, addValues (addValues (addValues (addValues (P' .GGG) (P' .AGG)) (P' .GAAs)) (P' .GAAd)) (P' .AAA)⟩, fun key => ⟨ks, P' key⟩)

/-! ### ns3d and ns3d.strat -/

/-- The quantities saved. -/
inductive Key | transferKh | transferKz | transferA | dissKh | dissKz | dissA | convK2A
  deriving DecidableEq

/-- `key.startswith("transfer")` (ns3d/output/spect_energy_budget.py 299). -/
def Key.isTransfer : Key → Bool
  | .transferKh | .transferKz | .transferA => true
  | _ => false

/-- The file: `nz` wavenumbers `kz`, `nh` wavenumbers `kh`, one record `kz, kh ↦ value` per time and per quantity. -/
structure File3 where
  times : List ℝ
  nz : ℕ
  nh : ℕ
  kz : ℕ → ℝ
  kh : ℕ → ℝ
  data : Key → List (ℕ → ℕ → ℝ)

/-- The indices of `load_mean` (ns3d/output/spect_energy_budget.py 201-208). -/
noncomputable def range3 (f : File3) (tmin tmax : Option ℝ) : ℕ × ℕ :=
  (match tmin with | none => 0 | some t => closest f.times t, match tmax with | none => f.times.length - 1 | some t => closest f.times t)

/-- `file[key][imin_plot : imax_plot + 1].mean(0)` (ns3d/output/spect_energy_budget.py 239). -/
noncomputable def loadMean (f : File3) (tmin tmax : Option ℝ) (key : Key) : Option (ℕ → ℕ → ℝ) :=
  let r := range3 f tmin tmax
  let l := slice (f.data key) r.1 r.2
  if l = [] then none else some fun z h => (l.map fun a => a z h).sum / l.length

/-- `key_k`: "kh" or "kz". -/
inductive Dir | h | z
  deriving DecidableEq

/-- `compute_fluxes_mean` (ns3d/output/spect_energy_budget.py 275-313) for one quantity: `hflux_...` or `zflux_...`. -/
noncomputable def fluxMean (f : File3) (tmin tmax : Option ℝ) (d : Dir) (key : Key) : Option (List ℝ) :=
  (loadMean f tmin tmax key).map fun a =>
    let spec := (List.range f.nz).map fun z => (List.range f.nh).map fun h => a z h
    match d with
    | .h => hflux key.isTransfer (f.kh 1) (f.kz 1) f.nh spec
    | .z => zflux key.isTransfer (f.kh 1) (f.kz 1) spec

/-- The number of wavenumbers of the direction. -/
def File3.number (f : File3) : Dir → ℕ
  | .h => f.nh
  | .z => f.nz

/-- `k_plot = data[key_k]; k_plot += deltak / 2` (ns3d/output/spect_energy_budget.py 318-320). -/
noncomputable def abscissas (f : File3) (d : Dir) : List ℝ :=
  match d with
  | .h => (List.range f.nh).map fun i => f.kh i + f.kh 1 / 2
  | .z => (List.range f.nz).map fun i => f.kz i + f.kz 1 / 2

/-- The sum of two arrays. -/
def plus (a b : List ℝ) : List ℝ := List.zipWith (· + ·) a b

/-- The curves of `plot_fluxes` of ns3d. -/
structure Fluxes where
  ks : List ℝ
  flux : List ℝ
  D : List ℝ
  sum : List ℝ

/-- `plot_fluxes` of ns3d (ns3d/output/spect_energy_budget.py 315-351); `none`: all the curves are nan or infinite. -/
noncomputable def plotFluxes (f : File3) (tmin tmax : Option ℝ) (d : Dir) : Except String (Option Fluxes) :=
  if f.times = [] then .error (if tmin = none ∧ tmax = none then "IndexError" else "ValueError")
  else .ok do
    let flux := plus (← fluxMean f tmin tmax d .transferKh) (← fluxMean f tmin tmax d .transferKz)
    let D := plus (← fluxMean f tmin tmax d .dissKh) (← fluxMean f tmin tmax d .dissKz)
    let eps := D.getLastD 0
    if eps = 0 then none
    else some { ks := abscissas f d, flux := flux.map (· / eps), D := D.map (· / eps), sum := (plus flux D).map (· / eps) }

/-- The curves of `plot_fluxes` of ns3d.strat. -/
structure FluxesStrat where
  ks : List ℝ
  flux : List ℝ
  D : List ℝ
  sum : List ℝ
  fluxK : List ℝ
  fluxA : List ℝ
  DK : List ℝ
  DA : List ℝ
  B : List ℝ

/-- `plot_fluxes` of ns3d.strat (fluidsim/solvers/ns3d/strat/output/spect_energy_budget.py 120-168) with `plot_conversion=True`. -/
noncomputable def plotFluxesStrat (f : File3) (tmin tmax : Option ℝ) (d : Dir) : Except String (Option FluxesStrat) :=
  if f.times = [] then .error (if tmin = none ∧ tmax = none then "IndexError" else "ValueError")
  else .ok do
    let fluxK := plus (← fluxMean f tmin tmax d .transferKh) (← fluxMean f tmin tmax d .transferKz)
    let fluxA ← fluxMean f tmin tmax d .transferA
    let DK := plus (← fluxMean f tmin tmax d .dissKh) (← fluxMean f tmin tmax d .dissKz)
    let DA ← fluxMean f tmin tmax d .dissA
    let B ← fluxMean f tmin tmax d .convK2A
    let flux := plus fluxK fluxA
    let D := plus DK DA
    let eps := D.getLastD 0
    if eps = 0 then none
    else
      let n := fun l : List ℝ => l.map (· / eps)
      some ⟨abscissas f d, n flux, n D, n (plus flux D), n fluxK, n fluxA, n DK, n DA, n B⟩

/-! ### ns2d.strat -/

/-- `id_kx_dealiasing = np.argmin(kxE - self.sim.oper.kxmax_dealiasing) - 1` (fluidsim/solvers/ns2d/strat/output/spect_energy_budget.py 291). -/
noncomputable def idDealiasing (ks : List ℝ) (kmax : ℝ) : ℤ := (argmin (ks.map fun k => k - kmax) : ℤ) - 1

/-- `l[:i]`: a negative index counts from the end. -/
def pyTake {A : Type} (l : List A) (i : ℤ) : List A := if i < 0 then l.take (l.length - i.natAbs) else l.take i.toNat

/-- What `compute_fluxes_mean` of ns2d.strat (ns2d/strat/output/spect_energy_budget.py 249-348) gives for one direction and for the averages of
one transfer and of one dissipation: the wavenumbers (`x[1:]` of `plot`, 481), the flux and the cumulated dissipation. -/
noncomputable def fluxesStrat2d (ks : List ℝ) (kmax deltak : ℝ) (transfer diss : List ℝ) : List ℝ × List ℝ × List ℝ :=
  let id := idDealiasing ks kmax
  let T := pyTake transfer id
  let D := pyTake diss id
  ((pyTake ks id).drop 1, (cumsumInv (T.drop 1)).map (· * deltak), (cumsum (D.drop 1)).map (· * deltak))

end Verif.BudgetFigs
