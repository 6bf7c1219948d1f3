import Verif.Forcing.Model
import Mathlib.Analysis.SpecialFunctions.Pow.Real
import Mathlib.Analysis.SpecialFunctions.Trigonometric.Basic

/-! # Model of the preprocessing of the initial fields -/

namespace Verif.Preproc

open Verif.Forcing

noncomputable section

/-! ### `normalize_init_fields` -/

variable {ι : Type} [Fintype ι]

/-- `oper.dealiasing` on one array. -/
def dealias (mask : ι → Bool) (f : ι → ℂ) : ι → ℂ := fun i => if mask i then 0 else f i

/-- `compute_energy` of ns2d (fluidsim/solvers/ns2d/output/__init__.py 110-124). -/
def energy2d (w kx ky : ι → ℝ) (rot : ι → ℂ) : ℝ :=
  sumK w fun i => (‖(vecFromRot (kx i) (ky i) (rot i)).1‖ ^ 2 + ‖(vecFromRot (kx i) (ky i) (rot i)).2‖ ^ 2) / 2

/-- `compute_enstrophy` (ns2d/output/__init__.py 116-129). -/
def enstrophy2d (w : ι → ℝ) (rot : ι → ℂ) : ℝ := sumK w fun i => ‖rot i‖ ^ 2 / 2

/-- `compute_energy` of ns2d.strat (fluidsim/solvers/ns2d/strat/output/__init__.py 80-119). -/
def energyStrat (w kx ky : ι → ℝ) (N : ℝ) (rot b : ι → ℂ) : ℝ :=
  energy2d w kx ky rot + sumK w fun i => (‖b i‖ / N) ^ 2 / 2

/-- `normalize_init_fields` for a state of ns2d or ns2d.strat (`rot_fft`, `b_fft`; for ns2d `b = 0`)
(fluidsim/base/preprocess/pseudo_spect.py 39-99). `energy`, `enstrophy` are the values computed by the output
(`compute_quad_energies` is defined nowhere: the `except` branch of line 55 is always taken). These states have
no method `init_from_uxuyfft`: the branch of line 66 is taken, `rot_fft` is recomputed from the velocity and
given to `init_statespect_from`, which dealiases it and sets `b_fft` to zero
(ns2d/strat/state.py 233-236). `P`, `kf` are the forcing rate and the forcing wavenumber. `C` is supposed not
negative and the powers are the ones of real numbers. -/
def normalize (scale : String) (C energy enstrophy P kf : ℝ) (kx ky : ι → ℝ) (mask : ι → Bool)
    (s : (ι → ℂ) × (ι → ℂ)) : Except String ((ι → ℂ) × (ι → ℂ)) :=
  let (rot, b) := s
  if scale = "energy" then
    let u := fun i => vecFromRot (kx i) (ky i) (rot i)
    let c : ℝ := if energy ≠ 0 then (C / energy) ^ (1 / 2 : ℝ) else 1
    let rot' := fun i => rotFromVec (kx i) (ky i) (c * (u i).1) (c * (u i).2)
    .ok (dealias mask rot', fun _ => 0)
  else if scale = "enstrophy" then
    if enstrophy ≠ 0 then
      let c : ℝ := (C / enstrophy) ^ (1 / 2 : ℝ)
      .ok (dealias mask (fun i => c * rot i), fun _ => 0)
    else .ok (rot, b)
  else if scale = "enstrophy_forcing" then
    if enstrophy ≠ 0 then
      let C0 := enstrophy / (P ^ (2 / 3 : ℝ) * kf ^ (4 / 3 : ℝ))
      let c : ℝ := (C / C0) ^ (1 / 2 : ℝ)
      .ok (dealias mask (fun i => c * rot i), fun _ => 0)
    else .ok (rot, b)
  else if scale = "unity" then .ok (rot, b)
  else .error "ValueError"

/-! ### `calcul_viscosity` -/

/-- The types of viscosity (pseudo_spect.py 322-327): the searched word, the attribute, the order. -/
def dictVisc : List (String × String × ℤ) :=
  [("laplacian", "nu_2", 2), ("hyper4", "nu_4", 4), ("hyper8", "nu_8", 8), ("hypo", "nu_m4", -4)]

/-- `length_scale` (pseudo_spect.py 267-281). -/
def lengthScale (C coefDealiasing deltax : ℝ) : ℝ := C * Real.pi / (Real.pi / deltax * coefDealiasing)

/-- `time_scale` (pseudo_spect.py 297-320); `args` is the list of the values. -/
def timeScale (scale : String) (args : List ℝ) (l large : ℝ) : Except String ℝ :=
  match args with
  | [] => .error "ValueError"
  | a :: rest =>
    if scale = "enstrophy" then .ok ((a ^ (3 / 2 : ℝ)) ^ (-1 / 3 : ℝ))
    else if scale = "energy" then
      .ok ((a * (3 / 2) / large) ^ (-1 / 3 : ℝ) * l ^ (2 / 3 : ℝ))
    else if scale = "enstrophy_forcing" then
      match rest with
      | [] => .error "IndexError"
      | e :: _ => .ok (min ((a ^ (3 / 2 : ℝ)) ^ (-1 / 3 : ℝ)) (e ^ (-1 / 3 : ℝ) * l ^ (2 / 3 : ℝ)))
    else if scale = "forcing" then .ok (a ^ (-1 / 3 : ℝ) * l ^ (2 / 3 : ℝ))
    else .error "ValueError"

/-- `calcul_viscosity` (pseudo_spect.py 210-366): the attributes with their orders and values; `contains k` says
that the word `k` is in the string `viscosity_type`. -/
def calculViscosity (l time : ℝ) (contains : String → Bool) : Except String (List (String × ℤ × ℝ)) :=
  if ¬ dictVisc.any (fun d => contains d.1) then .error "ValueError"
  else .ok (dictVisc.map fun d => (d.2.1, d.2.2, if contains d.1 then l ^ d.2.2 / time else 0))

/-! ### The time of the simulation -/

/-- Time and iteration of the simulation. -/
structure Clock where
  t : ℝ
  it : ℕ

/-- `TimeSteppingBase.__init__` (fluidsim/base/time_stepping/base.py 99-101). -/
def Clock.init : Clock := ⟨0, 0⟩

/-- `SimulBase.__init__` (fluidsim/base/solvers/base.py 178-223): creation of the time stepping, initial fields
(which set the time of the file: fluidsim/base/init_fields.py 296-297) and preprocessing, whose `set_viscosity`
calls `time_stepping.__init__` again (preprocess/pseudo_spect.py 162). -/
def simulInit (file : Option Clock) (enable : Bool) : Clock :=
  let c := Clock.init
  let c := match file with
    | some f => f
    | none => c
  if enable then Clock.init else c

end

end Verif.Preproc
