import Mathlib.Data.List.Basic
import Mathlib.Data.Rat.Floor
import Mathlib.Analysis.Complex.Basic
import Mathlib.Analysis.SpecialFunctions.Pow.Real
import Mathlib.Analysis.Real.Pi.Bounds
import Verif.PhysFiles.Model
import Verif.Vectors.Model

/-!
# The spectra of the 3D solvers (C61)

`fluidsim/base/output/spectra3d.py`: three files (`spectra1d.h5`, `spectra3d.h5`,
`spectra_kzkh.h5`), the last one with one record out of `kzkh_periodicity`.

A record is an element of an arbitrary type `R` (the time and the state that it describes). The
content of one file under appends and crashes inside one append is the subject of C16; here one
append is atomic, and what is followed is which records go to which file.
The root process is modelled (the others write nothing).
-/

namespace Verif.Spectra

section files

variable {R : Type*}

/-- The three files (spectra3d.py 114-118); `none`: no such file. -/
structure Disk (R : Type*) where
  f1 : Option (List R)
  f3 : Option (List R)
  fk : Option (List R)

/-- The attributes `nb_saved_times` and `kzkh_periodicity` of the object (spectra3d.py 104-106). -/
structure Obj where
  nb : ℕ
  period : ℕ

/-- `value`: `_add_dict_arrays_to_file` on a missing file (base/output/base.py 646-647).
`attribute`: `None.items()` (base/output/base.py 655, 633) when `compute` gave no dictionary. -/
inductive Err where
  | value
  | attribute
  deriving DecidableEq

/-- `has_to_save_kzkh` on the root process (spectra3d.py 160-167). -/
def hasToSave (o : Obj) : Bool := o.period ≠ 0 && o.nb % o.period = 0

/-- The third result of `compute` (ns3d/output/spectra.py 88-97, ns3d/strat/output/spectra.py
94-102): a dictionary if the (kz, kh) spectra are to be saved, else `None`. -/
def computeKzkh (o : Obj) (r : R) : Option R := if hasToSave o then some r else none

/-- `_add_dict_arrays_to_file` (base/output/base.py 645-663), with its argument possibly `None`. -/
def add (f : Option (List R)) (d : Option R) : Except Err (List R) :=
  match f, d with
  | none, _ => .error .value
  | some _, none => .error .attribute
  | some l, some r => .ok (l ++ [r])

/-- `_create_file_from_dict_arrays` (base/output/base.py 614-643): nothing if the file exists. -/
def create (f : Option (List R)) (d : Option R) : Except Err (List R) :=
  match f, d with
  | some l, _ => .ok l
  | none, none => .error .attribute
  | none, some r => .ok [r]

/-- One writing on the disk, in the order of the program. -/
inductive Op (R : Type*) where
  | add1 (r : R) | add3 (r : R) | addk (d : Option R)
  | create1 (r : R) | create3 (r : R) | createk (d : Option R)

/-- Effect of one writing. -/
def apply (d : Disk R) : Op R → Except Err (Disk R)
  | .add1 r => (add d.f1 (some r)).map fun l => { d with f1 := some l }
  | .add3 r => (add d.f3 (some r)).map fun l => { d with f3 := some l }
  | .addk k => (add d.fk k).map fun l => { d with fk := some l }
  | .create1 r => (create d.f1 (some r)).map fun l => { d with f1 := some l }
  | .create3 r => (create d.f3 (some r)).map fun l => { d with f3 := some l }
  | .createk k => (create d.fk k).map fun l => { d with fk := some l }

/-- Writings one after the other, until the first error. -/
def applyAll (d : Disk R) : List (Op R) → Disk R × Option Err
  | [] => (d, none)
  | op :: ops =>
    match apply d op with
    | .ok d' => applyAll d' ops
    | .error e => (d, some e)

/-- `_init_files` (spectra3d.py 120-158): the writings and the value of `nb_saved_times` at the
end. `compute` is called while `nb_saved_times = 0` (line 121). -/
def initOps (d : Disk R) (p : ℕ) (r : R) : List (Op R) × ℕ :=
  let k := computeKzkh ⟨0, p⟩ r
  match d.f1 with
  | none =>
    ([.create1 r, .create3 r] ++ (if p ≠ 0 then [.createk k] else []), 1)
  | some l =>
    let nb := l.length + 1
    ([.add1 r, .add3 r] ++ (if hasToSave ⟨nb, p⟩ then [.addk k] else []), nb)

/-- `_online_save` when the record is due (spectra3d.py 177-187). -/
def saveOps (o : Obj) (r : R) : List (Op R) :=
  [.add1 r, .add3 r] ++ (if hasToSave o then [.addk (computeKzkh o r)] else [])

/-- Life of a directory. `start p r`: a process builds its output object with
`kzkh_periodicity = p`, in the state `r`. `save r`: a record is due. `killStart m p r`,
`killSave m r`: the process is killed in the course of these, after `m` writings. -/
inductive Ev (R : Type*) where
  | start (p : ℕ) (r : R)
  | save (r : R)
  | killStart (m p : ℕ) (r : R)
  | killSave (m : ℕ) (r : R)

/-- The disk, the object of the process alive (`none`: no process), and the exceptions raised so
far. -/
structure St (R : Type*) where
  disk : Disk R
  obj : Option Obj
  errs : List Err

/-- One event; an exception ends the process (spectra3d.py 120-187). -/
def step (s : St R) : Ev R → St R
  | .start p r =>
    let (ops, nb) := initOps s.disk p r
    match applyAll s.disk ops with
    | (d, none) => ⟨d, some ⟨nb, p⟩, s.errs⟩
    | (d, some e) => ⟨d, none, s.errs ++ [e]⟩
  | .save r =>
    match s.obj with
    | none => s
    | some o =>
      match applyAll s.disk (saveOps o r) with
      | (d, none) => ⟨d, some { o with nb := o.nb + 1 }, s.errs⟩
      | (d, some e) => ⟨d, none, s.errs ++ [e]⟩
  | .killStart m p r =>
    { s with disk := (applyAll s.disk ((initOps s.disk p r).1.take m)).1, obj := none }
  | .killSave m r =>
    match s.obj with
    | none => s
    | some o =>
      { s with disk := (applyAll s.disk ((saveOps o r).take m)).1, obj := none }

/-- The empty directory. -/
def empty : St R := ⟨⟨none, none, none⟩, none, []⟩

/-- A history from the empty directory. -/
def run (h : List (Ev R)) : St R := h.foldl step empty

end files

/-! ## Names of the datasets and loading -/

/-- Keys of the 1D file for ns3d (ns3d/output/spectra.py 27-41, 68-77). -/
def keys1Ns3d : List String :=
  ["spectra_vx_kx", "spectra_vx_ky", "spectra_vx_kz", "spectra_vy_kx", "spectra_vy_ky",
   "spectra_vy_kz", "spectra_vz_kx", "spectra_vz_ky", "spectra_vz_kz", "spectra_E_kx",
   "spectra_E_ky", "spectra_E_kz"] ++
  ["Khr_kx", "Khr_ky", "Khr_kz", "Khd_kx", "Khd_ky", "Khd_kz"]

/-- Keys of the 3D file for ns3d (ns3d/output/spectra.py 47-53, 82-87). -/
def keys3Ns3d : List String :=
  ["spectra_vx", "spectra_vy", "spectra_vz", "spectra_E"] ++ ["Khr", "Khd"]

/-- Keys of the 1D file for ns3d.strat (ns3d/strat/output/spectra.py 52-75). -/
def keys1Strat : List String :=
  ["vx_kx", "vx_ky", "vx_kz", "vy_kx", "vy_ky", "vy_kz", "vz_kx", "vz_ky", "vz_kz", "E_kx",
   "E_ky", "E_kz", "A_kx", "A_ky", "A_kz", "Khr_kx", "Khr_ky", "Khr_kz", "Khd_kx", "Khd_ky",
   "Khd_kz"].map fun k => "spectra_" ++ k

/-- Keys of the 3D file for ns3d.strat (ns3d/strat/output/spectra.py 83-92). -/
def keys3Strat : List String :=
  ["vx", "vy", "vz", "E", "A", "Khr", "Khd"].map fun k => "spectra_" ++ k

/-- Keys of the (kz, kh) file (ns3d/output/spectra.py 89-95). -/
def keysKNs3d : List String := ["K", "Khr", "Khd"]

/-- Keys of the (kz, kh) file (ns3d/strat/output/spectra.py 95-100). -/
def keysKStrat : List String := ["A", "Khr", "Khd", "Kz"]

/-- The spectra averaged by `_load_mean_file` (spectra3d.py 234-253): the requested ones, all of
which must be in the file, or those whose name starts with `spectr`. -/
def loadedKeys (file : List String) (request : Option (List String)) :
    Except Err (List String) :=
  match request with
  | some ks => if ks.all fun k => k ∈ file then .ok ks else .error .value
  | none => .ok (file.filter fun k => k.startsWith "spectr")

/-- The slice `dset[imin : imax + 1]` of `_load_mean_file` (spectra3d.py 214-224, 243, 251; the same in
spectra_multidim.py 122-146 and, up to the defaults, spectra.py 95-113). -/
def slice {Q : Type*} [Field Q] [LinearOrder Q] {A : Type*} (times : List Q) (vals : List A)
    (tmin tmax : Option Q) : List A :=
  let imin := match tmin with
    | none => 0
    | some t => Verif.PhysFiles.closest times t
  let imax := match tmax with
    | none => times.length - 1
    | some t => Verif.PhysFiles.closest times t
  (vals.take (imax + 1)).drop imin

/-- `.mean(0)`: a spectrum is a function of the bin; `none` is the array of `nan` obtained from
an empty slice. -/
def mean {Q B : Type*} [Field Q] (l : List (B → Q)) : Option (B → Q) :=
  match l with
  | [] => none
  | l => some fun b => (l.map fun s => s b).sum / l.length

/-! ## The values -/

noncomputable section

open Verif.Vectors

/-- The energies of one mode that `compute` transforms into spectra
(ns3d/strat/output/spectra.py 33-40; without `A`, ns3d/output/spectra.py 55-60 and
`compute_energies_fft`). -/
structure ModeEnergies where
  vx : ℝ
  vy : ℝ
  vz : ℝ
  A : ℝ
  Khr : ℝ
  Khd : ℝ

/-- `0.5 * np.abs(...)**2` for each of them. -/
def modeEnergies (N : ℝ) (k : K3) (v : V3) (b : ℂ) : ModeEnergies :=
  let u := urud k v.x v.y
  { vx := 0.5 * ‖v.x‖ ^ 2
    vy := 0.5 * ‖v.y‖ ^ 2
    vz := 0.5 * ‖v.z‖ ^ 2
    A := 0.5 / N ^ 2 * ‖b‖ ^ 2
    Khr := 0.5 * (‖u.1.1‖ ^ 2 + ‖u.1.2‖ ^ 2)
    Khd := 0.5 * (‖u.2.1‖ ^ 2 + ‖u.2.2‖ ^ 2) }

/-- The spectra of `compute` along one of the axes, or the 3D or (kz, kh) one. `sp` is
fluidfft's function from the energies of the modes to a spectrum. -/
structure SpectraAt (B : Type*) where
  vx : B → ℝ
  vy : B → ℝ
  vz : B → ℝ
  E : B → ℝ
  A : B → ℝ
  Khr : B → ℝ
  Khd : B → ℝ

/-- `compute` (ns3d/strat/output/spectra.py 42-91): `E` is the sum of three spectra. -/
def compute {M B : Type*} (sp : (M → ℝ) → B → ℝ) (e : M → ModeEnergies) : SpectraAt B where
  vx := sp fun m => (e m).vx
  vy := sp fun m => (e m).vy
  vz := sp fun m => (e m).vz
  E := fun b => sp (fun m => (e m).vx) b + sp (fun m => (e m).vy) b + sp (fun m => (e m).vz) b
  A := sp fun m => (e m).A
  Khr := sp fun m => (e m).Khr
  Khd := sp fun m => (e m).Khd

/-- `dict_kzkh["K"]` of ns3d (ns3d/output/spectra.py 90-92). -/
def kzkhK {M B : Type*} (sp : (M → ℝ) → B → ℝ) (e : M → ModeEnergies) : B → ℝ :=
  sp fun m => (e m).vx + (e m).vy + (e m).vz

/-- `compute_isotropy_velocities` (spectra3d.py 322-339) from the spectra along `kz`; the bin
`0` of the two horizontal components is set to zero. The division by zero, which gives `nan`, is
Lean's `0`. -/
def isotropy {n : ℕ} (dk : ℝ) (sx sy sz : Fin (n + 1) → ℝ) : ℝ :=
  let ex := fun i : Fin (n + 1) => if i = 0 then 0 else sx i * dk
  let ey := fun i : Fin (n + 1) => if i = 0 then 0 else sy i * dk
  let EKz := ∑ i, sz i * dk
  let EK := (∑ i, ex i) + (∑ i, ey i) + EKz
  3 * EKz / EK

/-- `compute_length_scales` (spectra3d.py 341-363) for one axis: `(l1, l2)`; `tau = 2 π`. -/
def lengthScales {n : ℕ} (k E : Fin (n + 1) → ℝ) : ℝ × ℝ :=
  let sum0 := ∑ i, E i
  let sum1 := ∑ i, E i * k i
  let sum2 := ∑ i, E i * k i ^ 2
  (2 * Real.pi * sum0 / sum1, 2 * Real.pi * Real.sqrt (sum0 / sum2))

end

end Verif.Spectra
