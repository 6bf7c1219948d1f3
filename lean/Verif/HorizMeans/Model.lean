import Verif.Fourier.Model
import Mathlib.Data.List.MinMax
import Mathlib.Data.Real.Basic

/-!
# Model of the horizontal means

Models fluidsim/base/output/horiz_means.py (`HorizontalMeans`): what is computed and saved (131-195),
what is read in the file and averaged in time (197-235) and what is drawn (237-265).  The arrays are
global; how the processes share them is in `Verif.Reduce` (C46) and `Verif.Procs` (C86).  The arrays of
the code have the indices `[iz, iy, ix]`; the directions `0, 1, 2` of the model are x, y, z.  Floats are
real numbers (or complex numbers, for the statements which do not use the order).
-/

namespace Verif.HorizMeans

open Verif.Fourier Finset

noncomputable section

variable {K : Type} [Field K]

/-- The point of the grid with the indices `ix, iy, iz`. -/
def pt {n : Fin 3 → ℕ} (a : Fin (n 0)) (b : Fin (n 1)) (c : Fin (n 2)) : Pt n
  | 0 => a
  | 1 => b
  | 2 => c

/-- `_compute_hmean` (horiz_means.py 92-120) for one process: `np.mean(arr3d, axis=(1, 2))`. -/
def hmean (n : Fin 3 → ℕ) (f : Pt n → K) (c : Fin (n 2)) : K :=
  (∑ b : Fin (n 1), ∑ a : Fin (n 0), f (pt a b c)) / ((n 0 * n 1 : ℕ) : K)

/-- `vx - vx_mean3d` (122-129, 180-187). -/
def fluct (n : Fin 3 → ℕ) (f : Pt n → K) (j : Pt n) : K := f j - hmean n f (j 2)

/-- One of the six last profiles (189-195). -/
def stress (n : Fin 3 → ℕ) (f g : Pt n → K) : Fin (n 2) → K :=
  hmean n fun j => fluct n f j * fluct n g j

/-- `compute` (163-195). -/
def compute (n : Fin 3 → ℕ) (vx vy vz : Pt n → K) : List (String × (Fin (n 2) → K)) :=
  [("vx", hmean n vx), ("vy", hmean n vy), ("vz", hmean n vz),
   ("vxp_vxp", stress n vx vx), ("vyp_vyp", stress n vy vy), ("vzp_vzp", stress n vz vz),
   ("vyp_vxp", stress n vy vx), ("vzp_vxp", stress n vz vx), ("vzp_vyp", stress n vz vy)]

/-- The array `z` (152-153). -/
def zs (Lz : ℝ) (nz : ℕ) (i : Fin nz) : ℝ := Lz / nz * (i : ℕ)

/-- A saved state: the time and the velocity. -/
structure Record (n : Fin 3 → ℕ) where
  time : ℝ
  vx : Pt n → ℝ
  vy : Pt n → ℝ
  vz : Pt n → ℝ

/-- The file: the array of times, the array `z`, and for each name the profiles, one per time. -/
structure File (m : ℕ) where
  times : List ℝ
  z : Fin m → ℝ
  dsets : List (String × List (Fin m → ℝ))

/-- The file after the records (`arrays_1st_time` at its creation, then one line per record,
fluidsim/base/output/base.py, C16); the names are the ones returned by `compute`. -/
def fileOf (n : Fin 3 → ℕ) (Lz : ℝ) (rs : List (Record n)) : File (n 2) where
  times := rs.map fun r => r.time
  z := zs Lz (n 2)
  dsets := ["vx", "vy", "vz", "vxp_vxp", "vyp_vyp", "vzp_vzp", "vyp_vxp", "vzp_vxp", "vzp_vyp"].map
    fun key => (key, rs.map fun r => ((compute n r.vx r.vy r.vz).lookup key).getD fun _ => 0)

/-- `np.argmin(abs(times - t))`; `none` is the error for an empty array. -/
def nearest (times : List ℝ) (t : ℝ) : Option ℕ :=
  (List.range times.length).argmin fun i => |times.getD i 0 - t|

/-- The mean over the first axis; `none` is `nan`. -/
def timeMean {m : ℕ} (l : List (Fin m → ℝ)) : Option (Fin m → ℝ) :=
  if l = [] then none else some fun c => (l.map fun p => p c).sum / l.length

/-- `imin_plot` of `load` (horiz_means.py 197-235). -/
def firstIndex (times : List ℝ) : Option ℝ → Option ℕ
  | none => if times = [] then none else some 0
  | some t => nearest times t

/-- `imax_plot` of `load` (horiz_means.py 197-235). -/
def lastIndex (times : List ℝ) : Option ℝ → Option ℕ
  | none => if times = [] then none else some (times.length - 1)
  | some t => nearest times t

/-- `load` (197-235): the array `z` and the averages; the error is the one of an empty file
(`argmin` of an empty array or `times[...]` out of range). -/
def load {m : ℕ} (f : File m) (tmin tmax : Option ℝ) :
    Option ((Fin m → ℝ) × List (String × Option (Fin m → ℝ))) :=
  match firstIndex f.times tmin, lastIndex f.times tmax with
  | some imin, some imax =>
    some (f.z, (f.dsets.filter fun d => d.1.startsWith "v").map fun d =>
      (d.1, timeMean ((d.2.take (imax + 1)).drop imin)))
  | _, _ => none

/-- The curves of `plot` (237-265): the ones of the left and of the right axes, with the ordinates `z`;
`none` is a `KeyError` or the error of `load`. -/
def plot {m : ℕ} (f : File m) (tmin tmax : Option ℝ) :
    Option ((Fin m → ℝ) × List (Option (Fin m → ℝ)) × List (Option (Fin m → ℝ))) :=
  match load f tmin tmax with
  | none => none
  | some (z, data) =>
    match ["vx", "vy", "vz"].mapM fun k => data.lookup k,
      ["vxp_vxp", "vyp_vyp", "vzp_vzp", "vyp_vxp", "vzp_vxp", "vzp_vyp"].mapM fun k => data.lookup k with
    | some l, some r => some (z, l, r)
    | _, _ => none

end

end Verif.HorizMeans
