import Mathlib.Algebra.BigOperators.Group.List.Basic
import Mathlib.Algebra.Order.Field.Basic
import Mathlib.Algebra.BigOperators.Fin
import Mathlib.Algebra.Order.BigOperators.Group.List

/-! # Model of the reductions over the processes -/

namespace Verif.Reduce

variable {K : Type} [Field K]

/-! ### `mean_space` -/

/-- `np.mean`. -/
def npMean (l : List K) : K := l.sum / (l.length : K)

/-- `mean_space` (fluidsim/operators/base.py 74-81); `locals` are the (flattened) local arrays of the processes.
For one process, `np.mean`. -/
def meanSpace (locals : List (List K)) : K :=
  match locals with
  | [arr] => npMean arr
  | _ => (locals.map List.sum).sum / (((locals.map List.length).sum : ℕ) : K)

/-! ### Histograms -/

/-- `np.histogram(field, bins=n, range=...)`: `bin` gives the bin of a value (`none`: out of the range). -/
def histogram {β : Type} (n : ℕ) (bin : β → Option (Fin n)) (l : List β) : Fin n → ℕ :=
  fun i => l.countP fun x => decide (bin x = some i)

/-- `pdf_normalized` (fluidsim/operators/operators2d.py 371-401) with `width = bin_edges[1] - bin_edges[0]`;
`bin` is the binning for the extrema returned by `allreduce` (the same for all processes, see `extrema`). With one
process `np.histogram(..., density=True)` computes the same expression. -/
def pdfNormalized {β : Type} (n : ℕ) (bin : β → Option (Fin n)) (width : K) (locals : List (List β)) : Fin n → K :=
  let hist : Fin n → ℕ := fun i => (locals.map fun l => histogram n bin l i).sum
  fun i => (hist i : K) / (width * ((∑ j, hist j : ℕ) : K))

/-- `field.min()`, `field.max()` (operators2d.py 374-375). An empty array raises `ValueError`. -/
def localExtrema [LinearOrder K] : List K → Except String (K × K)
  | [] => .error "ValueError"
  | x :: xs => .ok (xs.foldl min x, xs.foldl max x)

/-- The extrema of `pdf_normalized` (operators2d.py 374-379). -/
def extrema [LinearOrder K] (locals : List (List K)) : Except String (K × K) := do
  let ms ← locals.mapM localExtrema
  match ms with
  | [] => .error "no process"
  | m :: ms => .ok ((ms.map Prod.fst).foldl min m.1, (ms.map Prod.snd).foldl max m.2)

/-! ### Horizontal means -/

/-- The part of an array in one process: the index of its first row and its rows. For the horizontal means a row
contains the values at one level `iz`; for the regions (below) a row contains the values for one index `ix`. -/
structure Block (β : Type) where
  start : ℕ
  rows : List (List β)

/-- `sum_global[iz_start : iz_start + nz_loc] += data` (fluidsim/base/output/horiz_means.py 115-117). -/
def addSlice (g : ℕ → K) (start : ℕ) (data : List K) : ℕ → K :=
  fun i => if start ≤ i ∧ i < start + data.length then g i + data.getD (i - start) 0 else g i

/-- `_compute_hmean` (horiz_means.py 92-120): the profile computed by the process 0. With one process the result
is `np.mean(arr3d, axis=(1, 2))`, i.e. the sums divided by the number of points of each level. -/
def hmean (nh : ℕ) (blocks : List (Block K)) : ℕ → K :=
  let total := blocks.foldl (fun g b => addSlice g b.start (b.rows.map List.sum)) (fun _ => 0)
  fun i => total i / (nh : K)

/-- An operation done in each process on the local array, with a profile which depends on the level:
`_hmean_to_3d_local` (horiz_means.py 122-129: `profile[iz_start : iz_start + nz_local]` broadcast) followed by
local operations (horiz_means.py 180-197). -/
def Block.mapLevel {β γ : Type} (f : ℕ → β → γ) (b : Block β) : Block γ :=
  ⟨b.start, b.rows.mapIdx fun j row => row.map (f (b.start + j))⟩

/-! ### Means over regions -/

/-- The stop of a slice for an axis of length `n` (Python). -/
def sliceStop (n : ℕ) (s : ℤ) : ℕ := if s < 0 then (s + n).toNat else min s.toNat n

/-- `a[start:stop]` along the first axis, `start` is `None` or nonnegative. -/
def slice {β : Type} (start : Option ℕ) (stop : ℤ) (l : List β) : List β :=
  (l.take (sliceStop l.length stop)).drop (start.getD 0)

/-- The local index of a surface, `None` if it is not in the process
(fluidsim/extend_simul/spatial_means_regions_milestone.py 125-130, 144-148). -/
def locIndex (ix start nloc : ℕ) : Option ℕ :=
  let l : ℤ := (ix : ℤ) - start
  if l < 0 ∨ l > (nloc : ℤ) - 1 then none else some l.toNat

/-- The rows of the mask of a region in one process (spatial_means_regions_milestone.py 119-171). -/
def maskRows {β : Type} (ixmin ixmax : ℕ) (b : Block β) : List (List β) :=
  slice (locIndex ixmin b.start b.rows.length) ((ixmax : ℤ) - b.start + 1) b.rows

/-- `_compute_means_regions` for one region (spatial_means_regions_milestone.py 263-271). -/
def meanRegion (ixmin ixmax : ℕ) (blocks : List (Block K)) : K :=
  (blocks.map fun b => ((maskRows ixmin ixmax b).map List.sum).sum).sum /
    ((((blocks.map fun b => ((maskRows ixmin ixmax b).map List.length).sum).sum : ℕ)) : K)

/-- The bounds of a region after the special case of the whole domain (spatial_means_regions_milestone.py 132-150):
`ixmax` for the surface and the length of the region. -/
def regionSurf (nx ixmin ixmax : ℕ) (dx : K) : ℕ × K :=
  if ixmax = nx - 1 ∧ ixmin = 0 then ((ixmax + 1) % nx, (ixmax : K) * dx + dx - (ixmin : K) * dx)
  else (ixmax % nx, (ixmax : K) * dx - (ixmin : K) * dx)

/-- `compute_flux` (spatial_means_regions_milestone.py 273-294); the blocks contain the values of `vx * field`. The
number of points is computed in the same way (172-191). -/
def flux (ix : ℕ) (length : K) (blocks : List (Block K)) : K :=
  (blocks.map fun b => (locIndex ix b.start b.rows.length).elim 0 fun l => (b.rows.getD l []).sum).sum /
  (((blocks.map fun b => (locIndex ix b.start b.rows.length).elim 0 fun l =>
    (b.rows.getD l []).length).sum : ℕ) : K) / length

/-- `_compute_fluxes_regions` for one region (296-299). -/
def fluxes (nx ixmin ixmax : ℕ) (dx : K) (blocks : List (Block K)) : K × K :=
  let r := regionSurf nx ixmin ixmax dx
  (flux ixmin r.2 blocks, - flux r.1 r.2 blocks)

end Verif.Reduce
