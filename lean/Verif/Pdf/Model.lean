import Verif.Increm.Model
import Verif.PhysFiles.Model

/-! # C67: probability density functions and structure functions

The bins of `np.histogram`, the record of the increments, the average over the time of the saved
functions, the pdf of the velocity, the third order structure functions of sw1l. Exact arithmetic.
Arrays are lists, the array of one process for each element of `locals`. -/

namespace Verif.Pdf

open Verif.Increm (increments valuesInc)

section
variable {K : Type} [Field K] [LinearOrder K]

/-- The range used by `np.histogram(field, range=(lo, hi))`: for a constant field it is enlarged
(`_get_outer_edges` of numpy). -/
def outer (lo hi : K) : K × K := if lo = hi then (lo - 1 / 2, hi + 1 / 2) else (lo, hi)

/-- The bin of a value (`np.histogram` with equal bins): `int((x - lo) / (hi - lo) * n)`, the last bin
contains `hi`. -/
def bin [FloorRing K] (n : ℕ) (lo hi x : K) : Option (Fin n) :=
  if h : lo ≤ x ∧ x ≤ hi ∧ 0 < n then
    some ⟨min ⌊(x - lo) / (hi - lo) * n⌋₊ (n - 1), by omega⟩
  else none

/-- `oper.pdf_normalized` (fluidsim/operators/operators2d.py 370-397): the pdf, the first and the last
edges. -/
def pdfNormalized [FloorRing K] (n : ℕ) (locals : List (List K)) : Except String ((Fin n → K) × K × K) :=
  match Reduce.extrema locals with
  | .error e => .error e
  | .ok m =>
    let r := outer m.1 m.2
    .ok (Reduce.pdfNormalized n (bin n r.1 r.2) ((r.2 - r.1) / n) locals, r.1, r.2)

/-- `compute_increments_dim1` (operators2d.py 62-69) for the rows of the array of one process. -/
def incRows (rx : ℕ) (rows : List (List K)) : List K := (rows.map fun l => increments l rx).flatten

/-- `Increments.compute` (fluidsim/base/output/increments.py 117-137) for one variable: for each
separation, the pdf, `valmin` and `valmax`. -/
def record [FloorRing K] (n : ℕ) (locals : List (List (List K))) :
    List ℕ → Except String (List ((Fin n → K) × K × K))
  | [] => .ok []
  | rx :: l =>
    match pdfNormalized n (locals.map (incRows rx)) with
    | .error e => .error e
    | .ok r =>
      match record n locals l with
      | .error e => .error e
      | .ok rs => .ok (r :: rs)

/-- `np.interp(x, xp, fp)` for the nodes `(xp, fp)` in order: constant before the first node and after
the last one. -/
def interp : List (K × K) → K → K
  | [], _ => 0
  | [p], _ => p.2
  | p :: q :: l, x =>
    if x ≤ p.1 then p.2
    else if x < q.1 then p.2 + (q.2 - p.2) / (q.1 - p.1) * (x - p.1)
    else interp (q :: l) x

/-- The mean of a list. -/
def mean (l : List K) : K := l.sum / (l.length : K)

/-- The records of `range(imin_plot, imax_plot + 1)` (increments.py 379-382, 400, 416). -/
def inRange {A : Type} (times : List K) (recs : List A) (tmin : K) (tmax : Option K) : List A :=
  let i0 := PhysFiles.closest times tmin
  let i1 := PhysFiles.closest times (tmax.getD (times.max?.getD 0))
  (recs.take (i1 + 1)).drop i0

/-- `load_pdf_from_file` (increments.py 354-433) for one separation, with the records of this separation:
the pdf and the values of the increments; `none`: only nan (no record in the range). -/
def loadPdf (n : ℕ) (times : List K) (recs : List ((Fin n → K) × K × K)) (tmin : K) (tmax : Option K) :
    Option ((Fin n → K) × (Fin n → K)) :=
  let l := inRange times recs tmin tmax
  if l.length = 0 then none
  else
    let vmin := mean (l.map fun r => r.2.1)
    let vmax := mean (l.map fun r => r.2.2)
    let values := valuesInc n vmin vmax
    some (fun i => mean (l.map fun r =>
      interp (List.ofFn fun j => (valuesInc n r.2.1 r.2.2 j, r.1 j)) (values i)), values)

/-! ### sw1l -/

/-- The values at one point of the grid: `ux`, `uy`, `eta`. -/
structure Cell (K : Type) where
  ux : K
  uy : K
  eta : K

/-- The increments of `f` for the array of one process. -/
def incOf (f : Cell K → K) (rx : ℕ) (rows : List (List (Cell K))) : List K :=
  incRows rx (rows.map fun l => l.map f)

/-- `IncrementsSW1L.compute` (fluidsim/solvers/sw1l/output/increments.py 24-54) for one separation and in one
process: `struc_func_uL2JL`, `struc_func_uT2JL`, `struc_func_c2h2uL`, `struc_func_Kolmo`,
`struc_func_uT2uL`. The rank 0 writes its own values in the file. -/
def swStruct (c2 : K) (rx : ℕ) (rows : List (List (Cell K))) : K × K × K × K × K :=
  let ux := incOf Cell.ux rx rows
  let uy := incOf Cell.uy rx rows
  let eta := incOf Cell.eta rx rows
  let Jx := incOf (fun c => (1 + c.eta) * c.ux) rx rows
  let a := mean (List.zipWith (fun x j => x ^ 2 * j) ux Jx)
  let b := mean (List.zipWith (fun y j => y ^ 2 * j) uy Jx)
  let c := c2 * mean (List.zipWith (fun e x => e ^ 2 * x) eta ux)
  let d := mean (List.zipWith (fun y x => y ^ 2 * x) uy ux)
  (a, b, c, a + b + c, d)

/-- What is in the file. -/
def swSaved (c2 : K) (rx : ℕ) (locals : List (List (List (Cell K)))) : K × K × K × K × K :=
  swStruct c2 rx (locals.headD [])

end

/-- `u_norme` (fluidsim/base/output/prob_dens_func.py 70-76) in the process whose array is `l`. -/
noncomputable def uNorm (l : List (ℝ × ℝ)) : List ℝ :=
  let uxm := mean (l.map Prod.fst)
  let uym := mean (l.map Prod.snd)
  l.map fun u => √((u.1 - uxm) ^ 2 + (u.2 - uym) ^ 2)

/-- `pdf_u` and its edges (prob_dens_func.py 70-77). -/
noncomputable def pdfU (n : ℕ) (locals : List (List (ℝ × ℝ))) : Except String ((Fin n → ℝ) × ℝ × ℝ) :=
  pdfNormalized n (locals.map uNorm)

end Verif.Pdf
