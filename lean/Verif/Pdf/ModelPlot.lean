import Verif.Pdf.Model

/-! # C67: the figures of the increments

The values of the curves drawn by the methods `plot`, `plot_pdf` and `plot_Kolmo` of the outputs `increments`. Exact arithmetic; a division
by zero gives zero (a point which is not drawn for numpy). The reference lines (powers of `r`) and the texts are not modelled. -/

namespace Verif.Pdf

open Verif.Increm (strfunc valuesInc)

variable {K : Type} [Field K] [LinearOrder K]

/-- What is read in increments.h5: the times, the separations, for each variable and each separation the records, `nx` and `Lx`. -/
structure IncFile (K : Type) (n : ℕ) where
  times : List K
  rxs : List ℕ
  records : String → ℕ → List ((Fin n → K) × K × K)
  nx : ℕ
  Lx : K

/-- One abscissa of the figure: the separation, the structure functions of `ux` and `uy` divided by it, the ratio of their absolute values and
the flatnesses. -/
structure Point (K : Type) where
  r : K
  sx : K
  sy : K
  ratio : K
  fx : K
  fy : K

/-- `flatnessL_bis = S4_ux / S2_ux**2` (fluidsim/base/output/increments.py 313-320). -/
def flatness {n : ℕ} (hn : 2 ≤ n) (pdf values : Fin n → K) : K :=
  strfunc hn pdf values 4 false / strfunc hn pdf values 2 false ^ 2

/-- The values of `plot` for the separation number `i` (increments.py 172-183, 209-215, 231-234, 256-266, 313-323); `none`: nan. -/
def plotPoint {n : ℕ} (hn : 2 ≤ n) (f : IncFile K n) (tmin : K) (tmax : Option K) (order i rx : ℕ) : Option (Point K) :=
  match loadPdf n f.times (f.records "ux" i) tmin tmax, loadPdf n f.times (f.records "uy" i) tmin tmax with
  | some (px, vx), some (py, vy) =>
    let r := (rx : K) * (f.Lx / f.nx)
    let Sx := strfunc hn px vx order false
    let Sy := strfunc hn py vy order false
    some ⟨r, Sx / r, Sy / r, |Sx| / |Sy|, flatness hn px vx, flatness hn py vy⟩
  | _, _ => none

/-- `Increments.plot` (increments.py 165-331) for integer orders. With one record the mean interval between two records is nan and
`int(np.round(nan))` raises (line 189); without record `argmin` of an empty array raises. -/
def plotInc {n : ℕ} (hn : 2 ≤ n) (f : IncFile K n) (tmin : K) (tmax : Option K) (order : ℕ) : Except String (List (Option (Point K))) :=
  if f.times.length < 2 then .error "ValueError"
  else .ok (f.rxs.mapIdx fun i rx => plotPoint hn f tmin tmax order i rx)

/-- `IncrementsSW1L.plot` (fluidsim/solvers/sw1l/output/increments.py 56-235): with one record, `delta_t_save = delta_t` (77-82). -/
def plotIncSw {n : ℕ} (hn : 2 ≤ n) (f : IncFile K n) (tmin : K) (tmax : Option K) (deltaT : K) (order : ℕ) :
    Except String (List (Option (Point K))) :=
  if f.times.length = 0 then .error "ValueError"
  else if f.times.length = 1 ∧ deltaT = 0 then .error "ZeroDivisionError"
  else .ok (f.rxs.mapIdx fun i rx => plotPoint hn f tmin tmax order i rx)

/-- The separations drawn by `plot_pdf`: `np.arange(0, size, size / nb).astype(int)` (fluidsim/base/output/increments.py 427-430), with an
exact quotient. -/
def pdfSeparations (size nb : ℕ) : List ℕ := (List.range nb).map fun j => j * size / nb

/-- `plot_pdf` (increments.py 427-464) for integer orders `order ≥ 0`: for each separation its index, the color and the curve; there are
seven colors. `nb = 0`: division by zero; without separation the step is zero. -/
def plotPdf {n : ℕ} (f : IncFile K n) (tmin : K) (tmax : Option K) (key : String) (order nb : ℕ) :
    Except String (List (ℕ × Char × Option ((Fin n → K) × (Fin n → K)))) :=
  if nb = 0 ∨ f.rxs.length = 0 then .error "ZeroDivisionError"
  else
    let l := pdfSeparations f.rxs.length nb
    if 7 < l.length then .error "IndexError"
    else .ok (List.zipWith (fun i c => (i, c, (loadPdf n f.times (f.records key i) tmin tmax).map fun q =>
      (q.2, fun j => q.1 j * q.2 j ^ order))) l ['k', 'y', 'r', 'b', 'g', 'm', 'c'])

/-- The five structure functions saved by sw1l for one separation, averaged over the records (`plot_Kolmo`, sw1l/output/increments.py
269-288). -/
def kolmoMeans (l : List (K × K × K × K × K)) : K × K × K × K :=
  (mean (l.map fun q => q.1), mean (l.map fun q => q.2.1), mean (l.map fun q => q.2.2.1), mean (l.map fun q => q.2.2.2.1))

/-- The curves of `plot_Kolmo` at the separation `r` (sw1l/output/increments.py 290-318, 339): black, red, blue, yellow, and the ratio of the
second figure. -/
def plotKolmo (r : K) (l : List (K × K × K × K × K)) : K × K × K × K × K :=
  let q := kolmoMeans l
  let theo := -4 * r
  (q.2.2.2 / theo, (q.1 + q.2.1) / theo, q.2.2.1 / theo, (q.1 + q.2.1 + q.2.2.1) / theo, q.1 / q.2.1)

end Verif.Pdf
