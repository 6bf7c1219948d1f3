import Verif.Pdf.Model
import Verif.SpecFigs.Model

/-! # C67: the figure of the probability density functions

`ProbaDensityFunc.plot` (/repo/fluidsim/base/output/prob_dens_func.py 111-178) and
`_online_plot_saving` (60-64). Exact arithmetic; the titles are not modelled. -/

namespace Verif.Pdf

open Verif.PhysFiles (closest)
open Verif.Increm (npRound)
open Verif.SpecFigs (meanStep indices)

noncomputable section

/-- The edge number `i` of the `n` equal bins of `[lo, hi]` (`bin_edges`). -/
def edge (n : ℕ) (lo hi : ℝ) (i : ℕ) : ℝ := lo + (hi - lo) / n * i

/-- The file pdf.h5: the times and, for each of them, the two functions with their bins. -/
structure PdfFile (n : ℕ) where
  times : List ℝ
  eta : List ((Fin n → ℝ) × ℝ × ℝ)
  u : List ((Fin n → ℝ) × ℝ × ℝ)

/-- `delta_i_plot` (145-152): with one record, `delta_t_save = delta_t`. The division by zero gives
nan or inf, and `int` raises (`none`). -/
def figStep (times : List ℝ) (dt : ℝ) : Option ℤ :=
  let save := if 1 < times.length then meanStep times else dt
  if save = 0 then none
  else
    let di := npRound (dt / save)
    some (if di = 0 then 1 else di)

/-- The points of one curve (168-178): `(edges[:-1] + edges[1:]) / 2` and the values. -/
def figCurve {n : ℕ} (r : (Fin n → ℝ) × ℝ × ℝ) (i : Fin n) : ℝ × ℝ :=
  ((edge n r.2.1 r.2.2 i + edge n r.2.1 r.2.2 (i + 1)) / 2, r.1 i)

/-- The points of the online figure (60-64): `edges[:-1]` and the values. -/
def onlineCurve {n : ℕ} (r : (Fin n → ℝ) × ℝ × ℝ) (i : Fin n) : ℝ × ℝ :=
  (edge n r.2.1 r.2.2 i, r.1 i)

/-- `plot` (111-178): the curves of the two panels, by number of record; `none` is an error. A
negative step gives no curve when `imin ≤ imax`; the other case is not modelled (`tmin > tmax`). -/
def figure {n : ℕ} (f : PdfFile n) (tmin tmax dt : ℝ) :
    Option (List (ℕ × (Fin n → ℝ × ℝ)) × List (ℕ × (Fin n → ℝ × ℝ))) :=
  match figStep f.times dt with
  | none => none
  | some di =>
    if f.times = [] then none
    else
      let its := if 0 < di then indices (closest f.times tmin) (closest f.times tmax) di.toNat else []
      let draw := fun recs : List ((Fin n → ℝ) × ℝ × ℝ) =>
        its.filterMap fun i => (recs[i]?).map fun r => (i, figCurve r)
      some (draw f.eta, draw f.u)

end

end Verif.Pdf
