import Verif.ForcedRegion.Model

/-!
# Model of the figure of the forced modes

Models `plot_forcing_region` (fluidsim/base/forcing/anisotropic.py 237-495): the region which is drawn
(rectangle or sector), the forced modes, the limits of the axes and the numbers of the title.  The
labels and their positions, the grid and the ticks along y are not modelled.
-/

namespace Verif.ForcedRegion

noncomputable section
open Classical

/-- `params.forcing.tcrandom_anisotropic.delta_angle`: `None`, a number of radians, a text which ends
with the degree symbol (after the number which is the parameter), another text. -/
inductive DeltaAngle
  | none
  | radians (x : ℝ)
  | degrees (x : ℝ)
  | text

/-- `ensure_radians(delta_angle)` (fluidsim/util/util.py 722-732); the outer `none` is the
`ValueError`. -/
def ensureRadians : DeltaAngle → Option (Option ℝ)
  | .none => some none
  | .radians x => some (some x)
  | .degrees x => some (some (x * (Real.pi / 180)))
  | .text => none

/-- `math.degrees`. -/
def degrees (x : ℝ) : ℝ := x * (180 / Real.pi)

/-- A point of the figure: abscissa `k_h`, ordinate `k_v`. -/
abbrev Pt := ℝ × ℝ

/-- `patches.Arc` of centre `(0, 0)`, `angle=0` and `width = height`; the angles are in degrees, from
the abscissa axis. -/
structure Arc where
  width : ℝ
  theta1 : ℝ
  theta2 : ℝ

/-- What is drawn. -/
structure Figure where
  /-- `xy`, `width`, `height` of the rectangle. -/
  rect : Option (Pt × ℝ × ℝ)
  /-- The full arcs (382-411). -/
  arcs : List Arc
  /-- The full lines (437-448). -/
  lines : List (Pt × Pt)
  /-- The forced modes (476-492). -/
  points : List Pt
  /-- The upper limit of both axes; the lower limit is 0 (298-301). -/
  lim : ℝ
  /-- The distance between the ticks along x (303). -/
  xtick : ℝ
  /-- The angle in degrees in the title, before the rounding (288). -/
  titleAngle : ℝ
  /-- The number of forced modes in the title (289). -/
  titleNb : ℕ
  /-- The wavenumbers of the title: numbers of `deltak_v` (285-286). -/
  titleNk : ℝ × ℝ

/-- `khmin_forcing, khmax_forcing, kvmin_forcing, kvmax_forcing` (91-106, 166-168). -/
def corners (angle kmin kmax : ℝ) : Option ℝ → Box
  | none => mkBox angle kmin kmax
  | some d => ⟨Real.sin (angle - 0.5 * d) * kmin, Real.sin (angle + 0.5 * d) * kmax,
      Real.cos (angle + 0.5 * d) * kmin, Real.cos (angle - 0.5 * d) * kmax⟩

/-- The indices of the forced modes: `np.argwhere(self.COND_NO_F == False)` (477), in 2D. -/
def forced2 (noF : ℕ → ℕ → Prop) (nky nkx : ℕ) : List (ℕ × ℕ) :=
  ((List.range nky).flatMap fun iy => (List.range nkx).map fun ix => (iy, ix)).filter
    fun i => decide (¬ noF i.1 i.2)

/-- The same in 3D. -/
def forced3 (noF : ℕ → ℕ → ℕ → Prop) (nkz nky nkx : ℕ) : List (ℕ × ℕ × ℕ) :=
  ((List.range nkz).flatMap fun iz => (List.range nky).flatMap fun iy =>
    (List.range nkx).map fun ix => (iz, iy, ix)).filter fun i => decide (¬ noF i.1 i.2.1 i.2.2)

/-- The part of the figure which does not depend on the modes (262-467); `none` is the `TypeError`
raised by `degrees(delta_angle)` and by `0.5 * delta_angle` when `delta_angle` is a text: the value of
the parameter is not converted here (248-253).  `delta` is the value used for the corners, converted
when the forcing was created. -/
def region (angle kmin kmax : ℝ) (raw : DeltaAngle) (delta : Option ℝ) :
    Option (Option (Pt × ℝ × ℝ) × List Arc × List (Pt × Pt)) :=
  let b := corners angle kmin kmax delta
  match raw with
  | .none => some (some ((b.khmin, b.kvmin), b.khmax - b.khmin, b.kvmax - b.kvmin), [], [])
  | .radians d =>
    let theta1 := 90 - degrees angle - 0.5 * degrees d
    let theta2 := 90 - degrees angle + 0.5 * degrees d
    some (none, [⟨2 * kmin, theta1, theta2⟩, ⟨2 * kmax, theta1, theta2⟩],
      [((b.khmin, kmin * Real.cos (angle - 0.5 * d)), (kmax * Real.sin (angle - 0.5 * d), b.kvmax)),
       ((kmin * Real.sin (angle + 0.5 * d), b.kvmin), (b.khmax, kmax * Real.cos (angle + 0.5 * d)))])
  | .degrees _ => none
  | .text => none

/-- `plot_forcing_region` (237-495) in 2D.  The outer `none` is the `ValueError` of the construction of
the forcing, the inner one the `TypeError` of this function. -/
def plotRegion2 (dky dkx nkmin nkmax angle : ℝ) (raw : DeltaAngle) (kzNegative : Bool) (nky nkx : ℕ) :
    Option (Option Figure) :=
  let kmin := kForcing [dky, dkx] nkmin
  let kmax := kForcing [dky, dkx] nkmax
  match ensureRadians raw with
  | none => none
  | some delta =>
    let forced := forced2 (anisoNoF2 dky dkx angle kmin kmax delta kzNegative nky nkx) nky nkx
    some ((region angle kmin kmax raw delta).map fun r =>
      { rect := r.1, arcs := r.2.1, lines := r.2.2
        points := forced.map fun i => (dkx * i.2, dky * adim nky i.1)
        lim := 1.2 * kmax, xtick := dky, titleAngle := degrees angle, titleNb := forced.length
        titleNk := (nkmin * dky, nkmax * dky) })

/-- `plot_forcing_region` (237-495) in 3D: `Kh[0, i1, i2]` and `Kv[i0, 0, 0]`. -/
def plotRegion3 (dkz dky dkx nkmin nkmax angle : ℝ) (raw : DeltaAngle) (kzNegative : Bool)
    (nkz nky nkx : ℕ) : Option (Option Figure) :=
  let kmin := kForcing [dkz, dky, dkx] nkmin
  let kmax := kForcing [dkz, dky, dkx] nkmax
  match ensureRadians raw with
  | none => none
  | some delta =>
    let forced := forced3 (anisoNoF3 dkz dky dkx angle kmin kmax delta kzNegative nkz nky) nkz nky nkx
    some ((region angle kmin kmax raw delta).map fun r =>
      { rect := r.1, arcs := r.2.1, lines := r.2.2
        points := forced.map fun i => (√((dkx * i.2.2) ^ 2 + (dky * adim nky i.2.1) ^ 2), dkz * adim nkz i.1)
        lim := 1.2 * kmax, xtick := dkz, titleAngle := degrees angle, titleNb := forced.length
        titleNk := (nkmin * dkz, nkmax * dkz) })

end

end Verif.ForcedRegion
