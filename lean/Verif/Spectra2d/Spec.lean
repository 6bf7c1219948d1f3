import Verif.Spectra2d.Model
import Verif.Spectra.Spec
import Verif.PhysFiles.Spec

/-! # Specification for C65 -/

namespace Verif.Spectra2d

variable {R : Type*}

/-- The records that the events bring to the file number `i` (the files of a record are written in
their order): those of the complete events, and those of the interrupted events that wrote more than
`i` files; `alive` tells whether a process is there to save. -/
def reached (i : ℕ) : Bool → List (Ev R) → List R
  | _, [] => []
  | _, .start r :: h => r :: reached i true h
  | true, .save r :: h => r :: reached i true h
  | false, .save _ :: h => reached i false h
  | _, .killStart j r :: h => if i < j then r :: reached i false h else reached i false h
  | true, .killSave j r :: h => if i < j then r :: reached i false h else reached i false h
  | false, .killSave _ _ :: h => reached i false h

/-- An event that is not interrupted. -/
def Complete : Ev R → Prop
  | .start _ => True
  | .save _ => True
  | _ => False

/-- The states in which processes start and are not killed before the end of the construction of their
output. -/
def starts (h : List (Ev R)) : List R :=
  h.filterMap fun e => match e with
    | .start r => some r
    | _ => none

/-- The arithmetic mean over some records, in each bin. -/
def IsMean {Q : Type*} [Field Q] (recs : List (ℕ → Q)) (F : ℕ → Q) : Prop :=
  ∀ b, F b * recs.length = (recs.map fun s => s b).sum

/-! ## Shallow water -/

section sw

open Verif.Sw1l

/-- The energy of one mode of the linearised shallow-water equations. -/
noncomputable def linEnergy (c2 : ℝ) (u : UEta) : ℝ := (‖u.ux‖ ^ 2 + ‖u.uy‖ ^ 2 + c2 * ‖u.eta‖ ^ 2) / 2

/-- The vertical component of the curl of the velocity of a mode. -/
noncomputable def curl (kx ky : ℝ) (u : UEta) : ℂ := Complex.I * kx * u.uy - Complex.I * ky * u.ux

/-- The divergence of the velocity of a mode. -/
noncomputable def divergence (kx ky : ℝ) (u : UEta) : ℂ := Complex.I * kx * u.ux + Complex.I * ky * u.uy

/-- A mode as the sum of a geostrophic part (in balance between the Coriolis and the pressure forces, without
divergence), of a divergent part (without vorticity nor displacement) and of an ageostrophic part (without
divergence nor linearised potential vorticity). -/
structure LinearParts (f c2 kx ky : ℝ) (u ug ud ua : UEta) : Prop where
  ux : u.ux = ug.ux + ud.ux + ua.ux
  uy : u.uy = ug.uy + ud.uy + ua.uy
  eta : u.eta = ug.eta + ud.eta + ua.eta
  balance_x : f * ug.uy = c2 * (Complex.I * kx * ug.eta)
  balance_y : -f * ug.ux = c2 * (Complex.I * ky * ug.eta)
  g_div : divergence kx ky ug = 0
  d_curl : curl kx ky ud = 0
  d_eta : ud.eta = 0
  a_div : divergence kx ky ua = 0
  a_pv : curl kx ky ua = f * ua.eta

end sw

end Verif.Spectra2d
