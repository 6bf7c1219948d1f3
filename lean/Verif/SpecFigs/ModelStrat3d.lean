import Verif.SpecFigs.Model

/-! # C102: the averaged spectra of ns3d.strat

`SpectraNS3DStrat` overloads the method that draws the averages: kinetic energy, potential energy and poloidal energy. -/

namespace Verif.SpecFigs

/-- A file of spectra: the wavenumbers of the direction and the datasets by name. -/
structure NamedFile (m : ℕ) where
  ks : Fin m → ℝ
  data : String → Option (List (Fin m → ℝ))

/-- The base of the name of the dataset of a kind (fluidsim/solvers/ns3d/strat/output/spectra.py 110-117). -/
def stratBase : String → Except String String
  | "K" => .ok "E"
  | "A" => .ok "A"
  | "Khd" => .ok "Khd"
  | "vx" => .ok "vx"
  | "vy" => .ok "vy"
  | "vz" => .ok "vz"
  | "Kx" => .ok "vx"
  | "Ky" => .ok "vy"
  | "Kz" => .ok "vz"
  | _ => .error "ValueError"

/-- `_get_key_spectrum` (strat/output/spectra.py 109-120); `dir` is the direction of a 1D spectrum, `none` for the 3D spectra. -/
def stratKey (dir : Option String) (kind : String) : Except String String :=
  match stratBase kind with
  | .error e => .error e
  | .ok b =>
    match dir with
    | none => .ok ("spectra_" ++ b)
    | some d => .ok ("spectra_" ++ (b ++ "_k" ++ d))

/-- `_get_averaged_spectrum` (fluidsim/base/output/spectra.py 338-347): the mean of the records, nan where it is smaller than 1e-15. -/
noncomputable def averaged {m : ℕ} (f : NamedFile m) (dir : Option String) (imin imax : ℕ) (kind : String) :
    Except String (Fin m → Option ℝ) :=
  match stratKey dir kind with
  | .error e => .error e
  | .ok key =>
    match f.data key with
    | none => .error "KeyError"
    | some l => .ok fun i => (average (slice l imin imax) i).bind maskNan

/-- The sum of two arrays with nan. -/
def addNan {m : ℕ} (a b : Fin m → Option ℝ) (i : Fin m) : Option ℝ :=
  match a i, b i with
  | some x, some y => some (x + y)
  | _, _ => none

/-- `_ax_add_average` of ns3d.strat (strat/output/spectra.py 135-170): the curves with their kinds. `proj` is `params.projection`
(`none`: the parameter does not exist). -/
noncomputable def stratAverages {m : ℕ} (f : NamedFile m) (dir : Option String) (imin imax : ℕ) (coef : ℝ) (proj : Option (Option String)) :
    Except String (List (String × (Fin m → Option ℝ))) :=
  match averaged f dir imin imax "K", averaged f dir imin imax "A" with
  | .error e, _ => .error e
  | _, .error e => .error e
  | .ok sK, .ok sA =>
    let base := [("K", compensated coef f.ks sK), ("A", compensated coef f.ks sA)]
    match proj with
    | none => .ok base
    | some p =>
      if p = some "toroidal" then .ok base
      else
        match averaged f dir imin imax "Khd", averaged f dir imin imax "Kz" with
        | .error e, _ => .error e
        | _, .error e => .error e
        | .ok sD, .ok sZ => .ok (base ++ [("polo", compensated coef f.ks (addNan sD sZ))])

end Verif.SpecFigs
