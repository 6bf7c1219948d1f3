import Verif.Forcing.Model
import Verif.Coarse.Model
import Verif.Energy.Model

/-!
# C111: the random forces, from the random numbers to the array added to the tendencies (2D)

The parts of the forcing modelled elsewhere are composed here: `project_fft_on_realX`, the normalisations and the time
correlation (`Verif.Forcing`), the forced region (`Verif.ForcedRegion`) and the copy in the full array (`Verif.Coarse`). One process.
-/

namespace Verif.RealForce

open Verif.Forcing Verif.Energy

noncomputable section

/-- `compute_forcingc_raw` (fluidsim/base/forcing/specific.py 754-762) in 2D: random numbers (arbitrary here), zero where
`COND_NO_F`, then `project_fft_on_realX`. -/
def rawRandom (nky nkx : ℕ) (noF : ℕ → ℕ → Prop) (rnd : ℕ → ℕ → ℂ) : ℕ → ℕ → ℂ :=
  open Classical in projRealX nky nkx fun y x => if noF y x then 0 else rnd y x

/-- `put_forcingc_in_forcing` (specific.py 279-291): the coarse force is written in the array `forcing_fft`, which keeps its other
values. -/
def putForcing (nC nF : ℕ × ℕ) (f : ℕ → ℕ → ℂ) (forcing : ℕ × ℕ → ℂ) : Except String (ℕ × ℕ → ℂ) :=
  Coarse.put2 (fun z : ℂ => ‖z‖) nC nF (fun p => f p.1 p.2) forcing

/-- The successive values of `forcing_fft`, zero at first (specific.py 168-170), for the successive coarse forces of a simulation. -/
def forcingRun (nC nF : ℕ × ℕ) : List (ℕ → ℕ → ℂ) → (ℕ × ℕ → ℂ) → Except String (List (ℕ × ℕ → ℂ))
  | [], _ => .ok []
  | f :: fs, forcing =>
    match putForcing nC nF f forcing with
    | .error e => .error e
    | .ok o =>
      match forcingRun nC nF fs o with
      | .error e => .error e
      | .ok os => .ok (o :: os)

/-- `normalize_forcingc` with `"2nd_degree_eq"` (specific.py 587-677) for an array with two indices, once `np.roots` has returned
`roots`. -/
def normalised (which : String) (roots : Option (ℝ × ℝ)) (f : ℕ → ℕ → ℂ) : Except String (ℕ → ℕ → ℂ) :=
  match normalize2nd which roots (fun p : ℕ × ℕ => f p.1 p.2) with
  | .error e => .error e
  | .ok g => .ok fun y x => g (y, x)

/-- What `np.roots([a, b, c])` gives when the leading coefficient is not zero, complex roots included (specific.py 695-698). -/
def NpRootsC (a b c : ℝ) (r : ℂ × ℂ) : Prop := a ≠ 0 ∧ ∀ x : ℂ, a * x ^ 2 + b * x + c = a * (x - r.1) * (x - r.2)

/-- `coef_normalization_from_abc` (specific.py 700-714) with complex roots; the order of complex numbers which `"positive"` needs is not
modelled. -/
def chooseC (which : String) (r : ℂ × ℂ) : Option ℂ :=
  if which = "minabs" then if ‖r.2‖ < ‖r.1‖ then some r.2 else some r.1
  else if which = "first" then some r.1
  else if which = "second" then some r.2
  else none

end

end Verif.RealForce
