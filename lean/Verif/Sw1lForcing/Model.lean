import Verif.Sw1l.Props

/-!
# Model of the forcings of sw1l and plate2d (C73)

Files: fluidsim/solvers/sw1l/forcing.py, fluidsim/solvers/plate2d/forcing.py, the choice of the forcing
classes in fluidsim/base/forcing/base.py and the initialisation of the coarse state of the forcing by
fluidsim/solvers/sw1l/state.py. Fields are families of Fourier coefficients indexed by the mode numbers;
`M` is the set of the modes stored by the coarse operators, `w` the weights of
`oper_coarse.sum_wavenumbers` and `S` the set of the modes kept by the dealiasing of the coarse operators.
Real arithmetic instead of floating point; the random raw forcing is an argument.
-/

namespace Verif.Sw1lForcing

open Verif.Sw1l Verif.Forcing Verif.Energy Verif.Fourier Finset

noncomputable section

variable (p : Par) (M : Finset Mode) (w : Mode → ℝ)

/-- `oper_c.sum_wavenumbers` (fluidfft), over the modes stored by the coarse operators. -/
def sumM (x : Mode → ℝ) : ℝ := ∑ k ∈ M, w k * x k

/-- The coefficients `a` and `b` computed from the velocity and displacement `F` of the forcing and `s`
of the state (sw1l/forcing.py 77-86 and 146-154, the same lines twice). -/
def abUEta (dt : ℝ) (F s : Mode → UEta) : ℝ × ℝ :=
  let ax := dt / 2 * sumM M w (fun k => ‖(F k).ux‖ ^ 2)
  let ay := dt / 2 * sumM M w (fun k => ‖(F k).uy‖ ^ 2)
  let aA := p.c2 * dt / 2 * sumM M w (fun k => ‖(F k).eta‖ ^ 2)
  let bx := sumM M w (fun k => ((starRingEnd ℂ) (s k).ux * (F k).ux).re)
  let bY := sumM M w (fun k => ((starRingEnd ℂ) (s k).uy * (F k).uy).re)
  let bA := p.c2 * sumM M w (fun k => ((starRingEnd ℂ) (s k).eta * (F k).eta).re)
  (ax + ay + aA, bx + bY + bA)

/-- The coefficients of `Waves.normalize_forcingc_2nd_degree_eq` (sw1l/forcing.py 66-86). -/
def abWaves (dt : ℝ) (Fa a : Fld (Fin 2)) : ℝ × ℝ :=
  abUEta p M w dt (fun k => fromA p k (Fa k)) (fun k => fromA p k (a k))

/-- The coefficients for the potential vorticity in `WavesVortices.normalize_forcingc`
(sw1l/forcing.py 143-154). -/
def abVortices (dt : ℝ) (Fq q : Fld (Fin 2)) : ℝ × ℝ :=
  abUEta p M w dt (fun k => fromQ p k (Fq k)) (fun k => fromQ p k (q k))

/-- The coefficients of `Potential.normalize_forcingc_2nd_degree_eq` (sw1l/forcing.py 190-192). -/
def abPotential (dt : ℝ) (Fe e : Fld (Fin 2)) : ℝ × ℝ :=
  (p.c2 * dt / 2 * sumM M w (fun k => ‖Fe k‖ ^ 2),
   p.c2 * sumM M w (fun k => ((starRingEnd ℂ) (e k) * Fe k).re))

/-- `init_from_etafft` (sw1l/state.py 190-198). -/
def initEta (S : Finset Mode) (e : Fld (Fin 2)) : Mode → UEta := trunc S fun k => ⟨0, 0, e k⟩

/-- `params.forcing.key_forced`: a string or a sequence of strings. -/
inductive Key where
  | one (s : String)
  | many (l : List String)
deriving DecidableEq, Repr

/-- `sim.state.init_statespect_from(a_fft=Fa)` after the normalisation by
`Waves.normalize_forcingc_2nd_degree_eq` (sw1l/forcing.py 66-89; base/forcing/specific.py 480-509 with one
key): the forcing of one step. `roots` is what `np.roots` returned for the coefficients. -/
def waves (S : Finset Mode) (which : String) (roots : Option (ℝ × ℝ)) (Fa : Fld (Fin 2)) :
    Except String (Mode → UEta) := do
  let Fa ← normalize2nd which roots Fa
  pure (initA p S Fa)

/-- `"eta_fft" not in self.key_forced` (sw1l/forcing.py 181): for a string, the test is on substrings. -/
def Key.hasEta : Key → Bool
  | .one s => decide ("eta_fft".toList <:+: s.toList)
  | .many l => l.contains "eta_fft"

/-- `Potential` (sw1l/forcing.py 168-199), forced with one key. -/
def potential (S : Finset Mode) (key : Key) (which : String) (roots : Option (ℝ × ℝ))
    (Fe : Fld (Fin 2)) : Except String (Mode → UEta) :=
  if key.hasEta then do
    let Fe ← normalize2nd which roots Fe
    pure (initEta S Fe)
  else .error "ValueError"

/-- `self.forcing_rate` of `WavesVortices` (sw1l/forcing.py 100-103). -/
def halfRate (rate : ℝ) : ℝ := 0.5 * rate

/-- `WavesVortices.compute` and `normalize_forcingc` (sw1l/forcing.py 105-165): the arguments are the raw
forcings and what `np.roots` returned for the two pairs of coefficients. The keys of `normalize_forcingc`
are checked by the call (an unknown or missing keyword argument is a `TypeError`). The two parts are given
to `init_from_qafft` (sw1l/state.py 183-185). Simplification: the keys which are not variables of the
state are not distinguished from the other wrong keys. -/
def wavesVortices (S : Finset Mode) (key : Key) (which : String) (rootsA rootsQ : Option (ℝ × ℝ))
    (Fq Fa : Fld (Fin 2)) : Except String (Mode → UEta) :=
  match key with
  | .one _ => .error "ValueError"
  | .many l =>
    if "q_fft" ∈ l ∧ "a_fft" ∈ l ∧ ∀ s ∈ l, s = "q_fft" ∨ s = "a_fft" then do
      let Fa ← normalize2nd which rootsA Fa
      let Fq ← normalize2nd which rootsQ Fq
      pure (initQA p S Fq Fa)
    else .error "TypeError"

/-! ### The classes of forcing -/

/-- A forcing class: the module where it is defined, its tag and its default key. -/
structure Cls where
  module : String
  tag : String
  key : Key
deriving DecidableEq, Repr

/-- The classes of fluidsim/base/forcing/specific.py (tags: 105, 356, 388, 734, 774; the default key is
the one of `SpecificForcingPseudoSpectralCoarse`, 141; "in_script" has no default key, the empty string
here). -/
def inScript : Cls := ⟨"base", "in_script", .one ""⟩
def inScriptCoarse : Cls := ⟨"base", "in_script_coarse", .one "rot_fft"⟩
def proportional : Cls := ⟨"base", "proportional", .one "rot_fft"⟩
def randomSimple : Cls := ⟨"base", "random", .one "rot_fft"⟩
def tcrandom : Cls := ⟨"base", "tcrandom", .one "rot_fft"⟩

/-- The classes defined in sw1l/forcing.py (44-55, 58-64, 92-98, 168-173). -/
def tcrandomSw1l : Cls := ⟨"sw1l", "tcrandom", .one "q_fft"⟩
def proportionalSw1l : Cls := ⟨"sw1l", "proportional", .one "q_fft"⟩
def wavesCls : Cls := ⟨"sw1l", "waves", .one "a_fft"⟩
def wavesVorticesCls : Cls := ⟨"sw1l", "waves_vortices", .many ["q_fft", "a_fft"]⟩
def potentialCls : Cls := ⟨"sw1l", "potential", .one "eta_fft"⟩

/-- The classes defined in plate2d/forcing.py (39-44). -/
def tcrandomPlate : Cls := ⟨"plate2d", "tcrandom", .one "w_fft"⟩
def proportionalPlate : Cls := ⟨"plate2d", "proportional", .one "w_fft"⟩

/-- `ForcingBasePseudoSpectral._complete_info_solver` (fluidsim/base/forcing/base.py 171-190): the classes
of the solver and the default classes whose tag is not taken. -/
def complete (classes : List Cls) : List Cls :=
  [inScript, inScriptCoarse, proportional, tcrandom].foldl
    (fun l d => if l.any (fun c => d.tag == c.tag) then l else l ++ [d]) classes

/-- `ForcingSW1L._complete_info_solver` (sw1l/forcing.py 27-41). -/
def sw1lClasses : List Cls :=
  complete [tcrandom, randomSimple, wavesCls, wavesVorticesCls, potentialCls]

/-- `ForcingPlate2D._complete_info_solver` (plate2d/forcing.py 18-26). -/
def plate2dClasses : List Cls := complete [proportionalPlate, tcrandomPlate, inScript]

/-- The class used for `params.forcing.type` (base/forcing/base.py 106-128; `none` for an unknown type). -/
def classOf (classes : List Cls) (type : String) : Option Cls := classes.find? (fun c => c.tag == type)

/-- `self.key_forced` (base/forcing/specific.py 186-189). -/
def keyForced (c : Cls) (param : Option Key) : Key := param.getD c.key

end

end Verif.Sw1lForcing
