import Mathlib.Algebra.Order.Field.Basic
import Mathlib.Algebra.Order.Ring.Rat
import Mathlib.Data.List.Basic

/-!
# Model of the pool of random phase-shift pairs

Models `TimeSteppingPseudoSpectral._init_phaseshift_random` and `_get_phaseshift_random`
(`fluidsim/base/time_stepping/pseudo_spect.py:302-372`) and `get_phases_random` of the
operators.

A shift is given by its fraction of a cell in each direction `D` (the array
`exp(1j*phase)` is a function of it).  The arrays of a pair are overwritten in place when the
pair is regenerated (`compute_phaseshift_terms` writes in the popped arrays, which are the
ones that are returned): the returned arrays hold the *new* shifts.  The pseudo-random numbers
are arguments; every MPI process draws its own ones (`random.uniform`, `random.randint`; there
is no broadcast and no common seed).
-/

namespace Verif.PhasePool

variable {D K : Type*} [Field K] [LinearOrder K] [IsStrictOrderedRing K]

/-- operators1d.py:94-100, operators2d.py:617-631, operators3d.py:1127-1146:
`beta = alpha + 0.5 if alpha < 0 else alpha - 0.5`. -/
def partner (alpha : D → K) : D → K :=
  fun d => if alpha d < 0 then alpha d + 1 / 2 else alpha d - 1 / 2

/-- `get_phases_random` for the draw `alpha` -/
def phasesRandom (alpha : D → K) : (D → K) × (D → K) := (alpha, partner alpha)

structure Pool (D K : Type*) where
  nbPairs : Nat
  nbSteps : Nat
  index : Nat
  prevPair : Nat
  prevFlip : Bool
  pairs : List ((D → K) × (D → K))

/-- pseudo_spect.py:303-327 `_init_phaseshift_random`; `draws` are the draws for the pairs
(one for each pair). -/
def init (nbPairs : Nat) (nbStepsParam : Option Nat) (draws : Fin nbPairs → D → K) : Pool D K :=
  { nbPairs := nbPairs
    nbSteps := match nbStepsParam with
      | some n => n
      | none => if nbPairs = 1 then 2 else 4 * nbPairs
    index := 1
    prevPair := 0
    prevFlip := false
    pairs := List.ofFn (fun i => phasesRandom (draws i)) }

/-- The pseudo-random numbers available to one call. -/
structure Rand (D K : Type*) where
  indexPair : Nat
  indexFlip : Bool
  alpha : D → K

/-- pseudo_spect.py:329-372 `_get_phaseshift_random`.  `none`: an exception (`IndexError` of
`self._pairs_phaseshift[...]` or of `pop(0)`). -/
def get (s : Pool D K) (r : Rand D K) : Option (Pool D K × ((D → K) × (D → K))) :=
  -- choice of the pair
  let chosen : Option (Pool D K × ((D → K) × (D → K))) :=
    if s.nbPairs = 1 ∧ s.nbSteps = 1 then
      match s.pairs[0]? with
      | none => none
      | some pair => some (s, pair)
    else if s.nbPairs = 1 ∧ s.nbSteps = 2 then
      match s.pairs[0]? with
      | none => none
      | some pair => if s.index = 1 then some (s, pair) else some (s, pair.swap)
    else
      match s.pairs[r.indexPair]? with
      | none => none
      | some pair =>
        let flip :=
          if r.indexPair = s.prevPair ∧ r.indexFlip = s.prevFlip then !r.indexFlip
          else r.indexFlip
        let s := { s with prevPair := r.indexPair, prevFlip := flip }
        some (s, if flip then pair else pair.swap)
  match chosen with
  | none => none
  | some (s, pair) =>
    if s.index = s.nbSteps then
      match s.pairs with
      | [] => none
      | _ :: rest =>
        let new := phasesRandom r.alpha
        some ({ s with index := 1, pairs := rest ++ [new] }, new)
    else some ({ s with index := s.index + 1 }, pair)

/-- The pairs returned along a history of calls (`none` at an exception). -/
def run (s : Pool D K) : List (Rand D K) → Option (List ((D → K) × (D → K)))
  | [] => some []
  | r :: rs =>
    match get s r with
    | none => none
    | some (s', pair) => (run s' rs).map (pair :: ·)

end Verif.PhasePool
