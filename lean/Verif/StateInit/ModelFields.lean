import Verif.StateInit.Model
import Verif.Strat.Model
import Verif.Sw1l.Model
import Verif.Vectors.Model

/-!
# The operators named in the model of the initialisations

`Verif.StateInit.Model` names the operators with strings.  Here the names are given their meaning: the
functions of the operators at each mode, as modelled (with their citations) in `Verif.Forcing`,
`Verif.Strat`, `Verif.Sw1l` and `Verif.Vectors`.  The spectral arrays are functions of the mode; the
transform to physical space is not interpreted (`ifft` is kept as the identity: the physical arrays are the
subject of theorems about all the interpretations).
-/

namespace Verif.StateInit

open Verif.Forcing Verif.Energy Verif.Sw1l

noncomputable section

/-- `oper.dealiasing(arr)` (fluidsim/operators/operators2d.py 450-467) for the set `S` of kept modes. -/
def keep {ι : Type} [DecidableEq ι] (S : Finset ι) (a : ι → ℂ) : ι → ℂ := fun k =>
  if k ∈ S then a k else 0

/-- The operators of ns2d, ns2d.bouss and ns2d.strat (fluidfft `rotfft_from_vecfft`, `vecfft_from_rotfft`;
fluidsim/solvers/ns2d/strat/state.py 185-231). -/
def ops2d (S : Finset (Fin 2 → ℤ)) (δ : Fin 2 → ℝ) (N : ℝ) : Ops (Fld (Fin 2)) where
  zero := fun _ => 0
  un := fun name a =>
    if name = "dealiasing" then keep S a
    else if name = "vecfft_from_rotfft.ux" then fun k => (vecFromRot (δ 0 * k 0) (δ 1 * k 1) (a k)).1
    else if name = "vecfft_from_rotfft.uy" then fun k => (vecFromRot (δ 0 * k 0) (δ 1 * k 1) (a k)).2
    else if name = "rotfft_from_apfft" then fun k => (rotbFromAp N (δ 0 * k 0) (δ 1 * k 1) (a k)).1
    else if name = "bfft_from_apfft" then fun k => (rotbFromAp N (δ 0 * k 0) (δ 1 * k 1) (a k)).2
    else if name = "rotfft_from_amfft" then fun k => (rotbFromAm N (δ 0 * k 0) (δ 1 * k 1) (a k)).1
    else if name = "bfft_from_amfft" then fun k => (rotbFromAm N (δ 0 * k 0) (δ 1 * k 1) (a k)).2
    else a
  bin := fun name a b =>
    if name = "rotfft_from_vecfft" then fun k => rotFromVec (δ 0 * k 0) (δ 1 * k 1) (a k) (b k)
    else a

/-- The operators of sw1l (fluidsim/solvers/sw1l/operators.py 201-270). -/
def opsSw (S : Finset Mode) (p : Par) : Ops (Fld (Fin 2)) where
  zero := fun _ => 0
  un := fun name a =>
    if name = "dealiasing" then keep S a
    else if name = "vecfft_from_rotfft.ux" then fun k => (vecFromRot (p.kx k) (p.ky k) (a k)).1
    else if name = "vecfft_from_rotfft.uy" then fun k => (vecFromRot (p.kx k) (p.ky k) (a k)).2
    else if name = "rotfft_from_qfft" then fun k => rotFromQ p k (a k)
    else if name = "etafft_from_qfft" then fun k => etaFromQ p k (a k)
    else if name = "uxuyetafft_from_afft.ux" then fun k => (fromA p k (a k)).ux
    else if name = "uxuyetafft_from_afft.uy" then fun k => (fromA p k (a k)).uy
    else if name = "uxuyetafft_from_afft.eta" then fun k => (fromA p k (a k)).eta
    else a
  bin := fun name a b =>
    if name = "rotfft_from_vecfft" then fun k => rotOf p k (a k) (b k)
    else if name = "+" then fun k => a k + b k
    else a

/-- The operators of ns3d (fluidsim/operators/operators3d.py 885-1017); `K` gives the wavevector of each
mode. -/
def ops3d {ι : Type} (K : ι → Vectors.K3) : Ops (ι → ℂ) where
  zero := fun _ => 0
  un := fun name a =>
    if name = "vxvyfft_from_rotzfft.vx" then fun k => (Vectors.vxvyFromRotz (K k) (a k)).1
    else if name = "vxvyfft_from_rotzfft.vy" then fun k => (Vectors.vxvyFromRotz (K k) (a k)).2
    else if name = "vxvyfft_from_divhfft.vx" then fun k => (Vectors.vxvyFromDivh (K k) (a k)).1
    else if name = "vxvyfft_from_divhfft.vy" then fun k => (Vectors.vxvyFromDivh (K k) (a k)).2
    else if name = "vecfft_from_vpfft.vx" then fun k => (Vectors.vecFromVp (K k) (a k)).x
    else if name = "vecfft_from_vpfft.vy" then fun k => (Vectors.vecFromVp (K k) (a k)).y
    else if name = "vecfft_from_vpfft.vz" then fun k => (Vectors.vecFromVp (K k) (a k)).z
    else if name = "vecfft_from_vtfft.vx" then fun k => (Vectors.vecFromVt (K k) (a k)).x
    else if name = "vecfft_from_vtfft.vy" then fun k => (Vectors.vecFromVt (K k) (a k)).y
    else if name = "vecfft_from_vtfft.vz" then fun k => (Vectors.vecFromVt (K k) (a k)).z
    else a
  bin := fun _ a _ => a

end

end Verif.StateInit
