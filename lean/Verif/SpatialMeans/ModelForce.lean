import Verif.SpatialMeans.Model
import Verif.Sw1l.Model

/-!
# Model of the force used for the injection rates of the shallow-water solvers

`get_FxFyFetafft` (/repo/fluidsim/solvers/sw1l/output/spatial_means.py 198-225): the force on the
primitive variables, from the force on the variables of the state.
-/

namespace Verif.SpatialMeans

open Verif.Fourier Verif.Energy Verif.Sw1l

noncomputable section

/-- The primitive variables of a state in normal modes: `statephys_from_statespect`
(/repo/fluidsim/solvers/sw1l/exactlin/state.py 144-160, sw1l/onlywaves/state.py 155-169 with
`q_fft = 0`), in Fourier space. -/
def swOf (p : Par) (s : Mode → QA) : Sw :=
  ⟨fun k => (uEtaFrom p k (s k)).ux, fun k => (uEtaFrom p k (s k)).uy,
    fun k => (uEtaFrom p k (s k)).eta⟩

/-- The force when the state is `q_fft`, `ap_fft`, `am_fft` (206-209). -/
def forceQA (p : Par) (F : Mode → QA) : Sw :=
  ⟨fun k => (uEtaFrom p k ⟨(F k).q, (F k).ap, (F k).am⟩).ux,
    fun k => (uEtaFrom p k ⟨(F k).q, (F k).ap, (F k).am⟩).uy,
    fun k => (uEtaFrom p k ⟨(F k).q, (F k).ap, (F k).am⟩).eta⟩

/-- The force when the state is `ap_fft`, `am_fft` (210-213). -/
def forceWaves (p : Par) (ap am : Fld (Fin 2)) : Sw :=
  ⟨fun k => (fromA p k (ap k + am k)).ux, fun k => (fromA p k (ap k + am k)).uy,
    fun k => (fromA p k (ap k + am k)).eta⟩

/-- The force when the state is `rot_fft`, `div_fft`, `eta_fft` (214-218, with
`vecfft_from_rotdivfft`, /repo/fluidsim/solvers/sw1l/operators.py 174-181). -/
def forceRotDiv (p : Par) (rot div eta : Fld (Fin 2)) : Sw :=
  let r := fun k => Forcing.vecFromRot (p.kx k) (p.ky k) (rot k)
  let d := fun k => vecFromDiv p k (div k)
  ⟨fun k => (r k).1 + (d k).1, fun k => (r k).2 + (d k).2, eta⟩

end

end Verif.SpatialMeans
