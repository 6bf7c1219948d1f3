import Verif.Energy.Model
import Verif.Schemes.Model
import Verif.Dissip.Model

/-!
# The solvers given to the time schemes (C87)

The time stepping (`Verif.Schemes`) works on arrays of numbers indexed by the variables and the stored modes; the tendencies of the
solvers (`Verif.Energy`) are written for fields. Here they are put together: the tendencies, the frequencies of the linear terms and
the mask of the truncation which `InfoSolver`, `compute_freq_diss` and the operator give to the time stepping. No new code is modelled.
-/

namespace Verif.EndToEnd

open Verif.Fourier Verif.Vectors Verif.Energy Verif.Schemes Finset

noncomputable section

variable {D : Type*} {V : Type*}

/-- The fields of a spectral state: `state_spect.get_var(key)` (fluidsim/base/setofvariables.py 163-174), for the modes `G` of the
arrays. -/
def fields [DecidableEq (D → ℤ)] (G : Finset (D → ℤ)) (a : Arr (V × G)) : V → Fld D := fun v k =>
  if h : k ∈ G then a (v, ⟨k, h⟩) else 0

/-- The array of a set of fields: `state_spect.set_var` (setofvariables.py 176-181). -/
def array (G : Finset (D → ℤ)) (u : V → Fld D) : Arr (V × G) := fun i => u i.1 i.2.1

/-- The tendencies as a function of the arrays. -/
def onArrays [DecidableEq (D → ℤ)] (G : Finset (D → ℤ)) (tend : (V → Fld D) → V → Fld D) (a : Arr (V × G)) : Arr (V × G) :=
  array G (tend (fields G a))

/-- The force is added to the tendencies (ns2d/solver.py 191-192, ns2d/strat/solver.py 175-176, ns3d/solver.py 243-244,
ns3d/strat/solver.py 211-212). Here it is constant in time. In ns3d and ns3d.strat it is added before the projection and the
truncation of the tendencies; this gives the same sum for the forces considered here (`C87_force_order`). -/
def forced (F : V → Fld D) (tend : (V → Fld D) → V → Fld D) (u : V → Fld D) : V → Fld D := fun v k => tend u v k + F v k

/-- `oper.where_dealiased`, for the modes kept `S`, for each variable (fluidsim/operators/base.py 52-70, `dealiasing` of a
`SetOfVariables`). -/
def truncated [DecidableEq (D → ℤ)] (G S : Finset (D → ℤ)) : V × G → Bool := fun i => decide (i.2.1 ∉ S)

/-- `K2` of a mode. -/
def waveSq [Fintype D] (δ : D → ℝ) (k : D → ℤ) : ℝ := ∑ d, (δ d * k d) ^ 2

/-- `freq_lin` of the solvers whose linear terms are the dissipation (`compute_freq_diss`, fluidsim/base/solvers/pseudo_spect.py
141-191, the same for all variables), for `nu_m4 = 0`. -/
def freqDiss [Fintype D] (G : Finset (D → ℤ)) (δ : D → ℝ) (nu : Dissip.Nu) : Arr (V × G) := fun i =>
  (Dissip.fd nu (waveSq δ i.2.1) : ℂ)

/-- `tendencies_nonlin` of ns2d (fluidsim/solvers/ns2d/solver.py 111-194): one variable, `rot_fft`. -/
def tend2d (n : Fin 2 → ℕ) (S : Finset (Fin 2 → ℤ)) (δ : Fin 2 → ℝ) (beta : ℝ) (u : Unit → Fld (Fin 2)) : Unit → Fld (Fin 2) :=
  fun _ => ns2d n S δ beta (u ())

/-- `tendencies_nonlin` of ns2d.strat (fluidsim/solvers/ns2d/strat/solver.py 71-181): `rot_fft` (0) and `b_fft` (1). -/
def tendStrat (n : Fin 2 → ℕ) (S : Finset (Fin 2 → ℤ)) (δ : Fin 2 → ℝ) (N : ℝ) (u : Fin 2 → Fld (Fin 2)) : Fin 2 → Fld (Fin 2) :=
  fun v => if v = 0 then (ns2dStrat n S δ N (u 0) (u 1)).1 else (ns2dStrat n S δ N (u 0) (u 1)).2

/-- The velocity of the three variables `vx_fft`, `vy_fft`, `vz_fft`. -/
def vec (u : Fin 3 → Fld (Fin 3)) (k : Fin 3 → ℤ) : V3 := ⟨u 0 k, u 1 k, u 2 k⟩

/-- The components of vectors. -/
def components (v : (Fin 3 → ℤ) → V3) : Fin 3 → Fld (Fin 3)
  | 0 => fun k => (v k).x
  | 1 => fun k => (v k).y
  | 2 => fun k => (v k).z

/-- `tendencies_nonlin` of ns3d (fluidsim/solvers/ns3d/solver.py 180-253). -/
def tend3d (n : Fin 3 → ℕ) (S : Finset (Fin 3 → ℤ)) (δ : Fin 3 → ℝ) (f : Option ℝ) (p : Projection) (noVzKz0 : Bool)
    (u : Fin 3 → Fld (Fin 3)) : Fin 3 → Fld (Fin 3) := components (ns3d n S δ f p noVzKz0 (vec u))

/-- `project_state_spect` of ns3d (ns3d/solver.py 255-263) for all the modes of the arrays. -/
def project3d (G : Finset (Fin 3 → ℤ)) (δ : Fin 3 → ℝ) (p : Projection) (noVzKz0 : Bool) (a : Arr (Fin 3 × G)) : Arr (Fin 3 × G) :=
  array G (components fun k => (projectState p noVzKz0 (wave3 δ k) ⟨vec (fields G a) k, none⟩).v)

/-- The variables `vx_fft`, `vy_fft`, `vz_fft` (0, 1, 2) and `b_fft` (3) of ns3d.strat. -/
def components4 (s : (Fin 3 → ℤ) → ModeState) : Fin 4 → Fld (Fin 3)
  | 0 => fun k => (s k).v.x
  | 1 => fun k => (s k).v.y
  | 2 => fun k => (s k).v.z
  | 3 => fun k => (s k).b.getD 0

/-- The velocity and the buoyancy at a mode. -/
def modeState (u : Fin 4 → Fld (Fin 3)) (k : Fin 3 → ℤ) : ModeState := ⟨⟨u 0 k, u 1 k, u 2 k⟩, some (u 3 k)⟩

/-- `tendencies_nonlin` of ns3d.strat (fluidsim/solvers/ns3d/strat/solver.py 138-216). -/
def tend3dStrat (n : Fin 3 → ℕ) (S : Finset (Fin 3 → ℤ)) (δ : Fin 3 → ℝ) (f : Option ℝ) (N : ℝ) (p : Projection) (noVzKz0 : Bool)
    (u : Fin 4 → Fld (Fin 3)) : Fin 4 → Fld (Fin 3) :=
  components4 (ns3dStrat n S δ f N p noVzKz0 (fun k => (modeState u k).v) (u 3))

/-- `project_state_spect` of ns3d.strat (inherited, ns3d/solver.py 255-263). -/
def project3dStrat (G : Finset (Fin 3 → ℤ)) (δ : Fin 3 → ℝ) (p : Projection) (noVzKz0 : Bool) (a : Arr (Fin 4 × G)) : Arr (Fin 4 × G) :=
  array G (components4 fun k => projectState p noVzKz0 (wave3 δ k) (modeState (fields G a) k))

/-- `one_time_step_computation` of ns3d (fluidsim/solvers/ns3d/time_stepping.py 8-20): the scheme, the projection, then the
truncation. -/
def oneStep3d {ι : Type*} (project : Arr ι → Arr ι) (sc : Scheme) (N : Arr ι → Arr ι) (mask : ι → Bool) (ps pa pb : Arr ι)
    (s : TS ι) (dt : ℝ) : TS ι :=
  let r := s.coefs.get dt
  let h := timeStepRK sc (fun _ => N) dt r.2.1 r.2.2 ps pa pb s.heap
  { heap := Schemes.dealias mask .state (h.set .state (project (h .state))), coefs := r.1 }

/-- The attributes of the time stepping of ns3d after `k` steps, from the state `u0` (as `Convergence.simulation` for the other
solvers). -/
def simulation3d {ι : Type*} (project : Arr ι → Arr ι) (sc : Scheme) (N : Arr ι → Arr ι) (f : Arr ι) (mask : ι → Bool)
    (ps pa pb : ℕ → Arr ι) (heap : Heap ι) (g1 g2 : Arr ι) (useCFL : Bool) (u0 : Arr ι) (dt : ℕ → ℝ) : ℕ → TS ι
  | 0 => ⟨heap.set .state u0, Coefs.init f useCFL (dt 0) g1 g2⟩
  | k + 1 => oneStep3d project sc N mask (ps k) (pa k) (pb k)
      (simulation3d project sc N f mask ps pa pb heap g1 g2 useCFL u0 dt k) (dt k)

end

end Verif.EndToEnd
