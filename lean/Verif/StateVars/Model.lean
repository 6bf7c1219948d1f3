import Verif.Sw1l.Props
import Verif.Strat.Model

/-!
# Model of the variables of the states of the 2D solvers

`state.get_var` and `state.compute` of sw1l, sw1l.exactlin, sw1l.modified, sw1l.onlywaves, ns2d, ns2d.bouss and
ns2d.strat: which arrays are stored, how the other ones are computed, and the dictionary `vars_computed`. One
iteration is considered (`it` does not change and the state is not written): the iterations, the writes and
`clear_computed` are the subject of C12. The names of the variables are a finite type; `other` stands for any
other string.
-/

namespace Verif.StateVars

open Verif.Fourier Verif.Energy Verif.Forcing Verif.Sw1l Finset

/-- The names used by the states of the 2D and 3D solvers. -/
inductive Var
  | ux | uy | eta | rot | b | div | q | ap | am | h | Floc | Jx | Jy
  | ux_fft | uy_fft | eta_fft | rot_fft | b_fft | div_fft | q_fft | ap_fft | am_fft | a_fft | d_fft
  | Jx_fft | Jy_fft
  | vx | vy | vz | rotz | divh | vp | vt | vx_fft | vy_fft | vz_fft | rotz_fft | divh_fft | vp_fft | vt_fft
  | w | z | chi | w_fft | z_fft | chi_fft | Nw_fft | lapz_fft
  | other (s : String)
  deriving DecidableEq

/-- A branch of `compute`: the variables obtained with `self.compute`, in order, the result (`none`: an exception)
and the second variable saved in the dictionary (`key2`). -/
structure Rule (St V : Type) where
  deps : List Var
  value : St → List V → Option V
  also : Option (Var × (St → List V → V)) := none

/-- A state class. -/
structure Sys (St V : Type) where
  /-- `keys_state_spect` -/
  spect : List Var
  /-- `keys_state_phys` -/
  phys : List Var
  /-- `keys_computable` -/
  computable : List Var
  /-- the stored arrays -/
  read : St → Var → V
  /-- the branches of `compute` -/
  rules : Var → Option (Rule St V)

variable {St V : Type}

/-- `vars_computed` for the present iteration. -/
abbrev Cache (V : Type) := Var → Option V

def Cache.empty : Cache V := fun _ => none

def Cache.save (c : Cache V) (k : Var) (v : V) : Cache V := fun k' => if k' = k then some v else c k'

/-- The successive `self.compute(...)` of a branch; the first exception stops the branch. -/
def computeAll (comp : Var → Cache V → Option V × Cache V) : List Var → Cache V → Option (List V) × Cache V
  | [], c => (some [], c)
  | k :: ks, c =>
    match comp k c with
    | (none, c') => (none, c')
    | (some v, c') =>
      match computeAll comp ks c' with
      | (none, c'') => (none, c'')
      | (some l, c'') => (some (v :: l), c'')

/-- The end of a branch: the second variable is saved (with `SAVE_IN_DICT`, the default), then the result
(for instance fluidsim/solvers/sw1l/exactlin/state.py 79-87, 121-124). -/
def saveBoth (r : Rule St V) (st : St) (key : Var) (l : List V) (v : V) (c : Cache V) : Cache V :=
  match r.also with
  | none => c.save key v
  | some (k2, g) => (c.save k2 (g st l)).save key v

/-- `state.compute(key)` with its default arguments (fluidsim/solvers/sw1l/state.py 44-118 and the same method of
the other states); the first argument bounds the depth of the calls. -/
def compute (sys : Sys St V) (st : St) : ℕ → Var → Cache V → Option V × Cache V
  | 0, _, c => (none, c)
  | f + 1, key, c =>
    match c key with
    | some v => (some v, c)
    | none =>
      match sys.rules key with
      | none => (none, c)
      | some r =>
        match computeAll (compute sys st f) r.deps c with
        | (none, c') => (none, c')
        | (some l, c') =>
          match r.value st l with
          | none => (none, c')
          | some v => (some v, saveBoth r st key l v c')

/-- `state.get_var(key)` (fluidsim/base/state.py 121-162, 272-300). -/
def getVar (sys : Sys St V) (st : St) (key : Var) (c : Cache V) : Option V × Cache V :=
  if key ∈ sys.spect ++ sys.phys then (some (sys.read st key), c) else compute sys st 8 key c

/-- The results of successive `get_var` in the same iteration. -/
def reads (sys : Sys St V) (st : St) : List Var → Cache V → List (Option V)
  | [], _ => []
  | k :: ks, c => (getVar sys st k c).1 :: reads sys st ks (getVar sys st k c).2

/-- `state.has_vars(key)` (fluidsim/base/state.py 250-272). -/
def hasVar (sys : Sys St V) (key : Var) : Bool := key ∈ sys.phys ++ sys.computable ++ sys.spect

noncomputable section

/-- Arrays in spectral and in physical space. -/
inductive Arr (n : Fin 2 → ℕ)
  | K (a : Fld (Fin 2))
  | X (a : Pt n → ℂ)

/-- A branch which uses only stored arrays. -/
def direct {n : Fin 2 → ℕ} (g : St → Arr n) : Rule St (Arr n) := ⟨[], fun st _ => some (g st), none⟩

/-- A branch which transforms one computed array. -/
def ofK {n : Fin 2 → ℕ} (d : Var) (g : St → Fld (Fin 2) → Arr n) : Rule St (Arr n) :=
  ⟨[d], fun st l => match l with
    | [.K a] => some (g st a)
    | _ => none, none⟩

def ofX {n : Fin 2 → ℕ} (d : Var) (g : St → (Pt n → ℂ) → Arr n) : Rule St (Arr n) :=
  ⟨[d], fun st l => match l with
    | [.X a] => some (g st a)
    | _ => none, none⟩

/-- A branch which combines two computed spectral arrays. -/
def ofKK {n : Fin 2 → ℕ} (d e : Var) (g : St → Fld (Fin 2) → Fld (Fin 2) → Arr n) : Rule St (Arr n) :=
  ⟨[d, e], fun st l => match l with
    | [.K a, .K b] => some (g st a b)
    | _ => none, none⟩

variable (p : Par) (n : Fin 2 → ℕ) (S : Finset Mode)

/-! ### sw1l -/

/-- `statephys_from_statespect` of sw1l (fluidsim/solvers/sw1l/state.py 136-166) and the arrays of
`state_spect`. -/
def readSw1l (u : Mode → UEta) : Var → Arr n
  | .ux => .X (gridVal n S fun k => (u k).ux)
  | .uy => .X (gridVal n S fun k => (u k).uy)
  | .eta => .X (gridVal n S fun k => (u k).eta)
  | .rot => .X (gridVal n S fun k => rotOf p k (u k).ux (u k).uy)
  | .ux_fft => .K fun k => (u k).ux
  | .uy_fft => .K fun k => (u k).uy
  | .eta_fft => .K fun k => (u k).eta
  | _ => .K 0

/-- The branches "Jx", "Jy", "h" and "Floc" of sw1l/state.py 50-58, 96-104, from the fields in physical space. -/
def flux (e v : Pt n → ℂ) : Pt n → ℂ := fun j => (1 + e j) * v j

def floc (e v w : Pt n → ℂ) : Pt n → ℂ := fun j => (√((v j ^ 2 + w j ^ 2) / (p.c2 * (1 + e j))).re : ℝ)

/-- The branches of sw1l/state.py 50-104 which use only `state_phys` and computed variables; `phys` gives the
stored fields. They are inherited by sw1l.exactlin and sw1l.onlywaves. -/
def rulesPhys (ux uy eta : St → Pt n → ℂ) : Var → Option (Rule St (Arr n))
  | .Jx => some (direct fun st => .X (flux n (eta st) (ux st)))
  | .Jy => some (direct fun st => .X (flux n (eta st) (uy st)))
  | .Jx_fft => some (ofX .Jx fun _ a => .K (fftCoef n a))
  | .Jy_fft => some (ofX .Jy fun _ a => .K (fftCoef n a))
  | .div => some (ofK .div_fft fun _ a => .X (gridVal n S a))
  | .h => some (direct fun st => .X fun j => 1 + eta st j)
  | .Floc => some (ofX .h fun st a => .X fun j =>
      (√((ux st j ^ 2 + uy st j ^ 2) / (p.c2 * a j)).re : ℝ))
  | _ => none

/-- `StateSW1L` (sw1l/state.py 34-118). -/
def sw1lState : Sys (Mode → UEta) (Arr n) where
  spect := [.ux_fft, .uy_fft, .eta_fft]
  phys := [.ux, .uy, .eta, .rot]
  computable := []
  read := readSw1l p n S
  rules := fun key => match key with
    | .rot_fft => some (direct fun u => .K fun k => rotOf p k (u k).ux (u k).uy)
    | .div_fft => some (direct fun u => .K fun k => divOf p k (u k).ux (u k).uy)
    | .q => some (direct fun u => .X fun j =>
        gridVal n S (fun k => rotOf p k (u k).ux (u k).uy) j - p.f * gridVal n S (fun k => (u k).eta) j)
    | .q_fft => some (direct fun u => .K fun k => qOf p k (u k))
    | .a_fft => some (direct fun u => .K fun k => aOf p k (u k))
    | key => rulesPhys p n S (fun u => gridVal n S fun k => (u k).ux) (fun u => gridVal n S fun k => (u k).uy)
        (fun u => gridVal n S fun k => (u k).eta) key

/-! ### sw1l.exactlin -/

/-- `statephys_from_statespect` of sw1l.exactlin (fluidsim/solvers/sw1l/exactlin/state.py 146-163) and
`state_spect`. -/
def readExactlin (s : Mode → QA) : Var → Arr n
  | .ux => .X (gridVal n S fun k => (uEtaFrom p k (s k)).ux)
  | .uy => .X (gridVal n S fun k => (uEtaFrom p k (s k)).uy)
  | .eta => .X (gridVal n S fun k => (uEtaFrom p k (s k)).eta)
  | .rot => .X (gridVal n S fun k => (s k).q + p.f * (uEtaFrom p k (s k)).eta)
  | .ap_fft => .K fun k => (s k).ap
  | .am_fft => .K fun k => (s k).am
  | .q_fft => .K fun k => (s k).q
  | _ => .K 0

/-- The velocity computed in the branches "ux_fft" and "uy_fft" from "rot_fft" and "div_fft", and the values put in
the element `[0, 0]` of rank 0 (exactlin/state.py 68-113, onlywaves/state.py 64-110). -/
def velX (rot d : Fld (Fin 2)) (mean : ℂ) : Fld (Fin 2) := fun k =>
  if k = 0 then mean else (vecFromRot (p.kx k) (p.ky k) (rot k)).1 + (vecFromDiv p k (d k)).1

def velY (rot d : Fld (Fin 2)) (mean : ℂ) : Fld (Fin 2) := fun k =>
  if k = 0 then mean else (vecFromRot (p.kx k) (p.ky k) (rot k)).2 + (vecFromDiv p k (d k)).2

/-- The second variable of the branches "ux_fft" and "uy_fft". -/
def alsoKK (g : St → Fld (Fin 2) → Fld (Fin 2) → Fld (Fin 2)) : St → List (Arr n) → Arr n :=
  fun st l => match l with
    | [.K a, .K b] => .K (g st a b)
    | _ => .K 0

/-- `StateSW1LExactLin` (exactlin/state.py 34-128). -/
def exactlinState : Sys (Mode → QA) (Arr n) where
  spect := [.ap_fft, .am_fft, .q_fft]
  phys := [.ux, .uy, .eta, .rot]
  computable := []
  read := readExactlin p n S
  rules := fun key => match key with
    | .div_fft => some (direct fun s => .K fun k => divFromApAm p k (s k).ap (s k).am)
    | .a_fft => some (direct fun s => .K fun k => (s k).ap + (s k).am)
    | .rot_fft => some (ofK .a_fft fun s a => .K fun k => rotFromQ p k (s k).q + rotFromA p k (a k))
    | .eta_fft => some (ofK .a_fft fun s a => .K fun k => etaFromQ p k (s k).q + etaFromA p k (a k))
    | .ux_fft => some { ofKK .rot_fft .div_fft fun s r d => .K (velX p r d (s 0).ap) with
        also := some (.uy_fft, alsoKK n fun s r d => velY p r d (s 0).am) }
    | .uy_fft => some { ofKK .rot_fft .div_fft fun s r d => .K (velY p r d (s 0).am) with
        also := some (.ux_fft, alsoKK n fun s r d => velX p r d (s 0).ap) }
    | .q => some (direct fun s => .X fun j =>
        gridVal n S (fun k => (s k).q + p.f * (uEtaFrom p k (s k)).eta) j
          - p.f * gridVal n S (fun k => (uEtaFrom p k (s k)).eta) j)
    | key => rulesPhys p n S (fun s => gridVal n S fun k => (uEtaFrom p k (s k)).ux)
        (fun s => gridVal n S fun k => (uEtaFrom p k (s k)).uy)
        (fun s => gridVal n S fun k => (uEtaFrom p k (s k)).eta) key

/-! ### sw1l.onlywaves -/

/-- The normal modes of a state of sw1l.onlywaves. -/
def qaOf (s : Mode → ℂ × ℂ) : Mode → QA := fun k => ⟨0, (s k).1, (s k).2⟩

/-- `statephys_from_statespect` of sw1l.onlywaves (fluidsim/solvers/sw1l/onlywaves/state.py 158-172) and
`state_spect`. -/
def readOnlywaves (s : Mode → ℂ × ℂ) : Var → Arr n
  | .ux => .X (gridVal n S fun k => (uEtaFrom p k (qaOf s k)).ux)
  | .uy => .X (gridVal n S fun k => (uEtaFrom p k (qaOf s k)).uy)
  | .eta => .X (gridVal n S fun k => (uEtaFrom p k (qaOf s k)).eta)
  | .ap_fft => .K fun k => (s k).1
  | .am_fft => .K fun k => (s k).2
  | _ => .K 0

/-- `StateSW1LWaves` (onlywaves/state.py 34-141). Line 96 reads `self.state_ff`, which does not exist: on the rank 0
the branch "uy_fft" always raises (after its calls of `compute`). -/
def onlywavesState : Sys (Mode → ℂ × ℂ) (Arr n) where
  spect := [.ap_fft, .am_fft]
  phys := [.ux, .uy, .eta]
  computable := []
  read := readOnlywaves p n S
  rules := fun key => match key with
    | .div_fft => some (direct fun s => .K fun k => divFromApAm p k (s k).1 (s k).2)
    | .a_fft => some (direct fun s => .K fun k => (s k).1 + (s k).2)
    | .rot_fft => some (ofK .a_fft fun _ a => .K fun k => rotFromA p k (a k))
    | .eta_fft => some (ofK .a_fft fun _ a => .K fun k => etaFromA p k (a k))
    | .ux_fft => some { ofKK .rot_fft .div_fft fun s r d => .K (velX p r d (s 0).1) with
        also := some (.uy_fft, alsoKK n fun s r d => velY p r d (s 0).2) }
    | .uy_fft => some ⟨[.rot_fft, .div_fft], fun _ _ => none, none⟩
    | .rot => some (ofK .rot_fft fun _ a => .X (gridVal n S a))
    | .q_fft => some (direct fun _ => .K 0)
    | .q => some (direct fun _ => .X 0)
    | key => rulesPhys p n S (fun s => gridVal n S fun k => (uEtaFrom p k (qaOf s k)).ux)
        (fun s => gridVal n S fun k => (uEtaFrom p k (qaOf s k)).uy)
        (fun s => gridVal n S fun k => (uEtaFrom p k (qaOf s k)).eta) key

/-! ### sw1l.modified -/

/-- `StateSW1LModified` (fluidsim/solvers/sw1l/modified/state.py 32-106). Line 53: the branch "uy_fft" transforms
"ux". -/
def modifiedState : Sys (Mode → UEta) (Arr n) where
  spect := [.ux_fft, .uy_fft, .eta_fft]
  phys := [.ux, .uy, .eta]
  computable := []
  read := readSw1l p n S
  rules := fun key => match key with
    | .ux_fft => some (direct fun u => .K (fftCoef n (gridVal n S fun k => (u k).ux)))
    | .uy_fft => some (direct fun u => .K (fftCoef n (gridVal n S fun k => (u k).ux)))
    | .rot_fft => some (ofKK .ux_fft .uy_fft fun _ a b => .K fun k => rotOf p k (a k) (b k))
    | .div_fft => some (ofKK .ux_fft .uy_fft fun _ a b => .K fun k => divOf p k (a k) (b k))
    | .rot => some (ofK .rot_fft fun _ a => .X (gridVal n S a))
    | .div => some (ofK .div_fft fun _ a => .X (gridVal n S a))
    | .q => some (ofX .rot fun u a => .X fun j => a j - p.f * gridVal n S (fun k => (u k).eta) j)
    | .q_fft => some (direct fun u => .K fun k => qOf p k (u k))
    | .a_fft => some (direct fun u => .K fun k => aOf p k (u k))
    | _ => none

/-! ### ns2d, ns2d.bouss, ns2d.strat -/

/-- State of the incompressible 2D solvers: vorticity and buoyancy (not used by ns2d). -/
structure RotB where
  rot : Fld (Fin 2)
  b : Fld (Fin 2)

/-- `oper.vecfft_from_rotfft` applied to the vorticity. -/
def uxOf (s : RotB) : Fld (Fin 2) := fun k => (vecFromRot (p.kx k) (p.ky k) (s.rot k)).1
def uyOf (s : RotB) : Fld (Fin 2) := fun k => (vecFromRot (p.kx k) (p.ky k) (s.rot k)).2

/-- `statephys_from_statespect` (fluidsim/solvers/ns2d/state.py 87-98, ns2d/bouss/state.py 91-106,
ns2d/strat/state.py 133-149) and `state_spect`. -/
def readNs2d (s : RotB) : Var → Arr n
  | .ux => .X (gridVal n S (uxOf p s))
  | .uy => .X (gridVal n S (uyOf p s))
  | .rot => .X (gridVal n S s.rot)
  | .b => .X (gridVal n S s.b)
  | .rot_fft => .K s.rot
  | .b_fft => .K s.b
  | _ => .K 0

/-- The branches "rot_fft", "div_fft" and "div" (ns2d/state.py 61-71). -/
def rulesVel : Var → Option (Rule RotB (Arr n))
  | .rot_fft => some (ofKK .ux_fft .uy_fft fun _ a b => .K fun k => rotOf p k (a k) (b k))
  | .div_fft => some (ofKK .ux_fft .uy_fft fun _ a b => .K fun k => divOf p k (a k) (b k))
  | .div => some (ofK .div_fft fun _ a => .X (gridVal n S a))
  | _ => none

/-- `StateNS2D` (ns2d/state.py 29-86). -/
def ns2dState : Sys RotB (Arr n) where
  spect := [.rot_fft]
  phys := [.ux, .uy, .rot]
  computable := []
  read := readNs2d p n S
  rules := fun key => match key with
    | .ux_fft => some (direct fun s => .K (fftCoef n (gridVal n S (uxOf p s))))
    | .uy_fft => some (direct fun s => .K (fftCoef n (gridVal n S (uyOf p s))))
    | .q => some (direct fun s => .X (gridVal n S s.rot))
    | key => rulesVel p n S key

/-- `StateNS2DBouss` (ns2d/bouss/state.py 29-88). -/
def boussState : Sys RotB (Arr n) where
  spect := [.rot_fft, .b_fft]
  phys := [.ux, .uy, .rot, .b]
  computable := []
  read := readNs2d p n S
  rules := fun key => match key with
    | .ux_fft => some (direct fun s => .K (fftCoef n (gridVal n S (uxOf p s))))
    | .uy_fft => some (direct fun s => .K (fftCoef n (gridVal n S (uyOf p s))))
    | .b_fft => some (direct fun s => .K (fftCoef n (gridVal n S s.b)))
    | .rot => some (ofK .rot_fft fun _ a => .X (gridVal n S a))
    | .q => some (ofX .rot fun _ a => .X a)
    | key => rulesVel p n S key

/-- `StateNS2DStrat` (ns2d/strat/state.py 29-131), with `compute_dispersion_relation` (ns2d/strat/solver.py 215-225). -/
def stratState (N : ℝ) : Sys RotB (Arr n) where
  spect := [.rot_fft, .b_fft]
  phys := [.ux, .uy, .rot, .b]
  computable := [.ux_fft, .uy_fft, .div_fft, .div, .ap_fft, .am_fft, .ap, .am]
  read := readNs2d p n S
  rules := fun key => match key with
    | .ux_fft => some (direct fun s => .K (uxOf p s))
    | .uy_fft => some (direct fun s => .K (uyOf p s))
    | .q => some (direct fun s => .X (gridVal n S s.rot))
    | .ap_fft => some (direct fun s => .K fun k =>
        N ^ 2 * uyOf p s k + 1 * Complex.I * Strat.dispersion p.δ N k * s.b k)
    | .am_fft => some (direct fun s => .K fun k =>
        N ^ 2 * uyOf p s k - 1 * Complex.I * Strat.dispersion p.δ N k * s.b k)
    | .ap => some (ofK .ap_fft fun _ a => .X (gridVal n S a))
    | .am => some (ofK .am_fft fun _ a => .X (gridVal n S a))
    | key => rulesVel p n S key

end

end Verif.StateVars
