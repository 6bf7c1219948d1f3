import Mathlib.Data.List.Basic
import Mathlib.Logic.Function.Basic

/-!
# Files of states: saving with any number of processes and loading (C80)

`save_file` (fluidsim/util/output.py 47-123) and `InitFieldsFromFile` (fluidsim/base/init_fields.py 138-297).
An array on the whole grid is a function of the index `G` of the points; with several processes, the array of the
process `r` contains the points of this process (`some`) and nothing else (`none`). `gather_Xspace` and
`scatter_Xspace` are functions of fluidfft represented by their contracts.
-/

namespace Verif.StateFile

abbrev Str := List Char

/-- Exceptions. -/
inductive Err where
  /-- `ValueError`: this is not a correct state for this simulation -/
  | value
  /-- `KeyError` -/
  | key
  deriving DecidableEq, Repr

/-- A file of a state: the attribute "axes" (missing in old files), the attributes of "/info_simul/params/oper", the
arrays of "/state_phys" and its attributes "time" and "it" (missing in old files). -/
structure File (G V T : Type*) where
  axes : Option (List Str)
  oper : Str → Option T
  data : List (Str × (G → V))
  time : T
  it : Option ℕ

/-- The arrays of the processes: variable, process, point. -/
abbrev Local (G V : Type*) := Str → ℕ → G → Option V

/-- What `save_file` and the loading use of a simulation: the axes and the parameters of the operator, the keys of
the state, the process which has each point, the arrays, the time and the iteration. -/
structure Sim (G V T : Type*) where
  axes : List Str
  oper : Str → Option T
  keys : List Str
  owner : G → ℕ
  arrays : Local G V
  t : T
  it : ℕ

variable {G V T : Type*}

/-- `oper.gather_Xspace(field_loc)` (contract). -/
def gather (owner : G → ℕ) (loc : ℕ → G → Option V) : G → Option V := fun g => loc (owner g) g

/-- `oper.scatter_Xspace(field_seq)` (contract). -/
def scatter (owner : G → ℕ) (field : G → V) : ℕ → G → Option V :=
  fun r g => if owner g = r then some (field g) else none

/-- `save_file` (util/output.py 56-79, 109-123) for one process or without parallel HDF5: the arrays of the state,
gathered in the process 0, the time and the iteration. A point missing in the gathered array cannot be written;
`none` if there is one. -/
def save [DecidableEq G] (s : Sim G V T) (read : (G → Option V) → Option (G → V)) : Option (File G V T) :=
  match s.keys.mapM fun k => (read (gather s.owner (s.arrays k))).map fun a => (k, a) with
  | none => none
  | some data => some ⟨some s.axes, s.oper, data, s.t, some s.it⟩

/-- The check of one axis `r` (init_fields.py 194-217): the attribute "n{r}" has to be in the file (KeyError
otherwise), the attribute "L{r}" not. -/
def checkAxis [DecidableEq T] (oper fileOper : Str → Option T) (r : Str) : Except Err Unit :=
  match fileOper ('n' :: r) with
  | none => .error .key
  | some n =>
    if oper ('n' :: r) = some n then
      match fileOper ('L' :: r) with
      | none => .ok ()
      | some L => if oper ('L' :: r) = some L then .ok () else .error .value
    else .error .value

/-- The loop on the axes (init_fields.py 192-217). -/
def checkAxes [DecidableEq T] (oper fileOper : Str → Option T) : List Str → Except Err Unit
  | [] => .ok ()
  | r :: l =>
    match checkAxis oper fileOper r with
    | .error e => .error e
    | .ok _ => checkAxes oper fileOper l

/-- The `except KeyError` branch (init_fields.py 218-254), for old files: only x and y. -/
def checkLegacy [DecidableEq T] (oper fileOper : Str → Option T) : Except Err Unit :=
  match fileOper ['n', 'x'], fileOper ['n', 'y'], fileOper ['L', 'x'], fileOper ['L', 'y'] with
  | some nx, some ny, some Lx, some Ly =>
    if oper ['n', 'x'] = some nx ∧ oper ['n', 'y'] = some ny ∧ oper ['L', 'x'] = some Lx ∧ oper ['L', 'y'] = some Ly then
      .ok ()
    else .error .value
  | _, _, _, _ => .error .key

/-- The checks (init_fields.py 191-254). -/
def check [DecidableEq T] (oper : Str → Option T) (f : File G V T) : Except Err Unit :=
  match f.axes with
  | none => checkLegacy oper f.oper
  | some axes =>
    match checkAxes oper f.oper axes with
    | .error .key => checkLegacy oper f.oper
    | r => r

/-- `InitFieldsFromFile.__call__` (init_fields.py 151-297) before the computation of the other variables: the
variables of `needed` are read in the file and scattered, or zero; then the time and the iteration. -/
def load [DecidableEq T] [Zero V] (s : Sim G V T) (needed : List Str) (f : File G V T) : Except Err (Sim G V T) :=
  match check s.oper f with
  | .error e => .error e
  | .ok _ =>
    .ok { s with
      arrays := fun k => if k ∈ needed then
          match f.data.lookup k with
          | some a => scatter s.owner a
          | none => scatter s.owner fun _ => 0
        else s.arrays k
      t := f.time
      it := f.it.getD 0 }

/-! ### Parallel HDF5 -/

/-- The part of the array of one process: first indices and shape along the two first axes
(`seq_indices_first_X`, `shapeX_loc`). -/
structure Block where
  x0 : ℕ
  y0 : ℕ
  s0 : ℕ
  s1 : ℕ

/-- `dset[xstart:xend, ystart:yend] = field_loc`, and in 3D `dset[xstart:xend, ystart:yend, :] = field_loc`
(util/output.py 84-106): an element of the first two axes is a value (2D) or a line (3D). -/
def writeBlock {E : Type*} (b : Block) (loc : ℕ → ℕ → E) (dset : ℕ → ℕ → E) : ℕ → ℕ → E :=
  fun i j => if b.x0 ≤ i ∧ i < b.x0 + b.s0 ∧ b.y0 ≤ j ∧ j < b.y0 + b.s1 then loc (i - b.x0) (j - b.y0) else dset i j

/-- The dataset after the collective writing, the processes writing in the order `order` (util/output.py 94-106). -/
def writeAll {E : Type*} (blocks : ℕ → Block) (loc : ℕ → ℕ → ℕ → E) (order : List ℕ) (dset : ℕ → ℕ → E) : ℕ → ℕ → E :=
  order.foldl (fun d r => writeBlock (blocks r) (loc r) d) dset

end Verif.StateFile
