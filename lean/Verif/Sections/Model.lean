import Verif.PhysFiles.Model
import Mathlib.Algebra.BigOperators.Group.List.Basic

/-! # C70: cross-sections, plots and time averages of the physical fields

Simplifications: floating-point numbers are elements of an ordered field; `eval` of the text written after the
sign `=` is a parameter; an array is its shape and a function of its indices; the figure itself is not modelled,
only the data given to it. -/

namespace Verif.Sections

open Verif.PhysFiles (Str argmin isclose fieldInterp)

/-- The exceptions. -/
inductive Err where
  | index
  | notImplemented
  | value
  | assertion
  | fileNotFound
  | eval
  deriving DecidableEq, Repr

inductive Axis where
  | x
  | y
  | z
  deriving DecidableEq, Repr

/-- A field in space, indexed by `[z, y, x]` (the `axes` of operators3d.py 209). -/
structure Arr3 (F : Type*) where
  nz : ℕ
  ny : ℕ
  nx : ℕ
  get : ℕ → ℕ → ℕ → F

/-- A plane of values, indexed by `[row, column]`. -/
structure Arr2 (F : Type*) where
  n0 : ℕ
  n1 : ℕ
  get : ℕ → ℕ → F

/-- Results of the functions: the whole field or a section. -/
inductive Out (F : Type*) where
  | full (a : Arr3 F)
  | plane (a : Arr2 F)

/-- The index `i` of an axis of length `n` (NumPy and h5py indexing with an integer). -/
def pyIndex (n : ℕ) (i : ℤ) : Except Err ℕ :=
  if 0 ≤ i ∧ i < n then .ok i.toNat
  else if -(n : ℤ) ≤ i ∧ i < 0 then .ok (i + n).toNat
  else .error .index

/-- `eval` of the text after the sign `=`, used as an index or as a coordinate. -/
structure Ev (Q : Type*) where
  int : Str → Except Err ℤ
  num : Str → Except Err Q

/-- The parameters of the operators: lengths and numbers of points of the axes, and `ONLY_COARSE_OPER` (set by
`load_sim_for_plot`, util.py 216). -/
structure Geo (Q : Type*) where
  L : Axis → Q
  n : Axis → ℕ
  coarse : Bool

variable {Q : Type*} [Field Q] [LinearOrder Q] {F : Type*}

/-- `get_grid1d_seq` (operators3d.py 1040-1049, operators2d.py 606-615); `x_seq` of fluidfft is
`deltax * arange(nx)` with `deltax = Lx / nx`; `np.linspace(0, L, n)` has the step `L / (n - 1)`. -/
def grid (g : Geo Q) (ax : Axis) : List Q :=
  if g.coarse then
    if g.n ax = 1 then [0] else (List.range (g.n ax)).map fun i : ℕ => (i : Q) * (g.L ax / ((g.n ax : Q) - 1))
  else (List.range (g.n ax)).map fun i : ℕ => (i : Q) * (g.L ax / (g.n ax : Q))

/-- `equation.startswith(p)`, then the text after `p`. -/
def after (p : String) (eq : Str) : Option Str :=
  if p.toList.isPrefixOf eq then some (eq.drop p.toList.length) else none

/-- `abs(get_grid1d_seq(ax) - v).argmin()`. -/
def nearest (g : Geo Q) (ax : Axis) (v : Q) : ℕ := argmin ((grid g ax).map fun c => |c - v|)

/-- `field[iz, ...]`. -/
def cutZ (a : Arr3 F) (i : ℤ) : Except Err (Out F) :=
  match pyIndex a.nz i with
  | .error e => .error e
  | .ok k => .ok (.plane ⟨a.ny, a.nx, fun j i => a.get k j i⟩)

/-- `field[:, iy, :]`. -/
def cutY (a : Arr3 F) (i : ℤ) : Except Err (Out F) :=
  match pyIndex a.ny i with
  | .error e => .error e
  | .ok k => .ok (.plane ⟨a.nz, a.nx, fun j i => a.get j k i⟩)

/-- `field[..., ix]`. -/
def cutX (a : Arr3 F) (i : ℤ) : Except Err (Out F) :=
  match pyIndex a.nx i with
  | .error e => .error e
  | .ok k => .ok (.plane ⟨a.nz, a.ny, fun j i => a.get j i k⟩)

/-- `eval` followed by a use of the value. -/
def withVal {A B : Type*} (r : Except Err A) (f : A → Except Err B) : Except Err B :=
  match r with
  | .error e => .error e
  | .ok v => f v

/-- `get_field_to_plot_from_state` for a gathered field (base/output/phys_fields.py 236-281), `dims` is
`len(oper.axes)`. -/
def fromState (g : Geo Q) (ev : Ev Q) (dims : ℕ) (eq : Option Str) (a : Arr3 F) : Except Err (Out F) :=
  match eq with
  | none => .ok (.full a)
  | some eq =>
    if dims = 2 then .ok (.full a)
    else if let some s := after "iz=" eq then withVal (ev.int s) fun i => cutZ a i
    else if let some s := after "z=" eq then withVal (ev.num s) fun v => cutZ a (nearest g .z v)
    else if let some s := after "iy=" eq then withVal (ev.int s) fun i => cutY a i
    else if let some s := after "y=" eq then withVal (ev.num s) fun v => cutY a (nearest g .y v)
    else if let some s := after "ix=" eq then withVal (ev.int s) fun i => cutX a i
    else if let some s := after "x=" eq then withVal (ev.num s) fun v => cutX a (nearest g .x v)
    else .error .notImplemented

/-- `_get_field_to_plot_from_file` for the dataset `a` (base/output/phys_fields.py 346-384). -/
def fromFile (g : Geo Q) (ev : Ev Q) (eq : Option Str) (a : Arr3 F) : Except Err (Out F) :=
  match eq with
  | none => .ok (.full a)
  | some eq =>
    if let some s := after "iz=" eq then withVal (ev.int s) fun i => cutZ a i
    else if let some s := after "z=" eq then withVal (ev.num s) fun v => cutZ a (nearest g .z v)
    else if let some s := after "iy=" eq then withVal (ev.int s) fun i => cutY a i
    else if let some s := after "y=" eq then withVal (ev.num s) fun v => cutY a (nearest g .y v)
    else if let some s := after "ix=" eq then withVal (ev.int s) fun i => cutX a i
    else if let some s := after "x=" eq then withVal (ev.num s) fun v => cutX a (nearest g .x v)
    else .error .notImplemented

/-- One of two texts is a prefix. -/
def starts (p q : String) (eq : Str) : Bool := p.toList.isPrefixOf eq || q.toList.isPrefixOf eq

/-- `_get_xylabels_from_equation` (base/output/phys_fields3d.py 26-38): the axes of the figure. -/
def labels (eq : Str) : Except Err (Axis × Axis) :=
  if starts "iz=" "z=" eq then .ok (.x, .y)
  else if starts "iy=" "y=" eq then .ok (.x, .z)
  else if starts "ix=" "x=" eq then .ok (.y, .z)
  else .error .notImplemented

/-- `_get_axis_data` (base/output/phys_fields.py 286-321): the coordinates along the axes of the figure. -/
def axisData (g : Geo Q) (eq : Option Str) : Except Err (List Q × List Q) :=
  match eq with
  | none => .ok (grid g .x, grid g .y)
  | some eq =>
    if starts "iz=" "z=" eq then .ok (grid g .x, grid g .y)
    else if starts "iy=" "y=" eq then .ok (grid g .x, grid g .z)
    else if starts "ix=" "x=" eq then .ok (grid g .y, grid g .z)
    else .error .notImplemented

/-- The attributes of a `PhysFieldsBase3D` used for the sections: the equation and the axes of the vectors
(`key_vec_xaxis = "v" + axis`). -/
structure St where
  equation : Str
  vecx : Axis
  vecy : Axis
  deriving DecidableEq, Repr

/-- `set_equation_crosssection` (base/output/phys_fields3d.py 63-85): the object after the call and what the call
raises. -/
def setEquation (s : St) (eq : Str) : St × Except Err Unit :=
  if starts "iz=" "z=" eq then (⟨eq, .x, .y⟩, .ok ())
  else if starts "iy=" "y=" eq then (⟨eq, .x, .z⟩, .ok ())
  else if starts "ix=" "x=" eq then (⟨eq, .y, .z⟩, .ok ())
  else (⟨eq, s.vecx, s.vecy⟩, .error .notImplemented)

/-- The object after its initialisation (base/output/phys_fields3d.py 59-61). -/
def St.init : St := ⟨"iz=0".toList, .x, .y⟩

/-- Calls of `set_equation_crosssection`, the exceptions being caught by the caller. -/
def calls (s : St) (eqs : List Str) : St := eqs.foldl (fun s eq => (setEquation s eq).1) s

/-! ### Which field is plotted -/

/-- `get_key_field_to_plot` (base/output/phys_fields.py 77-94): `prefered` is the argument or
`params.output.phys_fields.field_to_plot`. -/
def getKey (coarse forbid : Bool) (prefered : Str) (phys computable : List Str) : Except Err Str :=
  let ok := if !coarse && !forbid then phys ++ computable else phys
  if prefered ∈ ok then .ok prefered
  else match phys with
    | [] => .error .index
    | k :: _ =>
      .ok ((["q", "rot", "rotz"].map String.toList).foldl (fun cur key => if key ∈ ok then key else cur) k)

/-- The argument `field` of `plot`. -/
inductive FieldArg where
  | none
  | array
  | key (k : Str)

/-- What is plotted: the field of the state, or the field read from the files at a time (`none`: the last file). -/
inductive Source (Q : Type*) where
  | state (key : Str)
  | files (key : Str) (time : Option Q)
  deriving DecidableEq, Repr

/-- `key_field` at the beginning of `plot` (base/output/phys_fields3d.py 137-148). -/
def keyOf {A : Type*} (coarse : Bool) (prefered : Str) (phys computable : List Str) (arg : FieldArg)
    (time : Option A) : Except Err Str :=
  match arg with
  | .none => getKey coarse time.isSome prefered phys computable
  | .array => .ok "given array".toList
  | .key k => .ok k

def FieldArg.ready : FieldArg → Bool
  | .array => true
  | _ => false

/-- `plot` of the one-dimensional solvers (base/output/phys_fields1d.py 37-63) up to the figure. -/
def plot1d (coarse : Bool) (prefered : Str) (phys computable : List Str) (arg : FieldArg) (time : Option Q) :
    Except Err (Source Q) :=
  match keyOf coarse prefered phys computable arg time with
  | .error e => .error e
  | .ok key =>
    if time.isNone && !arg.ready then .ok (.state key)
    else if key ∈ phys then .ok (.files key time) else .error .value

/-- `plot` of the two-dimensional solvers (base/output/phys_fields2d.py 265-315) up to the figure; `times` are the
times of the files. -/
def plot2d (coarse : Bool) (times : List Q) (prefered : Str) (phys computable : List Str) (arg : FieldArg)
    (time : Option Q) : Except Err (Source Q) :=
  match keyOf coarse prefered phys computable arg time with
  | .error e => .error e
  | .ok key =>
    if time.isNone && !arg.ready && !coarse then .ok (.state key)
    else match times.max? with
      | none => .error .index
      | some tmax =>
        let t := match time with
          | none => tmax
          | some t => if tmax < t then tmax else t
        if key ∈ phys then .ok (.files key (some t)) else .error .value

/-- `plot` of the three-dimensional solvers (base/output/phys_fields3d.py 131-203) up to the figure. -/
def plot3d (coarse : Bool) (prefered : Str) (phys computable : List Str) (arg : FieldArg) (time : Option Q) :
    Except Err (Source Q) :=
  match keyOf coarse prefered phys computable arg time with
  | .error e => .error e
  | .ok key =>
    if time.isNone && !arg.ready && !coarse then .ok (.state key)
    else if key ∈ phys then .ok (.files key time) else .error .value

/-! ### Time averages -/

variable {V : Type*} [AddCommGroup V] [Module Q V]

/-- `get_field_to_plot(key, time)` of the output (base/output/phys_fields.py 203-234): `st` is the section of the
state at the time `tnow`, `sec i` the one of the file `i`. -/
def fieldAtTime (coarse : Bool) (tnow : Q) (st : V) (times : List Q) (sec : ℕ → V) (time : Q) : Except Err V :=
  if coarse = false ∧ isclose time tnow then .ok st
  else match fieldInterp times sec time with
    | .error _ => .error .fileNotFound
    | .ok v => .ok v

/-- The loop of `plot_mean` (base/output/phys_fields3d.py 372-376). -/
def sumFields (f : Q → Except Err V) : List Q → Except Err V
  | [] => .ok 0
  | t :: ts => match f t with
    | .error e => .error e
    | .ok v => match sumFields f ts with
      | .error e => .error e
      | .ok w => .ok (v + w)

/-- `plot_mean` (base/output/phys_fields3d.py 342-386): the averaged field. -/
def plotMean (coarse : Bool) (tnow : Q) (st : V) (times : List Q) (sec : ℕ → V) (tmin tmax : Option Q) :
    Except Err V :=
  match (match tmin with | some t => some t | none => times.min?),
      (match tmax with | some t => some t | none => times.max?) with
  | some a, some b =>
    let sel := times.filter fun t => decide (a ≤ t ∧ t ≤ b)
    match sel with
    | [] => .error .index
    | _ :: _ => match sumFields (fieldAtTime coarse tnow st times sec) sel with
      | .error e => .error e
      | .ok s => .ok ((1 / (sel.length : Q)) • s)
  | _, _ => .error .value

/-! ### The first frame of a movie and the online plot -/

/-- Number of elements of `a[::step]` for an axis of length `n`. -/
def strided (n step : ℕ) : ℕ := (n + step - 1) / step

/-- The shape of `field[::step, ::step]`. -/
def stridedShape (step : ℕ) : List ℕ → List ℕ
  | a :: b :: l => strided a step :: strided b step :: l
  | l => l

/-- The assertion of `_init_fig` (lib/fluidsim_core/output/movies.py 663-667) for a field of shape `shape`. -/
def initFig (g : Geo Q) (eq : Option Str) (step : ℕ) (shape : List ℕ) : Except Err Unit :=
  match axisData g eq with
  | .error e => .error e
  | .ok (x, y) =>
    if stridedShape step shape = [strided y.length step, strided x.length step] then .ok () else .error .assertion

/-- The shape of the field given to `_init_fig`. -/
def Out.shape : Out F → List ℕ
  | .full a => [a.nz, a.ny, a.nx]
  | .plane a => [a.n0, a.n1]

/-- `_init_online_plot` (base/output/phys_fields2d.py 167-185) of a solver in space: the field is taken without
equation. -/
def initOnlinePlot3d (g : Geo Q) (ev : Ev Q) (s : St) (a : Arr3 F) : Except Err Unit :=
  match fromState g ev 3 none a with
  | .error e => .error e
  | .ok o => initFig g (some s.equation) 1 o.shape

end Verif.Sections
