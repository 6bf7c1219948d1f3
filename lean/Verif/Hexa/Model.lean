import Mathlib.Algebra.Order.Field.Basic
import Mathlib.Algebra.Order.Floor.Ring
import Mathlib.Data.List.Dedup
import Verif.PhysFiles.Model

/-!
# Files of hexahedral elements (C76)

Model of /repo/lib/fluidsim_core/hexa_files.py (`HexaField`, `SetOfPhysFieldFiles`), of the parts of
/repo/lib/fluidsim_core/output/phys_fields.py (120-140) and of
/repo/lib/fluidsim_core/output/movies.py (735-840) that use it.

Numbers are elements of an ordered field. An element has arrays `[iz, iy, ix]`. `pymech` (reading of
the files) is outside the model: a file is the list of its elements.
-/

namespace Verif.Hexa

/-- Exceptions. -/
inductive Err where
  | value
  | notImplemented
  | index
  deriving DecidableEq, Repr

/-! ### Keys -/

/-- Attributes of the elements. -/
inductive Var where
  | pos | vel | temp | pres | scal
  deriving DecidableEq, Repr

/-- `str.split()`. -/
def words (s : List Char) : List (List Char) :=
  (s.splitOnP (· = ' ')).filter (· ≠ [])

/-- `int(s)` for a text made of digits; `none` is `ValueError`. -/
def parseNat (s : List Char) : Option ℕ :=
  if s ≠ [] ∧ s.all Char.isDigit then
    some (s.foldl (fun n c => 10 * n + (c.toNat - '0'.toNat)) 0)
  else none

/-- `key in "xyz"`: substrings. -/
def inXyz (key : List Char) : Bool := "xyz".toList.tails.any fun t => key.isPrefixOf t

/-- Choice of the attribute and of the component (hexa_files.py 54-93). -/
def parseKey (key : List Char) : Except Err (Var × ℕ) :=
  if "v".toList.isPrefixOf key then
    if key = "vx".toList then .ok (.vel, 0)
    else if key = "vy".toList then .ok (.vel, 1)
    else if key = "vz".toList then .ok (.vel, 2)
    else .error .value
  else if inXyz key then
    if key = "x".toList then .ok (.pos, 0)
    else if key = "y".toList then .ok (.pos, 1)
    else if key = "z".toList then .ok (.pos, 2)
    else .error .value
  else if "temp".toList.isPrefixOf key then .ok (.temp, 0)
  else if "pres".toList.isPrefixOf key then .ok (.pres, 0)
  else if "scalar".toList.isPrefixOf key then
    match words key with
    | [_] => .ok (.scal, 0)
    | [_, n] => match parseNat n with
      | some i => .ok (.scal, i)
      | none => .error .value
    | _ => .error .value
  else .error .notImplemented

/-! ### Cuts -/

section cuts

variable {Q : Type*} [Field Q] [LinearOrder Q]

/-- An element: sizes and arrays `[iz, iy, ix]` of each component of each attribute. -/
structure Elem (Q : Type*) where
  nz : ℕ
  ny : ℕ
  nx : ℕ
  data : Var → ℕ → ℕ → ℕ → ℕ → Q

/-- Directions. -/
inductive Dir where
  | x | y | z
  deriving DecidableEq, Repr

/-- Component of `pos`. -/
def Dir.comp : Dir → ℕ
  | .x => 0
  | .y => 1
  | .z => 2

/-- Text of the equation to direction and number (hexa_files.py 95-129). Line 98 computes the text
without spaces and throws it away. -/
def parseEq (toFloat : List Char → Option Q) (eq : Option (List Char)) : Except Err (Dir × Q) :=
  let eq := eq.getD "z=0".toList
  let num (d : Dir) : Except Err (Dir × Q) := match toFloat (eq.drop 2) with
    | some q => .ok (d, q)
    | none => .error .value
  if "z=".toList.isPrefixOf eq then num .z
  else if "y=".toList.isPrefixOf eq then num .y
  else if "x=".toList.isPrefixOf eq then num .x
  else .error .notImplemented

/-- `get_letters_axes_from_equation` (hexa_files.py 417-430); here the spaces are removed. -/
def axesOf (eq : List Char) : Except Err (Dir × Dir) :=
  let eq := eq.filter (· ≠ ' ')
  if "z=".toList.isPrefixOf eq then .ok (.x, .y)
  else if "y=".toList.isPrefixOf eq then .ok (.x, .z)
  else if "x=".toList.isPrefixOf eq then .ok (.z, .y)
  else .error .notImplemented

/-- All the values of an array. -/
def Elem.values (e : Elem Q) (a : ℕ → ℕ → ℕ → Q) : List Q :=
  (List.range e.nz).flatMap fun i => (List.range e.ny).flatMap fun j =>
    (List.range e.nx).map fun k => a i j k

/-- `a.min() <= target <= a.max()`. -/
def between (l : List Q) (target : Q) : Bool := l.any (· ≤ target) && l.any (target ≤ ·)

/-- `index_z`, `index_y` or `index_x` (hexa_files.py 104-127): `z_3d[:, 0, 0]`, and also
`y_3d[:, 0, 0]` and `x_3d[:, 0, 0]`. -/
def cutIndex (e : Elem Q) (d : Dir) (target : Q) : ℕ :=
  let line := (List.range e.nz).map fun i => e.data .pos d.comp i 0 0
  PhysFiles.argmin (line.map fun c => |c - target|)

/-- A two-dimensional array. -/
structure Arr (Q : Type*) where
  n0 : ℕ
  n1 : ℕ
  val : ℕ → ℕ → Q

/-- `arr_3d[index_z, index_y, index_x]` (hexa_files.py 131) with one index and two full slices. -/
def layer (e : Elem Q) (d : Dir) (i : ℕ) (a : ℕ → ℕ → ℕ → Q) : Except Err (Arr Q) :=
  match d with
  | .z => if i < e.nz then .ok ⟨e.ny, e.nx, fun j k => a i j k⟩ else .error .index
  | .y => if i < e.ny then .ok ⟨e.nz, e.nx, fun j k => a j i k⟩ else .error .index
  | .x => if i < e.nx then .ok ⟨e.nz, e.ny, fun j k => a j k i⟩ else .error .index

/-- The loop on the elements (hexa_files.py 102-141). -/
def cutAll (d : Dir) (target : Q) (var : Var) (c : ℕ) : List (Elem Q) → Except Err (List (Arr Q))
  | [] => .ok []
  | e :: es =>
    if between (e.values (e.data .pos d.comp)) target then
      match layer e d (cutIndex e d target) (e.data var c) with
      | .error err => .error err
      | .ok a => (cutAll d target var c es).map (a :: ·)
    else cutAll d target var c es

/-- `HexaField(key, hexa_data, equation=equation).arrays`. -/
def hexaField (toFloat : List Char → Option Q) (key : List Char) (eq : Option (List Char))
    (elems : List (Elem Q)) : Except Err (List (Arr Q)) :=
  match parseKey key with
  | .error e => .error e
  | .ok (var, c) =>
    if elems = [] then .ok []
    else match parseEq toFloat eq with
      | .error e => .error e
      | .ok (d, target) => cutAll d target var c elems

/-! ### Edges, extrema -/

/-- `get_edges_2d` (hexa_files.py 30-46), of shape `(ny + 1, nx + 1)`. -/
def edges (a : Arr Q) (iy ix : ℕ) : Q :=
  let r := if iy = 0 then 0 else a.n0 - 1
  let c := if ix = 0 then 0 else a.n1 - 1
  if iy = 0 ∨ iy = a.n0 then
    if ix = 0 ∨ ix = a.n1 then a.val r c
    else 1 / 2 * (a.val r (ix - 1) + a.val r ix)
  else if ix = 0 ∨ ix = a.n1 then 1 / 2 * (a.val (iy - 1) c + a.val iy c)
  else 1 / 4 * (a.val (iy - 1) (ix - 1) + a.val iy ix + a.val iy (ix - 1) + a.val (iy - 1) ix)

/-- All the values, in the order of `flatten`. -/
def Arr.flat (a : Arr Q) : List Q :=
  (List.range a.n0).flatMap fun j => (List.range a.n1).map fun k => a.val j k

/-- `arr.min()` of a non-empty list. -/
def listMin : List Q → Q → Q
  | [], m => m
  | x :: l, m => listMin l (if x < m then x else m)

/-- Body of the loop of `HexaField.min` (hexa_files.py 183-186); `none` is `inf`. -/
def minStep (r : Option Q) (a : Arr Q) : Option Q := match a.flat, r with
  | [], r => r
  | x :: l, none => some (listMin l x)
  | x :: l, some r => if listMin l x < r then some (listMin l x) else some r

/-- `HexaField.min` (hexa_files.py 181-187); `none` is `inf`. -/
def fieldMin (as : List (Arr Q)) : Option Q := as.foldl minStep none

/-- `HexaField.max` (hexa_files.py 189-195), as the opposite of a minimum of opposites. -/
def fieldMax (as : List (Arr Q)) : Option Q :=
  (fieldMin (as.map fun a => { a with val := fun j k => -a.val j k })).map (-·)

/-! ### Arrows -/

/-- `np.linspace(a, b, n)`. -/
def linspace (a b : Q) (n : ℕ) : List Q :=
  if n = 1 then [a] else (List.range n).map fun (i : ℕ) => a + i * ((b - a) / ((n : ℕ) - 1 : ℕ))

/-- The nested loops with `continue` below the interval and `break` above it. -/
def scan {A : Type*} (lo hi : Q) (f : Q → List A) : List Q → List A
  | [] => []
  | y :: l => if y < lo then scan lo hi f l else if hi < y then [] else f y ++ scan lo hi f l

/-- `((x_2d - x) ** 2 + (y_2d - y) ** 2).argmin()`: index in the flattened arrays. -/
def nearestPoint (X Y : List Q) (x y : Q) : ℕ :=
  PhysFiles.argmin (List.zipWith (fun a b => (a - x) ^ 2 + (b - y) ^ 2) X Y)

/-- Minimum and maximum of a list (`0` for the empty one). -/
def lmin (l : List Q) : Q := match l with
  | [] => 0
  | x :: l => listMin l x

/-- Maximum. -/
def lmax (l : List Q) : Q := -lmin (l.map (-·))

/-- The grid points of one element with an arrow, `sorted(set(...))` (hexa_files.py 358-384); an index
of the flattened arrays stands for a pair `(iy, ix)`, in the same order. -/
def arrowsInElem (xs ys : List Q) (X Y : List Q) : List ℕ :=
  ((scan (lmin Y) (lmax Y) (fun y => scan (lmin X) (lmax X) (fun x => [nearestPoint X Y x y]) xs)
    ys).dedup).mergeSort (· ≤ ·)

/-- `x_approx_quiver` and `y_approx_quiver` (hexa_files.py 339-354); `int` is the floor. -/
def approxPoints [FloorRing Q] (pct : Q) (xmin xmax _ymin ymax : Q) : List Q × List Q :=
  let dx := pct / 100 * (xmax - xmin)
  let nx := ⌊(xmax - xmin) / dx⌋₊
  let ny := ⌊(ymax - _ymin) / dx⌋₊
  (linspace (xmin + dx) (xmax - dx) nx, linspace (xmin + dx) (ymax - dx) ny)

/-- An arrow. -/
structure Arrow (Q : Type*) where
  x : Q
  y : Q
  vx : Q
  vy : Q
  deriving DecidableEq, Repr

/-- One element of the figure: flattened coordinates and velocities. -/
structure FlatElem (Q : Type*) where
  X : List Q
  Y : List Q
  VX : List Q
  VY : List Q

/-- `init_quiver_1st_step` followed by `compute_vectors_quiver` (hexa_files.py 356-414) for given
approximate positions. -/
def arrowsAt (xs ys : List Q) (es : List (FlatElem Q)) : List (Arrow Q) :=
  es.flatMap fun e => (arrowsInElem xs ys e.X e.Y).map fun i =>
    ⟨e.X.getD i 0, e.Y.getD i 0, e.VX.getD i 0, e.VY.getD i 0⟩

/-- The arrows of `plot_hexa` without normalisation (hexa_files.py 488-499). -/
def arrows [FloorRing Q] (pct : Q) (es : List (FlatElem Q)) : List (Arrow Q) :=
  let Xs := es.flatMap FlatElem.X
  let Ys := es.flatMap FlatElem.Y
  let p := approxPoints pct (lmin Xs) (lmax Xs) (lmin Ys) (lmax Ys)
  arrowsAt p.1 p.2 es

/-! ### The value under the cursor -/

/-- A drawn element: flattened coordinates and colours. -/
structure Drawn (Q : Type*) where
  X : List Q
  Y : List Q
  C : List Q

/-- `on_move` (hexa_files.py 285-322): value shown in the toolbar; `none`: no message. -/
def onMove (es : List (Drawn Q)) (x y : Q) : Option Q :=
  let touched := es.filterMap fun e =>
    if lmin e.X ≤ x ∧ x ≤ lmax e.X ∧ lmin e.Y ≤ y ∧ y ≤ lmax e.Y then
      let i := nearestPoint e.X e.Y x y
      some ((e.X.getD i 0 - x) ^ 2 + (e.Y.getD i 0 - y) ^ 2, e.C.getD i 0)
    else none
  (touched.mergeSort (fun a b => a.1 ≤ b.1)).head?.map Prod.snd

/-! ### Times and files -/

/-- `update_times` (output/phys_fields.py 126-138): nothing is done when the number of files is the
same. -/
def updateTimes {P : Type*} (known glob : List P) : List P :=
  if known.length = glob.length then known else glob

/-- A `HexaField` as a value: arrays and attribute `time`. -/
structure HField (Q : Type*) where
  arrays : List (Arr Q)
  time : Q

/-- `field * w` (hexa_files.py 163-169). -/
def HField.mul (f : HField Q) (w : Q) : HField Q :=
  ⟨f.arrays.map fun a => { a with val := fun j k => w * a.val j k }, f.time⟩

/-- `f + g` (hexa_files.py 173-179). -/
def HField.add (f g : HField Q) : HField Q :=
  ⟨List.zipWith (fun a b => { a with val := fun j k => a.val j k + b.val j k }) g.arrays f.arrays,
    (f.time + g.time) / 2⟩

/-- The field drawn between the files of times `f.time < t < g.time` (output/phys_fields.py
185-199). -/
def interpolated (f g : HField Q) (t : Q) : HField Q :=
  let dt := g.time - f.time
  HField.add (f.mul (1 - |t - f.time| / dt)) (g.mul (1 - |t - g.time| / dt))

/-- The velocity drawn at the time `t` by the movie (hexa_files.py 523-538, "temporary hack"):
the one of the file of the closest time. -/
def vectorFile (times : List Q) (t : Q) : ℕ := PhysFiles.argmin (times.map fun s => |s - t|)

/-- `skip_vars` of the movies (movies.py 770-775). -/
def skipVars (key : List Char) : List Var :=
  (if key ≠ "temperature".toList then [.temp] else []) ++
    (if key ≠ "pressure".toList then [.pres] else [])

end cuts

end Verif.Hexa
